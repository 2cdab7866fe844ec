import Verif.Model.Command
import Verif.Props.Help
/-!
# C54: command line dispatch; C57: exit codes
-/
namespace HS
variable {α σ : Type} (lower : Char → String)

theorem badOverride_none (os : List String) : badOverride os = .none ↔ ∀ o ∈ os, '=' ∈ o.toList := by
  induction os with
  | nil => simp [badOverride]
  | cons o os ih =>
    unfold badOverride
    by_cases h : '=' ∈ o.toList
    · simp [h, ih]
    · simp [h]

theorem badOverride_some {os : List String} {o : String} (h : badOverride os = some o) : o ∈ os ∧ '=' ∉ o.toList := by
  induction os with
  | nil => simp [badOverride] at h
  | cons x os ih =>
    unfold badOverride at h
    by_cases hx : '=' ∈ x.toList
    · rw [if_pos hx] at h
      exact ⟨List.mem_cons_of_mem _ (ih h).1, (ih h).2⟩
    · rw [if_neg hx] at h
      cases h
      exact ⟨List.mem_cons_self, hx⟩

theorem helpExit_not_returned (ty : PyTy) (c : Int) (qs : List String) (r : α) : helpExit lower ty c qs ≠ .returned r := by
  unfold helpExit
  split <;> intro h <;> exact (nomatch h)

theorem handleExc_not_returned (ty : PyTy) (e : Err) (r : α) : handleExc lower ty e ≠ .returned r := by
  cases e with
  | fieldsNotFound ps => exact helpExit_not_returned lower ty 1 ps r
  | fieldNotFound p => exact helpExit_not_returned lower ty 1 [p] r
  | _ => intro h; exact (nomatch h)

/-- C54: a plain command runs the user's function (and returns what it returns) exactly when no help is asked for, all
hyperparameters contain `=`, and the config loads; the function gets the loaded config. -/
theorem C54_command (w : World) (files : String → Except Err Val) (ty : PyTy) (f : Val → Except Err α) (a : Args) (r : α) :
    commandMain lower w files ty f a = .returned r ↔
      a.hpsInfo = .none ∧ (∀ o ∈ a.hyperparams, '=' ∈ o.toList) ∧
      ∃ cfg, (match a.config with
        | .none => hsLoad w ty .none (some a.hyperparams)
        | some p => do hsLoad w ty (some (← files p)) (some a.hyperparams)) = .ok cfg ∧ f cfg = .ok r := by
  rw [← badOverride_none]
  show _ ↔ _ ∧ _ ∧ ∃ cfg, cmdLoad w files ty a = .ok cfg ∧ f cfg = .ok r
  unfold commandMain
  cases a.hpsInfo with
  | some q => simp [helpExit_not_returned]
  | none =>
    cases badOverride a.hyperparams with
    | some o => simp [helpExit_not_returned]
    | none =>
      cases cmdLoad w files ty a with
      | error e => simp [handleExc_not_returned]
      | ok cfg => cases hf : f cfg <;> simp [hf]

/-- C54: a stateful command runs the user's function exactly when no help is asked for, `--config` and `--resume-from` are not
both given, all hyperparameters contain `=`, and the state manager can be made; the manager starts from `--config`, or
from `--resume-from` if that is not given. Missing: an empty `--config` counts as not given (`C54_empty_config_false`). -/
theorem C54_stateful_partial (ty : PyTy) (mk : SMArgs → Except Err σ) (f : σ → Except Err α) (a : Args) (r : α)
    (he : a.config ≠ some "") :
    statefulMain lower ty mk f a = .returned r ↔
      a.hpsInfo = .none ∧ ¬ (a.config.isSome = true ∧ a.resumeFrom.isSome = true) ∧ (∀ o ∈ a.hyperparams, '=' ∈ o.toList) ∧
      ∃ sm, mk ⟨match a.config with | some c => some c | .none => a.resumeFrom, a.checkpointDir, a.hyperparams⟩ = .ok sm ∧
        f sm = .ok r := by
  have h0 : orStr a.config a.resumeFrom = (match a.config with | some c => some c | .none => a.resumeFrom) := by
    cases hc : a.config with
    | none => rfl
    | some c =>
      have : ¬ c = "" := fun h => he (by rw [hc, h])
      simp [orStr, this]
  rw [← badOverride_none, ← h0]
  unfold statefulMain
  cases a.hpsInfo with
  | some q => simp [helpExit_not_returned]
  | none =>
    by_cases hb : (a.config.isSome && a.resumeFrom.isSome) = true
    · simp only [hb, if_true]
      rw [Bool.and_eq_true] at hb
      simp [hb]
    · simp only [hb]
      rw [Bool.and_eq_true] at hb
      cases badOverride a.hyperparams with
      | some o => simp [helpExit_not_returned]
      | none =>
        cases mk ⟨orStr a.config a.resumeFrom, a.checkpointDir, a.hyperparams⟩ with
        | error e => simp
        | ok sm => cases hf : f sm <;> simp [hf, handleExc_not_returned, hb]

/-- C54: help is printed, and the program ends with code 0, whatever else is on the command line. -/
theorem C54_help (w : World) (files : String → Except Err Val) (ty : PyTy) (f : Val → Except Err α)
    (mk : SMArgs → Except Err σ) (g : σ → Except Err α) (a : Args) (q : String) (h : HelpOut)
    (hq : a.hpsInfo = some q) (hh : helpCmd lower ty q = .ok h) :
    commandMain lower w files ty f a = .exit 0 [h] ∧ statefulMain lower ty mk g a = .exit 0 [h] := by
  simp [commandMain, statefulMain, hq, helpExit, helpEach, hh, bind, Except.bind, pure, Except.pure]

/-- An empty `--config` counts as not given: the manager is made without an initial path. -/
theorem C54_empty_config_false : ∃ (a : Args), a.config = some "" ∧ ∀ (ty : PyTy),
    statefulMain lower ty (fun s => .ok s) (fun s => .ok s) a = .returned ⟨.none, .none, []⟩ :=
  ⟨⟨some "", .none, [], .none, .none⟩, rfl, fun _ => rfl⟩

/-- The conditions of the C54 theorems can hold: a run with `--resume-from` and a hyperparameter. -/
example (ty : PyTy) : statefulMain lower ty (fun s => .ok s) (fun s => .ok s) ⟨.none, .none, ["lr=0.1"], some "out", some "ckpt"⟩ =
    .returned ⟨some "ckpt", some "out", ["lr=0.1"]⟩ := rfl
/-- … and fail: both are given. -/
example (ty : PyTy) : statefulMain lower ty (fun s => Except.ok s) (fun s => .ok s) ⟨some "a.ron", .none, [], .none, some "ckpt"⟩ =
    .exit 1 [] := rfl

/-! ## C57 -/

/-- the errors for which a message is printed -/
def Reported : Err → Prop
  | .fieldsNotFound _ | .fieldNotFound _ | .deserType | .deserValue => True
  | _ => False

theorem helpCmd_total (ty : PyTy) (N : String) (F : List (String × SFld)) (v : Option Int)
    (hm : materialize ty = .ok (.struct N F v)) (q : String) : ∃ h, helpCmd lower ty q = .ok h := by
  simp only [helpCmd, hm, bind, Except.bind, pure, Except.pure]
  split
  · exact ⟨_, rfl⟩
  · obtain ⟨rs, h⟩ := helpF_total lower q F []
    rw [h]
    exact ⟨_, rfl⟩

theorem helpEach_total (ty : PyTy) (N : String) (F : List (String × SFld)) (v : Option Int)
    (hm : materialize ty = .ok (.struct N F v)) : ∀ qs : List String, ∃ hs, helpEach lower ty qs = .ok hs ∧ hs.length = qs.length
  | [] => ⟨[], rfl, rfl⟩
  | q :: qs => by
    obtain ⟨h, h1⟩ := helpCmd_total lower ty N F v hm q
    obtain ⟨hs, h2, h3⟩ := helpEach_total ty N F v hm qs
    exact ⟨h :: hs, by simp [helpEach, h1, h2, bind, Except.bind, pure, Except.pure], by simp [h3]⟩

/-- C57: when the config cannot be loaded because of an unknown override or a value of a wrong type, the command ends with
exit code 1 and prints help once for each unknown override. Missing: a hyperparameter without `=` is reported as an error
but gives exit code 0 (`C57_malformed_false`). -/
theorem C57_errors_partial (w : World) (files : String → Except Err Val) (ty : PyTy) (f : Val → Except Err α) (a : Args)
    (N : String) (F : List (String × SFld)) (v : Option Int) (hm : materialize ty = .ok (.struct N F v))
    (hq : a.hpsInfo = .none) (ho : ∀ o ∈ a.hyperparams, '=' ∈ o.toList) (e : Err)
    (he : (match a.config with
      | .none => hsLoad w ty .none (some a.hyperparams)
      | some p => do hsLoad w ty (some (← files p)) (some a.hyperparams)) = .error e)
    (hr : Reported e) :
    ∃ hs, commandMain lower w files ty f a = .exit 1 hs ∧
      hs.length = (match e with | .fieldsNotFound ps => ps.length | .fieldNotFound _ => 1 | _ => 0) := by
  replace he : cmdLoad w files ty a = .error e := he
  simp only [commandMain, hq, (badOverride_none _).2 ho, he]
  cases e with
  | fieldsNotFound ps =>
    obtain ⟨hs, h1, h2⟩ := helpEach_total lower ty N F v hm ps
    exact ⟨hs, by simp [handleExc, helpExit, h1], h2⟩
  | fieldNotFound p =>
    obtain ⟨hs, h1, h2⟩ := helpEach_total lower ty N F v hm [p]
    exact ⟨hs, by simp [handleExc, helpExit, h1], h2⟩
  | deserType => exact ⟨[], rfl, rfl⟩
  | deserValue => exact ⟨[], rfl, rfl⟩
  | _ => exact hr.elim

/-- C57: any other exception is passed on, and the user's function is not called. -/
theorem C57_other (w : World) (files : String → Except Err Val) (ty : PyTy) (f : Val → Except Err α) (a : Args)
    (hq : a.hpsInfo = .none) (ho : ∀ o ∈ a.hyperparams, '=' ∈ o.toList) (e : Err)
    (he : (match a.config with
      | .none => hsLoad w ty .none (some a.hyperparams)
      | some p => do hsLoad w ty (some (← files p)) (some a.hyperparams)) = .error e)
    (hr : ¬ Reported e) : commandMain lower w files ty f a = .raised e := by
  replace he : cmdLoad w files ty a = .error e := he
  simp only [commandMain, hq, (badOverride_none _).2 ho, he]
  cases e with
  | fieldsNotFound ps => exact absurd trivial hr
  | fieldNotFound p => exact absurd trivial hr
  | deserType => exact absurd trivial hr
  | deserValue => exact absurd trivial hr
  | _ => rfl

/-- C57: what the user's function raises is passed on unchanged, also if it is an error of the kinds reported for configs. -/
theorem C57_user_error (w : World) (files : String → Except Err Val) (ty : PyTy) (f : Val → Except Err α) (a : Args)
    (hq : a.hpsInfo = .none) (ho : ∀ o ∈ a.hyperparams, '=' ∈ o.toList) (cfg : Val)
    (hl : (match a.config with
      | .none => hsLoad w ty .none (some a.hyperparams)
      | some p => do hsLoad w ty (some (← files p)) (some a.hyperparams)) = .ok cfg) (e : Err)
    (he : f cfg = .error e) : commandMain lower w files ty f a = .raised e := by
  replace hl : cmdLoad w files ty a = .ok cfg := hl
  simp only [commandMain, hq, (badOverride_none _).2 ho, hl, he]

/-- C57: conflicting options. With both `--config` and `--resume-from` the program ends with exit code 1, and neither a StateManager is
created nor the user's function called: the outcome is the same whatever they are. -/
theorem C57_conflict (ty : PyTy) (mk : SMArgs → Except Err σ) (f : σ → Except Err α) (a : Args) (hq : a.hpsInfo = .none)
    (c r : String) (hc : a.config = some c) (hr : a.resumeFrom = some r) : statefulMain lower ty mk f a = .exit 1 [] := by
  simp [statefulMain, hq, hc, hr]

example : let a : Args := ⟨some "config.ron", .none, ["lr=1"], .none, some "checkpoints"⟩
    a.hpsInfo = .none ∧ a.config = some "config.ron" ∧ a.resumeFrom = some "checkpoints" := ⟨rfl, rfl, rfl⟩

/-- C57 for stateful commands, where the config is read when the user's function asks for it: what cannot be loaded there ends the
program with exit code 1 and help for each unknown override, and any other exception is passed on. Missing: as in
`C57_errors_partial`. -/
theorem C57_stateful_partial (ty : PyTy) (mk : SMArgs → Except Err σ) (f : σ → Except Err α) (a : Args)
    (N : String) (F : List (String × SFld)) (v : Option Int) (hm : materialize ty = .ok (.struct N F v))
    (hq : a.hpsInfo = .none) (hb : ¬ (a.config.isSome = true ∧ a.resumeFrom.isSome = true)) (he : a.config ≠ some "")
    (ho : ∀ o ∈ a.hyperparams, '=' ∈ o.toList) (sm : σ)
    (hmk : mk ⟨match a.config with | some c => some c | .none => a.resumeFrom, a.checkpointDir, a.hyperparams⟩ = .ok sm)
    (e : Err) (hf : f sm = .error e) :
    (Reported e → ∃ hs, statefulMain lower ty mk f a = .exit 1 hs ∧
      hs.length = (match e with | .fieldsNotFound ps => ps.length | .fieldNotFound _ => 1 | _ => 0)) ∧
    (¬ Reported e → statefulMain lower ty mk f a = .raised e) := by
  have h0 : orStr a.config a.resumeFrom = (match a.config with | some c => some c | .none => a.resumeFrom) := by
    cases hc : a.config with
    | none => rfl
    | some c =>
      have : ¬ c = "" := fun h => he (by rw [hc, h])
      simp [orStr, this]
  have hb' : (a.config.isSome && a.resumeFrom.isSome) = false := by
    rw [← Bool.not_eq_true, Bool.and_eq_true]; exact hb
  rw [← h0] at hmk
  have hmain : statefulMain lower ty mk f a = handleExc lower ty e := by
    simp [statefulMain, hq, hb', (badOverride_none _).2 ho, hmk, hf]
  rw [hmain]
  cases e with
  | fieldsNotFound ps =>
    obtain ⟨hs, h1, h2⟩ := helpEach_total lower ty N F v hm ps
    exact ⟨fun _ => ⟨hs, by simp [handleExc, helpExit, h1], h2⟩, fun h => absurd trivial h⟩
  | fieldNotFound p =>
    obtain ⟨hs, h1, h2⟩ := helpEach_total lower ty N F v hm [p]
    exact ⟨fun _ => ⟨hs, by simp [handleExc, helpExit, h1], h2⟩, fun h => absurd trivial h⟩
  | deserType => exact ⟨fun _ => ⟨[], rfl, rfl⟩, fun h => absurd trivial h⟩
  | deserValue => exact ⟨fun _ => ⟨[], rfl, rfl⟩, fun h => absurd trivial h⟩
  | _ => exact ⟨fun h => h.elim, fun _ => rfl⟩

/-- C57 is false for hyperparameters without `=`: the command prints an error and exits with code 0 without running. -/
theorem C57_malformed_false (w : World) (files : String → Except Err Val) (ty : PyTy) (f : Val → Except Err α) (a : Args)
    (N : String) (F : List (String × SFld)) (v : Option Int) (hm : materialize ty = .ok (.struct N F v))
    (hq : a.hpsInfo = .none) (o : String) (ho : o ∈ a.hyperparams) (hn : '=' ∉ o.toList) :
    ∃ hs, commandMain lower w files ty f a = .exit 0 hs := by
  cases hb : badOverride a.hyperparams with
  | none => exact absurd ((badOverride_none _).1 hb o ho) hn
  | some o' =>
    obtain ⟨hs, h1, _⟩ := helpEach_total lower ty N F v hm [o']
    exact ⟨hs, by simp [commandMain, hq, hb, helpExit, h1]⟩

/-- The hypotheses of `C57_malformed_false` are met. -/
example : (∃ F, materialize (.data "Main" Ex.hFields .none) = .ok (.struct "Main" F .none)) ∧ "lr" ∈ ["seed=1", "lr"] ∧
    '=' ∉ "lr".toList := ⟨⟨_, rfl⟩, by simp, by decide +kernel⟩

/-- The hypotheses of `C57_errors_partial` are met by an unknown override. -/
example (w : World) (files : String → Except Err Val) :
    cmdLoad w files (.data "Main" Ex.hFields .none) ⟨.none, .none, ["nope=1"], .none, .none⟩ = .error (.fieldNotFound "nope") ∧
    (∀ o ∈ ["nope=1"], '=' ∈ o.toList) := by
  refine ⟨rfl, by decide +kernel⟩

/-- A function that reads a missing field of another config: nothing is swallowed. -/
example (w : World) (files : String → Except Err Val) : (∃ cfg,
    cmdLoad w files (.data "Main" [.mk "lr" .int (some (.int 1))] .none) ⟨.none, .none, [], .none, .none⟩ = .ok cfg) :=
  ⟨_, rfl⟩

end HS
