import Verif.Props.ConfigFits
import Verif.Props.OverrideLoad
/-!
# C73: examples and the counterexample
-/
namespace HS

/-- C73 is false when an upgrade rule touches the overridden field: the first load gives 1 in spite of the override, the config is saved,
and the second load gives 5. -/
theorem C73_false : ∃ (w : World) (ty : PyTy) (doc doc2 : Val) (os : List String) (l l2 : Loaded),
    smLoadConfig w ty (some doc) os false = .ok l ∧ typedDump w.env (some l.schedules) false l.value = .ok (doc2, []) ∧
    smLoadConfig w ty (some doc2) os false = .ok l2 ∧ smLoadConfig w ty (some doc2) [] false = .ok l ∧
    l.value.attr ["lr"] = some (.int 1) ∧ l2.value.attr ["lr"] = some (.int 5) := by
  refine ⟨{ Ex.world with ron := Ex.ronIdent, env := fun _ => ⟨some 1, [("lr", .none)]⟩ },
    .data "C" [.mk "lr" .int none] (some ⟨1, [(0, [.rename ["learning_rate"] ["lr"]])]⟩),
    .dict [("version", .int 0), ("learning_rate", .int 1)], .dict [(NAME_KEY, .str "C"), ("version", .int 1), ("lr", .int 1)], ["lr=5"],
    ⟨.inst "C" [("lr", .int 1)], [], []⟩, ⟨.inst "C" [("lr", .int 5)], [], []⟩, ?_, ?_, ?_, ?_, ?_, ?_⟩ <;> rfl

namespace ExM

/-- a parser of RON that knows two numbers and one string -/
def ovRon : RonParse := fun s => if s = "5" then .ok (.int 5) else if s = "4" then .ok (.int 4) else if s = "\"step: 0@0 lin 1000000@1000000\"" then .ok (.str txt)
  else .error .valueError

/-- a manager that is started with a config file and overrides: one installs a schedule, two are for the same field -/
def ovEnv : MgrEnv :=
  { E with ckpt := false, w := { w with ron := ovRon }, init := .file (.dict [("opt", .dict [("lr", .int 1)]), ("n", .int 3)])
           overrides := ["n=4", "opt.lr=\"step: 0@0 lin 1000000@1000000\"", "n=5"] }

def ovDoc : Val := .dict [("opt", .dict [("lr", .str txt)]), ("n", .int 5)]

theorem ov_applied : applyOverrides ovEnv.w.ron ovEnv.cfgTy ovEnv.overrides (.dict [("opt", .dict [("lr", .int 1)]), ("n", .int 3)]) =
    .ok ovDoc := rfl

theorem ov1 {key p s} (h : IsOv "opt.lr=\"step: 0@0 lin 1000000@1000000\"" key p s) : p = ["opt", "lr"] := by
  have h1 : IsOv "opt.lr=\"step: 0@0 lin 1000000@1000000\"" "opt.lr" ["opt", "lr"] "\"step: 0@0 lin 1000000@1000000\"" :=
    ⟨by decide, by decide, by decide⟩
  exact (isOv_unique h h1).2.1

theorem ov2 {key p s} (h : IsOv "n=5" key p s) : p = ["n"] :=
  (isOv_unique h (⟨by decide, by decide, by decide⟩ : IsOv "n=5" "n" ["n"] "5")).2.1

theorem ov3 {key p s} (h : IsOv "n=4" key p s) : p = ["n"] :=
  (isOv_unique h (⟨by decide, by decide, by decide⟩ : IsOv "n=4" "n" ["n"] "4")).2.1

theorem ov_class : CfgClass ovEnv where
  cfg := ⟨_, _, _, rfl⟩
  ty := by simp [ovEnv, E, cfgTy, TyOK, FldsOK, FldOK, NameOK, VerOK, Fld.name]; decide
  ids := by simp [ovEnv, E, cfgTy, IdsOK, IdsOKf, IdsOK1, NameOK, IdOK, Fld.name]; decide
  decl := by simp [ovEnv, E, cfgTy, DeclOK, DeclOKf, DeclOK1, Fld.name]
  firm := by simp [ovEnv, E, cfgTy, FirmDecl, FirmDeclf, FirmDecl1]
  apart := by
    refine List.Pairwise.cons ?_ (List.Pairwise.cons ?_ (List.Pairwise.cons nofun List.Pairwise.nil))
    · intro o ho key p s key' p' s' h h'
      simp only [List.mem_cons, List.not_mem_nil, or_false] at ho
      rcases ho with rfl | rfl
      · rw [ov3 h, ov1 h']
        simp [Unrelated]
      · rw [ov3 h, ov2 h']
        exact .inr rfl
    · intro o ho key p s key' p' s' h h'
      simp only [List.mem_singleton] at ho
      subst ho
      rw [ov1 h, ov2 h']
      simp [Unrelated]

theorem ov_noMark : NoMark ovDoc := by
  intro q
  match q with
  | [] => rfl
  | [k] =>
    simp only [ovDoc, List.cons_append, List.nil_append, at?_dict_cons, dget]
    split
    · rfl
    · split <;> rfl
  | k :: k' :: ks =>
    simp only [ovDoc, List.cons_append, at?_dict_cons, dget]
    split
    · simp only [Option.bind_some, at?_dict_cons, dget]
      split
      · cases ks <;> rfl
      · rfl
    · split <;> rfl

theorem ov_doc : CfgDoc ovEnv ovDoc := by
  refine ⟨by simp [ovDoc, Plain, PlainD, PlainP, dkeys], ?_, fun _ => ov_noMark, ?_⟩
  · simp [ovEnv, E, cfgTy, Shallow, ShallowFs, ShallowF, ovDoc, upgraded, docEntries, Val.isInst, dkeys]
  · intro n fs ver h o ho
    cases h
    simp only [ovEnv, List.mem_cons, List.not_mem_nil, or_false] at ho
    rcases ho with rfl | rfl | rfl
    · refine ⟨fun key p s h => ?_, fun _ _ _ _ _ h => (nomatch h)⟩
      cases ov3 h
      refine ⟨.int, .here (f := .mk "n" .int none) rfl, nofun, ?_⟩
      intro x hx
      cases (show x = .int 5 by simpa [ovDoc, at?_dict_cons, dget] using hx.symm)
      exact .inl (by simp [NoSched])
    · refine ⟨fun key p s h => ?_, fun _ _ _ _ _ h => (nomatch h)⟩
      cases ov1 h
      refine ⟨.int, .there (f := .mk "opt" (.data "Opt" [.mk "lr" .int none] none) none) rfl (.refl _ _ _) (.here (f := .mk "lr" .int none) rfl), nofun, ?_⟩
      intro x hx
      cases (show x = .str txt by simpa [ovDoc, at?_dict_cons, dget] using hx.symm)
      exact .inr ⟨txt, true, .int (by decide)⟩
    · refine ⟨fun key p s h => ?_, fun _ _ _ _ _ h => (nomatch h)⟩
      cases ov2 h
      refine ⟨.int, .here (f := .mk "n" .int none) rfl, nofun, ?_⟩
      intro x hx
      cases (show x = .int 5 by simpa [ovDoc, at?_dict_cons, dget] using hx.symm)
      exact .inl (by simp [NoSched])

theorem ov_loaded {doc1 : Val} (h : LoadedDoc ovEnv [] doc1) : doc1 = ovDoc := by
  have hopen : openMgr ([] : Dir Files) = none := by decide +kernel
  obtain ⟨doc, h1, h2⟩ := h
  cases h1 with
  | ckpt _ h3 => rw [hopen] at h3; exact (nomatch h3)
  | file _ h =>
    have := h
    cases this
    rw [Option.getD_some, ov_applied] at h2
    cases h2; rfl
  | dir _ h => exact (nomatch h)
  | absent _ h => exact (nomatch h)

def ovOps : List MOp := [.setState "step" (.int 7), .step ⟨none, false⟩]

/-- C73_manager_partial applies: the manager loads its config and applies the schedule, and the config is saved and loaded again -/
example : CfgClass ovEnv ∧ (∀ doc1, LoadedDoc ovEnv [] doc1 → CfgDoc ovEnv doc1) ∧ EnvOK ovEnv.w.env ovEnv.cfgTy ∧
    (materialize ovEnv.cfgTy).isOk = true ∧
    ∃ c, ((Mgr.new ovEnv []).runX ovEnv ovOps).2.config = some c ∧ valAt c ["opt", "lr"] = some (.int 7) ∧
      valAt c ["n"] = some (.int 5) ∧
      typedDump ovEnv.w.env (some ((Mgr.new ovEnv []).runX ovEnv ovOps).2.schedules) false c =
        .ok (.dict [(NAME_KEY, .str "Config"), ("opt", .dict [(NAME_KEY, .str "Opt"), ("lr", .str txt)]), ("n", .int 5)], []) := by
  refine ⟨ov_class, fun doc1 h => by rw [ov_loaded h]; exact ov_doc, ?_, rfl, ?_⟩
  · simp [ovEnv, E, w, cfgTy, EnvOK, EnvOKf, EnvOKf1, Fld.name, Fld.dflt]
  · have h : ∀ m : Mgr, (match m.config with
        | some (.inst "Config" [("opt", .inst "Opt" [("lr", .int 7)]), ("n", .int 5)]) => true
        | _ => false) = true →
        m.config = some (.inst "Config" [("opt", .inst "Opt" [("lr", .int 7)]), ("n", .int 5)]) := by
      intro m h
      split at h
      · assumption
      · exact (nomatch h)
    have h2 : ∀ m : Mgr, (match m.schedules with
        | [("opt", .node [("lr", .sched t true "lr")])] => decide (t = txt)
        | _ => false) = true → m.schedules = regd := by
      intro m h
      split at h
      · simp only [decide_eq_true_eq] at h
        subst h
        assumption
      · exact (nomatch h)
    refine ⟨_, h _ (by decide +kernel), rfl, rfl, ?_⟩
    rw [h2 _ (by decide +kernel)]
    rfl
end ExM
end HS
