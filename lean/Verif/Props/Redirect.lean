import Verif.Model.Redirect
import Verif.Props.Checkpoint
/-!
# C76: assigning `checkpoint_dir` while the manager is in use
-/
namespace HS

section
variable {P : Type}

theorem upd_self (fs : Fs P) (d : String) (x : Dir P) : fs.upd d x d = x := by simp [Fs.upd]
theorem upd_ne (fs : Fs P) {d e : String} (x : Dir P) (h : e ≠ d) : fs.upd d x e = fs e := by simp [Fs.upd, h]

theorem fsRun_append (fs : Fs P) (a b : List (String × Op P)) : fs.run (a ++ b) = (fs.run a).run b := by simp [Fs.run]

/-- effects on one directory -/
theorem fsRun_one (d : String) : ∀ (ops : List (Op P)) (fs : Fs P), fs.run (ops.map (d, ·)) = fs.upd d (runOps (fs d) ops)
  | [], fs => by
    funext e
    simp only [Fs.run, List.map_nil, List.foldl_nil, runOps, Fs.upd]
    split
    · rename_i h; rw [h]
    · rfl
  | o :: ops, fs => by
    have h := fsRun_one d ops (fs.upd d (o.run (fs d)))
    simp only [Fs.run, List.map_cons, List.foldl_cons] at h ⊢
    rw [h]
    funext e
    by_cases he : e = d
    · subst he; simp only [Fs.upd, if_true, runOps, List.foldl_cons]
    · simp only [Fs.upd, if_neg he]

/-- names of checkpoints end in a digit -/
theorem ckptName_not_tmp (key : String) (i : Int) (x : String) : ckptName key i ≠ x ++ ".tmp" := by
  intro h
  have h1 := congrArg String.toList h
  rw [ckptName_toList, String.toList_append] at h1
  have h2 := congrArg List.getLast? h1
  have hd : ∃ cs n, n < 10 ∧ fmtPad 12 i = cs ++ [digitC n] := by
    have hdec : ∀ n, ∃ cs k, k < 10 ∧ dec n = cs ++ [digitC k] := by
      intro n
      have : ∀ f n, ∃ cs k, k < 10 ∧ decF f n = cs ++ [digitC k] := by
        intro f
        induction f with
        | zero => intro n; exact ⟨[], n % 10, Nat.mod_lt _ (by decide), rfl⟩
        | succ f ih =>
          intro n
          simp only [decF]
          split
          · exact ⟨[], n, by assumption, rfl⟩
          · exact ⟨_, n % 10, Nat.mod_lt _ (by decide), rfl⟩
      exact this _ n
    obtain ⟨cs, k, hk, he⟩ := hdec i.natAbs
    simp only [fmtPad, he]
    split
    · exact ⟨List.replicate (12 - (cs ++ [digitC k]).length) '0' ++ cs, k, hk, by simp⟩
    · exact ⟨'-' :: (List.replicate (12 - 1 - (cs ++ [digitC k]).length) '0' ++ cs), k, hk, by simp⟩
  obtain ⟨cs, n, hn, he⟩ := hd
  rw [he] at h2
  rw [show ['l', 'a', 't', 'e', 's', 't'] ++ '-' :: (key.toList ++ (cs ++ [digitC n])) =
    (['l', 'a', 't', 'e', 's', 't'] ++ '-' :: (key.toList ++ cs)) ++ [digitC n] from by simp,
    show x.toList ++ (".tmp" : String).toList = (x.toList ++ ['.', 't', 'm']) ++ ['p'] from by simp, List.getLast?_concat, List.getLast?_concat,
    Option.some.injEq] at h2
  have h3 := (digitC_facts n hn).1
  rw [h2] at h3
  revert h3
  simp [digitVal]

/-! ## histories -/

/-- a checkpoint that a step has written: directory, name, contents -/
abbrev Saved (P : Type) := String × String × P

/-- it is there, complete -/
def Intact (fs : Fs P) (c : Saved P) : Prop := dget (fs c.1) c.2.1 = some (.full c.2.2)

/-- The directories, the running manager (`none`: there is none), and two ghost components: the checkpoint of the last step that
returned, and of a step that was interrupted since. -/
structure RSys (P : Type) where
  fs : Fs P
  mgr : Option RMgr
  safe : Option (Saved P)
  pend : Option (Saved P)

open Classical in
/-- what counts as saved when a process starts: the last checkpoint, or if it is gone the one of the interrupted step -/
noncomputable def RSys.settled (s : RSys P) : Option (Saved P) :=
  match s.safe with
  | some c => if Intact s.fs c then some c else s.pend
  | .none => .none

/-- Histories over any directories: managers are started on any directory or none, `checkpoint_dir` is assigned any number of times,
steps return, raise, or are interrupted after any number of their effects. Steps with a directory write a checkpoint whose name is
not in use in that directory, and is not the name of the previous one. -/
inductive RHist (key : String) : RSys P → Prop where
  | init (fs : Fs P) : RHist key ⟨fs, .none, .none, .none⟩
  | start {s : RSys P} (d : Option String) : RHist key s → RHist key ⟨s.fs, some (RMgr.new s.fs d), s.settled, .none⟩
  | assign {s : RSys P} {m : RMgr} (d : Option String) : RHist key s → s.mgr = some m →
      RHist key ⟨s.fs, some (m.assign s.fs d), s.safe, s.pend⟩
  | step {s : RSys P} {m m' : RMgr} {ops : List (String × Op P)} (mv : Move) (val : Int) (p : P) {d : String} : RHist key s →
      s.mgr = some m → m.dir = some d → ckptName key val ∉ dkeys (s.fs d) → m.last ≠ some (d, ckptName key val) →
      m.stepOps mv key val p s.fs = (ops, some m') → RHist key ⟨s.fs.run ops, some m', some (d, ckptName key val, p), .none⟩
  | idle {s : RSys P} {m m' : RMgr} {ops : List (String × Op P)} (mv : Move) (val : Int) (p : P) : RHist key s →
      s.mgr = some m → m.dir = .none → m.stepOps mv key val p s.fs = (ops, some m') → RHist key ⟨s.fs.run ops, some m', s.safe, s.pend⟩
  | raised {s : RSys P} {m : RMgr} {ops : List (String × Op P)} (mv : Move) (val : Int) (p : P) {d : String} : RHist key s →
      s.mgr = some m → m.dir = some d → ckptName key val ∉ dkeys (s.fs d) → m.last ≠ some (d, ckptName key val) →
      m.stepOps mv key val p s.fs = (ops, .none) → RHist key ⟨s.fs.run ops, some m, s.safe, s.pend⟩
  | crashStep {s : RSys P} {m : RMgr} {d : String} (mv : Move) (val : Int) (p : P) (n : Nat) : RHist key s → s.mgr = some m →
      m.dir = some d → ckptName key val ∉ dkeys (s.fs d) → m.last ≠ some (d, ckptName key val) →
      RHist key ⟨s.fs.run ((m.stepOps mv key val p s.fs).1.take n), .none, s.safe, some (d, ckptName key val, p)⟩
  | crash {s : RSys P} : RHist key s → RHist key ⟨s.fs, .none, s.safe, s.pend⟩

/-- everything but one name in one directory, and the temporary copies, is as before -/
def SameBut (fs fs' : Fs P) (d n : String) : Prop := ∀ d' n', (d', n') ≠ (d, n) → (∀ x, n' ≠ x ++ ".tmp") → dget (fs' d') n' = dget (fs d') n'

theorem write_prefix (fs : Fs P) (d : String) (mv : Move) (target : String) (p : P) (k : Nat) :
    SameBut fs (fs.run (((checkpointOps mv target p).map (d, ·)).take k)) d target := by
  rw [← List.map_take, fsRun_one]
  intro d' n' hne ht
  by_cases hd : d' = d
  · subst hd
    rw [upd_self]
    have hn : n' ≠ target := fun e => hne (by rw [e])
    revert k
    simp only [checkpointOps]
    split
    · refine prefix_cons (Q := fun x => dget x n' = dget (fs d') n') rfl (prefix_nil (Q := fun x => dget x n' = dget (fs d') n') ?_)
      simp only [Op.run, dget_dset_ne _ _ (Ne.symm hn)]
    · rename_i id _
      have hT := ht (target ++ "." ++ id)
      generalize target ++ "." ++ id ++ ".tmp" = T at hT
      refine prefix_cons (Q := fun x => dget x n' = dget (fs d') n') rfl
        (prefix_cons (Q := fun x => dget x n' = dget (fs d') n') ?_ (prefix_cons (Q := fun x => dget x n' = dget (fs d') n') ?_
          (prefix_nil (Q := fun x => dget x n' = dget (fs d') n') ?_)))
      · simp only [Op.run, dget_dset_ne _ _ (Ne.symm hT)]
      · simp only [Op.run, dget_dset_ne _ _ (Ne.symm hT)]
      · simp only [Op.run, dget_dset_self, dget_dset_ne _ _ (Ne.symm hn), dget_ddel_ne _ (Ne.symm hT), dget_dset_ne _ _ (Ne.symm hT)]
  · rw [upd_ne _ _ hd]

theorem write_done (fs : Fs P) (d : String) (mv : Move) (target : String) (p : P) :
    Intact (fs.run ((checkpointOps mv target p).map (d, ·))) (d, target, p) := by
  rw [fsRun_one]
  simp only [Intact, upd_self, checkpointOps]
  split
  · simp [runOps, Op.run]
  · simp [runOps, List.foldl, Op.run]

theorem remove_prefix (fs : Fs P) (e l : String) (mv : Move) (k : Nat) {d' n' : String} (h : (d', n') ≠ (e, l)) :
    dget (fs.run (((removeOps mv l).map (e, ·)).take k) d') n' = dget (fs d') n' := by
  rw [← List.map_take, fsRun_one]
  by_cases hd : d' = e
  · subst hd
    have hn : n' ≠ l := fun x => h (by rw [x])
    rw [upd_self]
    revert k
    simp only [removeOps]
    split
    · refine prefix_cons (Q := fun x => dget x n' = dget (fs d') n') rfl
        (prefix_cons (Q := fun x => dget x n' = dget (fs d') n') ?_ (prefix_nil (Q := fun x => dget x n' = dget (fs d') n') ?_))
      · simp only [Op.run, dget_dset_ne _ _ (Ne.symm hn)]
      · simp only [Op.run, dget_ddel_ne _ (Ne.symm hn), dget_dset_ne _ _ (Ne.symm hn)]
    · refine prefix_cons (Q := fun x => dget x n' = dget (fs d') n') rfl (prefix_nil (Q := fun x => dget x n' = dget (fs d') n') ?_)
      simp only [Op.run, dget_ddel_ne _ (Ne.symm hn)]
  · rw [upd_ne _ _ hd]

/-- At any instant of a step with a directory either nothing but the new checkpoint has changed, or the new checkpoint is complete and
nothing but it and the previous one has changed. -/
theorem step_instants (mv : Move) (key : String) (val : Int) (p : P) (fs : Fs P) (m : RMgr) {d : String} (hd : m.dir = some d)
    (hf : ckptName key val ∉ dkeys (fs d)) (hl : m.last ≠ some (d, ckptName key val)) (k : Nat) :
    SameBut fs (fs.run ((m.stepOps mv key val p fs).1.take k)) d (ckptName key val) ∨
    (Intact (fs.run ((m.stepOps mv key val p fs).1.take k)) (d, ckptName key val, p) ∧ ∃ e l, m.last = some (e, l) ∧
      ∀ d' n', (d', n') ≠ (d, ckptName key val) → (d', n') ≠ (e, l) → (∀ x, n' ≠ x ++ ".tmp") →
        dget (fs.run ((m.stepOps mv key val p fs).1.take k) d') n' = dget (fs d') n') := by
  have hhas : dhas (fs d) (ckptName key val) = false := (dhas_false _ _).2 ((dget_eq_none_iff _ _).2 hf)
  simp only [RMgr.stepOps, hd, hhas, if_neg Bool.false_ne_true]
  cases hm : m.last with
  | none => exact .inl (write_prefix fs d mv _ p k)
  | some q =>
    obtain ⟨e, l⟩ := q
    simp only
    split
    · rw [List.take_append, fsRun_append]
      by_cases hk : k ≤ ((checkpointOps mv (ckptName key val) p).map (d, ·)).length
      · have : k - ((checkpointOps mv (ckptName key val) p).map (d, ·)).length = 0 := by omega
        rw [this]
        exact .inl (write_prefix fs d mv _ p k)
      · refine .inr ?_
        rw [List.take_of_length_le (by omega)]
        generalize k - ((checkpointOps mv (ckptName key val) p).map (d, ·)).length = j
        have hne : (d, ckptName key val) ≠ (e, l) := fun x => hl (by rw [hm, x])
        refine ⟨?_, e, l, rfl, ?_⟩
        · have := write_done fs d mv (ckptName key val) p
          simp only [Intact] at this ⊢
          rw [remove_prefix _ e l mv j hne, this]
        · intro d' n' h1 h2 h3
          rw [remove_prefix _ e l mv j h2]
          have := write_prefix fs d mv (ckptName key val) p ((checkpointOps mv (ckptName key val) p).map (d, ·)).length
          rw [List.take_length] at this
          exact this d' n' h1 h3
    · exact .inl (write_prefix fs d mv _ p k)

/-- ... and a step that returned has written the new checkpoint -/
theorem step_done (mv : Move) (key : String) (val : Int) (p : P) (fs : Fs P) (m m' : RMgr) {d : String} (hd : m.dir = some d)
    (hf : ckptName key val ∉ dkeys (fs d)) (hl : m.last ≠ some (d, ckptName key val)) {ops : List (String × Op P)}
    (h : m.stepOps mv key val p fs = (ops, some m')) :
    Intact (fs.run ops) (d, ckptName key val, p) ∧ m' = ⟨some d, some (d, ckptName key val)⟩ := by
  have hhas : dhas (fs d) (ckptName key val) = false := (dhas_false _ _).2 ((dget_eq_none_iff _ _).2 hf)
  simp only [RMgr.stepOps, hd, hhas, if_neg Bool.false_ne_true] at h
  have hw := write_done fs d mv (ckptName key val) p
  cases hm : m.last with
  | none =>
    simp only [hm, Prod.mk.injEq, Option.some.injEq] at h
    obtain ⟨rfl, rfl⟩ := h
    exact ⟨hw, rfl⟩
  | some q =>
    obtain ⟨e, l⟩ := q
    simp only [hm] at h
    split at h
    · simp only [Prod.mk.injEq, Option.some.injEq] at h
      obtain ⟨rfl, rfl⟩ := h
      refine ⟨?_, rfl⟩
      rw [fsRun_append]
      have hne : (d, ckptName key val) ≠ (e, l) := fun x => hl (by rw [hm, x])
      have := remove_prefix (fs.run ((checkpointOps mv (ckptName key val) p).map (d, ·))) e l mv ((removeOps (P := P) mv l).map (e, ·)).length hne
      rw [List.take_length] at this
      simp only [Intact] at hw ⊢
      rw [this, hw]
    · exact (nomatch h)

/-- ... and one that raised has changed nothing else -/
theorem step_raises (mv : Move) (key : String) (val : Int) (p : P) (fs : Fs P) (m : RMgr) {d : String} (hd : m.dir = some d)
    (hf : ckptName key val ∉ dkeys (fs d)) {ops : List (String × Op P)} (h : m.stepOps mv key val p fs = (ops, none)) :
    SameBut fs (fs.run ops) d (ckptName key val) := by
  have hhas : dhas (fs d) (ckptName key val) = false := (dhas_false _ _).2 ((dget_eq_none_iff _ _).2 hf)
  simp only [RMgr.stepOps, hd, hhas, if_neg Bool.false_ne_true] at h
  cases hm : m.last with
  | none => simp [hm] at h
  | some q =>
    obtain ⟨e, l⟩ := q
    simp only [hm] at h
    split at h
    · simp at h
    · simp only [Prod.mk.injEq, and_true] at h
      subst h
      have := write_prefix fs d mv (ckptName key val) p ((checkpointOps mv (ckptName key val) p).map (d, ·)).length
      rwa [List.take_length] at this

theorem rhist_inv {key : String} {s : RSys P} (h : RHist key s) :
    (∀ c, s.safe = some c ∨ s.pend = some c → ∃ i, c.2.1 = ckptName key i) ∧
    (∀ c, s.safe = some c → Intact s.fs c ∨ ∃ c', s.pend = some c' ∧ Intact s.fs c') ∧
    (s.mgr.isSome = true → s.pend = none) := by
  induction h with
  | init fs => exact ⟨by simp, by simp, by simp⟩
  | @start s d _ ih =>
    obtain ⟨h1, h2, h3⟩ := ih
    have hset : ∀ c, s.settled = some c → (s.safe = some c ∨ s.pend = some c) ∧ Intact s.fs c := by
      intro c hc
      simp only [RSys.settled] at hc
      cases hs : s.safe with
      | none => rw [hs] at hc; exact (nomatch hc)
      | some c0 =>
        simp only [hs] at hc
        by_cases hi : Intact s.fs c0
        · rw [if_pos hi, Option.some.injEq] at hc
          subst hc
          exact ⟨.inl rfl, hi⟩
        · rw [if_neg hi] at hc
          rcases h2 c0 hs with h | ⟨c', h, h'⟩
          · exact absurd h hi
          · rw [hc, Option.some.injEq] at h
            subst h
            exact ⟨.inr hc, h'⟩
    refine ⟨?_, fun c hc => .inl (hset c hc).2, fun _ => rfl⟩
    rintro c (hc | hc)
    · exact h1 c (hset c hc).1
    · exact (nomatch hc)
  | @assign s m d _ hm ih =>
    obtain ⟨h1, h2, h3⟩ := ih
    exact ⟨h1, h2, fun _ => h3 (by rw [hm]; rfl)⟩
  | @step s m m' ops mv val p d _ hm hd hf hl he ih =>
    refine ⟨?_, ?_, fun _ => rfl⟩
    · rintro c (hc | hc)
      · simp only [Option.some.injEq] at hc
        subst hc
        exact ⟨val, rfl⟩
      · exact (nomatch hc)
    · intro c hc
      simp only [Option.some.injEq] at hc
      subst hc
      exact .inl (step_done mv key val p s.fs m m' hd hf hl he).1
  | @idle s m m' ops mv val p _ hm hd he ih =>
    obtain ⟨h1, h2, h3⟩ := ih
    simp only [RMgr.stepOps, hd, Prod.mk.injEq, Option.some.injEq] at he
    obtain ⟨rfl, rfl⟩ := he
    exact ⟨h1, h2, fun _ => h3 (by rw [hm]; rfl)⟩
  | @raised s m ops mv val p d _ hm hd hf hl he ih =>
    obtain ⟨h1, h2, h3⟩ := ih
    have hp := h3 (by rw [hm]; rfl)
    refine ⟨h1, ?_, fun _ => hp⟩
    intro c hc
    rcases h2 c hc with hi | ⟨c', h, _⟩
    · refine .inl ?_
      have hin := step_raises mv key val p s.fs m hd hf he
      have hne : (c.1, c.2.1) ≠ (d, ckptName key val) := by
        intro e
        simp only [Prod.mk.injEq] at e
        apply hf
        simp only [Intact, e.1, e.2] at hi
        exact List.mem_map_of_mem (dget_mem hi)
      obtain ⟨i, hci⟩ := h1 c (.inl hc)
      have ht : ∀ x, c.2.1 ≠ x ++ ".tmp" := by rw [hci]; exact ckptName_not_tmp key i
      simp only [Intact] at hi ⊢
      rw [hin c.1 c.2.1 hne ht, hi]
    · rw [hp] at h; exact (nomatch h)
  | @crashStep s m d mv val p n _ hm hd hf hl ih =>
    obtain ⟨h1, h2, h3⟩ := ih
    have hp := h3 (by rw [hm]; rfl)
    refine ⟨?_, ?_, by simp⟩
    · rintro c (hc | hc)
      · exact h1 c (.inl hc)
      · simp only [Option.some.injEq] at hc
        subst hc
        exact ⟨val, rfl⟩
    · intro c hc
      rcases h2 c hc with hi | ⟨c', h, _⟩
      · rcases step_instants mv key val p s.fs m hd hf hl n with hin | ⟨hin, _⟩
        · refine .inl ?_
          have hne : (c.1, c.2.1) ≠ (d, ckptName key val) := by
            intro e
            simp only [Prod.mk.injEq] at e
            apply hf
            simp only [Intact, e.1, e.2] at hi
            exact List.mem_map_of_mem (dget_mem hi)
          obtain ⟨i, hci⟩ := h1 c (.inl hc)
          have ht : ∀ x, c.2.1 ≠ x ++ ".tmp" := by rw [hci]; exact ckptName_not_tmp key i
          simp only [Intact] at hi ⊢
          rw [hin c.1 c.2.1 hne ht, hi]
        · exact .inr ⟨_, rfl, hin⟩
      · rw [hp] at h; exact (nomatch h)
  | crash _ ih => exact ⟨ih.1, ih.2.1, by simp⟩
/-- C76: however often `checkpoint_dir` was assigned, processes were killed and steps were interrupted, the checkpoint of the last step
that returned is complete in the directory it was written to, or else that of the step interrupted since is. While a manager is
running it is the former. Missing: steps whose key is in use in the directory, see `C76_taken_false`. -/
theorem C76_safe_partial {key : String} {s : RSys P} (h : RHist key s) {c : Saved P} (hc : s.safe = some c) :
    (Intact s.fs c ∨ ∃ c', s.pend = some c' ∧ Intact s.fs c') ∧ (s.mgr.isSome = true → Intact s.fs c) := by
  obtain ⟨_, h2, h3⟩ := rhist_inv h
  refine ⟨h2 c hc, fun hm => ?_⟩
  rcases h2 c hc with h | ⟨c', h, _⟩
  · exact h
  · rw [h3 hm] at h; exact (nomatch h)

/-- the names an effect may add -/
def Op.writes : Op P → List String
  | .put n _ => [n]
  | .mv _ t => [t]
  | .del _ => []

theorem keys_run (d n : String) : ∀ (ops : List (String × Op P)) (fs : Fs P), n ∈ dkeys (fs.run ops d) →
    n ∈ dkeys (fs d) ∨ ∃ o ∈ ops, o.1 = d ∧ n ∈ o.2.writes
  | [], _, h => .inl h
  | o :: ops, fs, h => by
    rcases keys_run d n ops (fs.upd o.1 (o.2.run (fs o.1))) h with h | ⟨o', h1, h2⟩
    · by_cases hd : d = o.1
      · subst hd
        rw [upd_self] at h
        have : n ∈ dkeys (fs o.1) ∨ n ∈ o.2.writes := by
          obtain ⟨e, q⟩ := o
          cases q with
          | put k v =>
            rcases mem_dkeys_dset.1 h with h | h
            · exact .inr (by simp [Op.writes, h])
            · exact .inl h
          | mv k t =>
            simp only [Op.run] at h
            split at h
            · rcases mem_dkeys_dset.1 h with h | h
              · exact .inr (by simp [Op.writes, h])
              · exact .inl (mem_dkeys_ddel.1 h).2
            · exact .inl h
          | del k => exact .inl (mem_dkeys_ddel.1 h).2
        rcases this with h | h
        · exact .inl h
        · exact .inr ⟨o, List.mem_cons_self, rfl, h⟩
      · rw [upd_ne _ _ hd] at h
        exact .inl h
    · exact .inr ⟨o', List.mem_cons_of_mem _ h1, h2⟩

theorem writes_checkpoint (mv : Move) (target : String) (p : P) (o : Op P) (h : o ∈ checkpointOps mv target p) (n : String) (hn : n ∈ o.writes) :
    n = target ∨ ∃ id, n = target ++ "." ++ id ++ ".tmp" := by
  simp only [checkpointOps] at h
  split at h
  · simp only [List.mem_singleton] at h
    subst h
    simp only [Op.writes, List.mem_singleton] at hn
    exact .inl hn
  · simp only [List.mem_cons, List.not_mem_nil, or_false] at h
    rcases h with rfl | rfl | rfl <;> simp only [Op.writes, List.mem_singleton] at hn
    · exact .inr ⟨_, hn⟩
    · exact .inr ⟨_, hn⟩
    · exact .inl hn

/-- the numbered names in a directory after a step -/
theorem numbered_after (mv : Move) (key : String) (val : Int) (p : P) (fs : Fs P) (m m' : RMgr) {d : String} {ops : List (String × Op P)}
    (h : m.stepOps mv key val p fs = (ops, some m')) (n d' : String) (hn : n ∈ dkeys (fs.run ops d')) (hs : suffixInt n ≠ none) :
    n ∈ dkeys (fs d') ∨ n = ckptName key val := by
  have hw : ∀ (x : String) (n d' : String), suffixInt n ≠ none →
      n ∈ dkeys (fs.run ((if dhas (fs x) (ckptName key val) then [] else checkpointOps mv (ckptName key val) p).map (x, ·)) d') →
      n ∈ dkeys (fs d') ∨ n = ckptName key val := by
    intro x n d' hs hn
    rcases keys_run d' n _ fs hn with h | ⟨o, h1, h2, h3⟩
    · exact .inl h
    · obtain ⟨q, hq, rfl⟩ := List.mem_map.1 h1
      split at hq
      · exact (nomatch hq)
      · rcases writes_checkpoint mv _ p q hq n h3 with h | ⟨id, h⟩
        · exact .inr h
        · rw [h, suffixInt_tmp] at hs
          exact absurd rfl hs
  simp only [RMgr.stepOps] at h
  split at h
  · simp only [Prod.mk.injEq] at h
    rw [← h.1] at hn
    exact .inl hn
  · rename_i x hx
    have hw := hw x
    generalize List.map (x, ·) (if dhas (fs x) (ckptName key val) then [] else checkpointOps mv (ckptName key val) p) = w at h hw
    split at h
    · simp only [Prod.mk.injEq] at h
      rw [← h.1] at hn
      exact hw n d' hs hn
    · rename_i e l hl
      split at h
      · rename_i hhas
        simp only [Prod.mk.injEq] at h
        rw [← h.1, fsRun_append] at hn
        rcases keys_run d' n _ _ hn with h | ⟨o, h1, h2, h3⟩
        · exact hw n d' hs h
        · obtain ⟨q, hq, rfl⟩ := List.mem_map.1 h1
          simp only at h2
          subst h2
          have : n = l := by
            simp only [removeOps] at hq
            split at hq
            · simp only [List.mem_cons, List.not_mem_nil, or_false] at hq
              rcases hq with rfl | rfl
              · simpa [Op.writes] using h3
              · simp [Op.writes] at h3
            · simp only [List.mem_singleton] at hq
              subst hq
              simp [Op.writes] at h3
          subst this
          refine hw n e hs ?_
          obtain ⟨v, hv⟩ := (dhas_iff _ _).1 hhas
          exact List.mem_map_of_mem (dget_mem hv)
      · simp at h

/-- C76: a step that returned after `checkpoint_dir` was assigned has saved the state in that directory; a manager started on the
directory restores it, if the numbers in it were smaller, and continues where this manager does. -/
theorem C76_restores {key : String} (mv : Move) (val : Int) (p : P) (fs : Fs P) (m m' : RMgr) {d : String} {ops : List (String × Op P)}
    (hk : KeyInRange val) (hsm : ∀ n ∈ dkeys (fs d), ∀ i, suffixInt n = some i → i < val) (hl : m.last ≠ some (d, ckptName key val))
    (h : (RMgr.assign fs m (some d)).stepOps mv key val p fs = (ops, some m')) :
    dget (fs.run ops d) (ckptName key val) = some (.full p) ∧ restored (fs.run ops d) = some p ∧ RMgr.new (fs.run ops) (some d) = m' := by
  have hf : ckptName key val ∉ dkeys (fs d) := fun hm => by
    have := hsm _ hm _ (suffixInt_ckptName key hk)
    omega
  have hl' : (RMgr.assign fs m (some d)).last ≠ some (d, ckptName key val) := by
    simp only [RMgr.assign]
    split
    · rename_i n hn
      intro e
      simp only [Option.some.injEq, Prod.mk.injEq, true_and] at e
      subst e
      apply hf
      simp only [openMgr] at hn
      split at hn
      · rename_i n' hn'
        split at hn
        · simp only [Option.some.injEq] at hn
          subst hn
          obtain ⟨i, e, h1, _⟩ := findLatest_some hn'
          exact List.mem_map_of_mem h1
        · exact (nomatch hn)
      · exact (nomatch hn)
    · exact hl
  obtain ⟨h1, h2⟩ := step_done mv key val p fs _ m' rfl hf hl' h
  have hfl : findLatest (fs.run ops d) = some (ckptName key val) := by
    refine findLatest_max (dget_mem h1) rfl (suffixInt_ckptName key hk) ?_
    intro n e j hn _ hj
    rcases numbered_after (d := d) mv key val p fs _ m' h n d (List.mem_map_of_mem hn) (by rw [hj]; simp) with h | h
    · exact .inr (hsm n h j hj)
    · exact .inl h
  have ho : openMgr (fs.run ops d) = some (ckptName key val) := by
    simp only [openMgr, hfl]
    rw [latest_ckptName]; rfl
  refine ⟨h1, ?_, ?_⟩
  · simp only [Intact] at h1
    simp only [restored, ho, h1]
  · simp only [RMgr.new, RMgr.assign, ho, h2]

/-- C76: without a directory, steps touch no directory. -/
theorem C76_none (mv : Move) (key : String) (val : Int) (p : P) (fs : Fs P) (m : RMgr) :
    (RMgr.assign fs m none).stepOps mv key val p fs = ([], some (RMgr.assign fs m none)) := rfl

/-- C76: switching checkpoints off and on again makes no difference: whatever is done in between, the next step does what it does if
the new directory is assigned at once, including the removal of the checkpoint written before. -/
theorem C76_off_on (mv : Move) (key : String) (val : Int) (p : P) (mid : List (Move × String × Int × P)) (fs : Fs P) (m : RMgr) (d : String) :
    ∃ m', mid.foldl (fun (o : Option RMgr) x => o.bind fun m => (m.stepOps x.1 x.2.1 x.2.2.1 x.2.2.2 fs).2) (some (RMgr.assign fs m none)) = some m' ∧
      (RMgr.assign fs m' (some d)).stepOps mv key val p fs = (RMgr.assign fs m (some d)).stepOps mv key val p fs := by
  refine ⟨RMgr.assign fs m none, ?_, rfl⟩
  induction mid with
  | nil => rfl
  | cons x xs ih => simp only [List.foldl_cons, Option.bind_some, C76_none]; exact ih

/-- C76: a step touches nothing but the new checkpoint, temporary copies of it, and the checkpoint that was the previous one. -/
theorem C76_frame (mv : Move) (key : String) (val : Int) (p : P) (fs : Fs P) (m : RMgr) {d : String} (hd : m.dir = some d)
    (hf : ckptName key val ∉ dkeys (fs d)) (hl : m.last ≠ some (d, ckptName key val)) (k : Nat) (d' n : String)
    (h1 : (d', n) ≠ (d, ckptName key val)) (h2 : m.last ≠ some (d', n)) (h3 : ∀ x, n ≠ x ++ ".tmp") :
    dget (fs.run ((m.stepOps mv key val p fs).1.take k) d') n = dget (fs d') n := by
  rcases step_instants mv key val p fs m hd hf hl k with h | ⟨_, e, l, hel, h⟩
  · exact h d' n h1 h3
  · exact h d' n h1 (fun x => h2 (by rw [hel, x])) h3

theorem openMgr_some {d : Dir P} {n : String} (h : openMgr d = some n) : (∃ e, dget d n = some e) ∧ ∃ i, suffixInt n = some i := by
  simp only [openMgr] at h
  split at h
  · rename_i n' hn'
    split at h
    · simp only [Option.some.injEq] at h
      subst h
      obtain ⟨e, i, h1, _, h2, _⟩ := findLatest_some hn'
      refine ⟨?_, i, h2⟩
      cases hg : dget d n' with
      | some v => exact ⟨v, rfl⟩
      | none => exact absurd (List.mem_map_of_mem h1) ((dget_eq_none_iff _ _).1 hg)
    · exact (nomatch h)
  · exact (nomatch h)

theorem suffixInt_dotTmp (x : String) : suffixInt (x ++ ".tmp") = none := by
  simp only [suffixInt]
  split
  · apply pyInt_bad (c := 'p') (by decide) (by decide) (by decide) (by decide) (by decide)
    rename_i h
    have hl : (x ++ ".tmp").toList = x.toList ++ ['.', 't', 'm', 'p'] := by simp
    rw [hl] at h ⊢
    rw [List.drop_append]
    apply List.mem_append_right
    simp only [List.length_append, List.length_cons, List.length_nil] at h ⊢
    have : x.toList.length + (0 + 1 + 1 + 1 + 1) - 12 - x.toList.length = 0 := by omega
    rw [this]; decide
  · rfl

theorem removed (fs : Fs P) (e l : String) (mv : Move) : dget (fs.run ((removeOps mv l).map (e, ·)) e) l = none := by
  rw [fsRun_one, upd_self]
  simp only [removeOps]
  split
  · simp only [runOps, List.foldl, Op.run, ddel_dset]; simp
  · simp only [runOps, List.foldl, Op.run]; simp

/-- C76 is false of other runs' checkpoints: when the newly assigned directory contains one, the next step deletes it, and the manager's
own previous checkpoint stays where it was. -/
theorem C76_foreign_false (mv : Move) (key : String) (val : Int) (p : P) (fs : Fs P) (a b l n : String) (hab : a ≠ b)
    (hn : openMgr (fs b) = some n) (hf : ckptName key val ∉ dkeys (fs b)) :
    ∃ ops m', (RMgr.assign fs ⟨some a, some (a, l)⟩ (some b)).stepOps mv key val p fs = (ops, some m') ∧ (∃ e, dget (fs b) n = some e) ∧
      dget (fs.run ops b) n = none ∧ fs.run ops a = fs a := by
  obtain ⟨⟨e, he⟩, i, hi⟩ := openMgr_some hn
  have hhas : dhas (fs b) (ckptName key val) = false := (dhas_false _ _).2 ((dget_eq_none_iff _ _).2 hf)
  have hne : n ≠ ckptName key val := fun x => hf (by rw [← x]; exact List.mem_map_of_mem (dget_mem he))
  have ht : ∀ x, n ≠ x ++ ".tmp" := fun x hx => by rw [hx, suffixInt_dotTmp] at hi; exact (nomatch hi)
  have hw := write_prefix fs b mv (ckptName key val) p ((checkpointOps mv (ckptName key val) p).map (b, ·)).length b n
    (fun x => hne (Prod.mk.inj x).2) ht
  rw [List.take_length, he] at hw
  have hl : dhas (fs.run ((checkpointOps mv (ckptName key val) p).map (b, ·)) b) n = true := (dhas_iff _ _).2 ⟨e, hw⟩
  refine ⟨(checkpointOps mv (ckptName key val) p).map (b, ·) ++ (removeOps mv n).map (b, ·), ⟨some b, some (b, ckptName key val)⟩, ?_, ⟨e, he⟩, ?_, ?_⟩
  · simp only [RMgr.assign, hn, RMgr.stepOps, hhas, if_neg Bool.false_ne_true, hl, if_true]
  · rw [fsRun_append, removed]
  · rw [fsRun_append, fsRun_one, upd_ne _ _ hab, fsRun_one, upd_ne _ _ hab]

/-- C76 is false of the directory that was left: when the new one has no checkpoint, the next step deletes the one in the old. -/
theorem C76_left_false (mv : Move) (key : String) (val : Int) (p : P) (fs : Fs P) (a b l : String) (e : Ent P) (hab : a ≠ b)
    (hl : dget (fs a) l = some e) (hn : openMgr (fs b) = none) (hf : ckptName key val ∉ dkeys (fs b)) :
    ∃ ops m', (RMgr.assign fs ⟨some a, some (a, l)⟩ (some b)).stepOps mv key val p fs = (ops, some m') ∧ dget (fs.run ops a) l = none := by
  have hhas : dhas (fs b) (ckptName key val) = false := (dhas_false _ _).2 ((dget_eq_none_iff _ _).2 hf)
  have hh : dhas (fs.run ((checkpointOps mv (ckptName key val) p).map (b, ·)) a) l = true := by
    rw [fsRun_one, upd_ne _ _ hab]
    exact (dhas_iff _ _).2 ⟨e, hl⟩
  refine ⟨(checkpointOps mv (ckptName key val) p).map (b, ·) ++ (removeOps mv l).map (a, ·), ⟨some b, some (b, ckptName key val)⟩, ?_, ?_⟩
  · simp only [RMgr.assign, hn, RMgr.stepOps, hhas, if_neg Bool.false_ne_true, hh, if_true]
  · rw [fsRun_append, removed]

/-- C76 is false if the key is in use in the new directory, by its latest checkpoint: the step returns, but it saves nothing, and deletes
the checkpoint that was there. -/
theorem C76_taken_false (mv : Move) (key : String) (val : Int) (p : P) (fs : Fs P) (a b l : String)
    (hn : openMgr (fs b) = some (ckptName key val)) :
    ∃ ops m', (RMgr.assign fs ⟨some a, some (a, l)⟩ (some b)).stepOps mv key val p fs = (ops, some m') ∧
      dget (fs.run ops b) (ckptName key val) = none := by
  obtain ⟨⟨e, he⟩, _⟩ := openMgr_some hn
  have hhas : dhas (fs b) (ckptName key val) = true := (dhas_iff _ _).2 ⟨e, he⟩
  have hh : dhas (fs.run [] b) (ckptName key val) = true := hhas
  refine ⟨(removeOps mv (ckptName key val)).map (b, ·), ⟨some b, some (b, ckptName key val)⟩, ?_, removed fs b _ mv⟩
  simp only [RMgr.assign, hn, RMgr.stepOps, hhas, if_true, List.map_nil, hh, List.nil_append]

/-- C76: with one directory the step is the one of Model/Checkpoint. -/
theorem C76_one_dir (mv : Move) (key : String) (val : Int) (p : P) (fs : Fs P) (d : String) (last : Option String) :
    RMgr.stepOps mv key val p fs ⟨some d, last.map (d, ·)⟩ =
      ((stepOps mv key val p (fs d) last).1.map (d, ·), (stepOps mv key val p (fs d) last).2.map fun t => ⟨some d, some (d, t)⟩) := by
  simp only [RMgr.stepOps, stepOps]
  cases last with
  | none => rfl
  | some l =>
    simp only [Option.map_some]
    rw [fsRun_one, upd_self]
    generalize (if dhas (fs d) (ckptName key val) then [] else checkpointOps mv (ckptName key val) p) = w
    split
    · simp only [List.map_append, Option.map_some]
    · rfl

/-! ## concrete directories -/

namespace ExDirs
/-- run A has a checkpoint at step 10, run B one at step 50 -/
def fs : Fs Int := fun d => if d = "A" then [("latest-step000000000010", .full 10)] else if d = "B" then [("latest-step000000000050", .full 50)] else []
def m : RMgr := ⟨some "A", some ("A", "latest-step000000000010")⟩
def after (d : String) (val : Int) : Option (Dir Int × Dir Int × Dir Int) :=
  match (m.assign fs (some d)).stepOps Ckpt.slow "step" val val fs with
  | (ops, some _) => some (fs.run ops "A", fs.run ops "B", fs.run ops "C")
  | _ => .none
end ExDirs

/-- the manager of run A is given the directory of run B, or a new one -/
example : ExDirs.m = RMgr.new ExDirs.fs (some "A") ∧
    ExDirs.after "B" 20 = some ([("latest-step000000000010", .full 10)], [("latest-step000000000020", .full 20)], []) ∧
    ExDirs.after "B" 50 = some ([("latest-step000000000010", .full 10)], [], []) ∧
    ExDirs.after "C" 20 = some ([], [("latest-step000000000050", .full 50)], [("latest-step000000000020", .full 20)]) := by
  exact ⟨by decide +kernel, by decide +kernel, by decide +kernel, by decide +kernel⟩

/-- the hypotheses of C76_restores -/
example : (∀ n ∈ dkeys (ExDirs.fs "B"), ∀ i, suffixInt n = some i → i < 60) ∧ KeyInRange 60 ∧ ExDirs.m.last ≠ some ("B", ckptName "step" 60) := by
  have h : suffixInt "latest-step000000000050" = some 50 := by decide +kernel
  refine ⟨?_, ⟨by decide, by decide⟩, by decide +kernel⟩
  intro n hn i hi
  have : n = "latest-step000000000050" := by simpa [ExDirs.fs, dkeys] using hn
  rw [this, h, Option.some.injEq] at hi
  omega

/-- a history of C76_safe_partial: a step in A, then one in C that is interrupted while the checkpoint in A is being deleted -/
example : ∃ s : RSys Int, RHist "step" s ∧ s.safe = some ("A", "latest-step000000000010", 10) ∧
    s.fs "A" = [("latest-step000000000010", .broken)] ∧ s.fs "C" = [("latest-step000000000020", .full 20)] := by
  have h0 := RHist.start (key := "step") (some "A") (RHist.init (fun _ : String => ([] : Dir Int)))
  have h1 := RHist.step (m := RMgr.new (fun _ : String => ([] : Dir Int)) (some "A")) (d := "A") Ckpt.slow 10 10 h0 rfl rfl (by decide +kernel)
    (by decide +kernel) (m' := ⟨some "A", some ("A", ckptName "step" 10)⟩) rfl
  have h2 := RHist.assign (some "C") h1 rfl
  have h3 := RHist.crashStep (d := "C") Ckpt.slow 20 20 4 h2 rfl (by decide +kernel) (by decide +kernel) (by decide +kernel)
  exact ⟨_, h3, by decide +kernel, by decide +kernel, by decide +kernel⟩
end

end HS
