import Verif.Proofs.Checkpoint
/-!
# C40–C44: checkpoints survive crashes

`P` is the type of complete checkpoint contents, `val p` the state's checkpoint key in them.
-/
namespace HS

section
variable {P : Type}

/-- The system: the directory, the running StateManager's `_last_checkpoint` (`none`: no process is running), and three ghost
components. `safe`: contents of the last step that returned, or what was restored at the last start. `pend`: contents of a step
that was interrupted since. `crashes`: the number of interrupted steps. -/
structure Sys (P : Type) where
  dir : Dir P
  mgr : Option (Option String)
  safe : Option P
  pend : Option P
  crashes : Nat
deriving DecidableEq

/-- `cur` is in the directory, and every other entry with a number has a smaller one -/
def DirOK (key : String) (val : P → Int) (d : Dir P) (cur : Option P) : Prop :=
  (∀ n ∈ dkeys d, ∀ i, suffixInt n = some i → ∃ c, cur = some c ∧ (n = ckptName key (val c) ∨ i < val c)) ∧
  (∀ c, cur = some c → KeyInRange (val c) ∧ dget d (ckptName key (val c)) = some (.full c))

/-- Histories over an initial directory `d0` in which no name ends in a number (`c0 = none`), or the entry with the largest number is a
complete checkpoint with contents `c0`: any sequence of starting a StateManager, steps that
return, steps that are interrupted after any number of their effects, and crashes between steps. Every step uses a checkpoint key
that is larger than the restored or last saved one. The way the operating system moves directories is chosen anew each time. -/
inductive Hist (key : String) (val : P → Int) (d0 : Dir P) : Sys P → Prop where
  | init {c0 : Option P} : DirOK key val d0 c0 → Hist key val d0 ⟨d0, .none, c0, .none, 0⟩
  | start {s : Sys P} : Hist key val d0 s → Hist key val d0 ⟨s.dir, some (openMgr s.dir), restored s.dir, .none, s.crashes⟩
  | step {s : Sys P} {last last' : Option String} {d' : Dir P} (m : Move) (p : P) : Hist key val d0 s → s.mgr = some last →
      KeyInRange (val p) → (∀ c, s.safe = some c → val c < val p) →
      stepRun m key (val p) p s.dir last = some (d', last') → Hist key val d0 ⟨d', some last', some p, .none, s.crashes⟩
  | crashStep {s : Sys P} {last : Option String} (m : Move) (p : P) (n : Nat) : Hist key val d0 s → s.mgr = some last →
      KeyInRange (val p) → (∀ c, s.safe = some c → val c < val p) →
      Hist key val d0 ⟨stepCrash m key (val p) p s.dir last n, .none, s.safe, some p, s.crashes + 1⟩
  | crash {s : Sys P} : Hist key val d0 s → Hist key val d0 ⟨s.dir, .none, s.safe, s.pend, s.crashes⟩

/-! ## the invariant -/

variable {key : String} {val : P → Int}

theorem DirOK.empty {d : Dir P} (h : ∀ n ∈ dkeys d, suffixInt n = .none) : DirOK key val d .none := by
  refine ⟨?_, by simp⟩
  intro n hn i hi
  rw [h n hn] at hi; cases hi

theorem DirOK.openMgr_eq {d : Dir P} {cur : Option P} (h : DirOK key val d cur) :
    openMgr d = cur.map (fun c => ckptName key (val c)) ∧ restored d = cur := by
  obtain ⟨h1, h2⟩ := h
  cases cur with
  | none =>
    have hn : findLatest d = .none := by
      rw [findLatest_none]
      intro m e hm _
      cases hs : suffixInt m with
      | none => rfl
      | some i =>
        obtain ⟨c, hc, _⟩ := h1 m (List.mem_map_of_mem hm) i hs
        cases hc
    simp [openMgr, restored, hn]
  | some c =>
    obtain ⟨hr, hg⟩ := h2 c rfl
    have hn : findLatest d = some (ckptName key (val c)) := by
      apply findLatest_max (dget_mem hg) rfl (suffixInt_ckptName key hr)
      intro m e j hm _ hj
      obtain ⟨c', hc', h⟩ := h1 m (List.mem_map_of_mem hm) j hj
      cases hc'; exact h
    have ho : openMgr d = some (ckptName key (val c)) := by
      simp only [openMgr, hn]
      rw [latest_ckptName]; rfl
    refine ⟨by simp [ho], ?_⟩
    simp [restored, ho, hg]

theorem DirOK.put {d : Dir P} {cur : Option P} (h : DirOK key val d cur) {x : String} {e : Ent P}
    (hx : ∀ i, suffixInt x = some i → ∃ c, cur = some c ∧ i < val c) : DirOK key val (dset d x e) cur := by
  obtain ⟨h1, h2⟩ := h
  constructor
  · intro n hn i hi
    rcases mem_dkeys_dset.1 hn with rfl | hn
    · obtain ⟨c, hc, hlt⟩ := hx i hi
      exact ⟨c, hc, .inr hlt⟩
    · exact h1 n hn i hi
  · intro c hc
    obtain ⟨hr, hg⟩ := h2 c hc
    refine ⟨hr, ?_⟩
    rw [dget_dset_ne, hg]
    rintro rfl
    obtain ⟨c', hc', hlt⟩ := hx _ (suffixInt_ckptName key hr)
    rw [hc] at hc'; cases hc'
    omega

theorem DirOK.del {d : Dir P} {cur : Option P} (h : DirOK key val d cur) {x : String}
    (hx : ∀ c, cur = some c → x ≠ ckptName key (val c)) : DirOK key val (ddel d x) cur := by
  obtain ⟨h1, h2⟩ := h
  constructor
  · intro n hn i hi
    exact h1 n (mem_dkeys_ddel.1 hn).2 i hi
  · intro c hc
    obtain ⟨hr, hg⟩ := h2 c hc
    exact ⟨hr, by rw [dget_ddel_ne _ (hx c hc), hg]⟩

theorem DirOK.new {d : Dir P} {cur : Option P} (h : DirOK key val d cur) {p : P} (hp : KeyInRange (val p))
    (hlt : ∀ c, cur = some c → val c < val p) : DirOK key val (dset d (ckptName key (val p)) (.full p)) (some p) := by
  obtain ⟨h1, h2⟩ := h
  constructor
  · intro n hn i hi
    refine ⟨p, rfl, ?_⟩
    rcases mem_dkeys_dset.1 hn with rfl | hn
    · exact .inl rfl
    · obtain ⟨c, hc, h⟩ := h1 n hn i hi
      have := hlt c hc
      rcases h with rfl | h
      · rw [suffixInt_ckptName key (h2 c hc).1] at hi
        cases hi; exact .inr this
      · exact .inr (by omega)
  · intro c hc
    cases hc
    exact ⟨hp, by simp⟩

theorem DirOK.fresh {d : Dir P} {cur : Option P} (h : DirOK key val d cur) {p : P} (hp : KeyInRange (val p))
    (hlt : ∀ c, cur = some c → val c < val p) : dget d (ckptName key (val p)) = .none := by
  obtain ⟨h1, h2⟩ := h
  rw [dget_eq_none_iff]
  intro hm
  obtain ⟨c, hc, h⟩ := h1 _ hm _ (suffixInt_ckptName key hp)
  have := hlt c hc
  rcases h with h | h
  · have h3 := suffixInt_ckptName key hp
    rw [h, suffixInt_ckptName key (h2 c hc).1, Option.some.injEq] at h3
    omega
  · omega

/-! ### all prefixes of a list of effects -/

theorem prefix_nil {Q : Dir P → Prop} {d : Dir P} (h : Q d) : ∀ n, Q (runOps d (([] : List (Op P)).take n)) := by
  intro n; simpa [runOps] using h

theorem prefix_cons {Q : Dir P → Prop} {d : Dir P} {op : Op P} {ops : List (Op P)} (h : Q d)
    (h' : ∀ n, Q (runOps (op.run d) (ops.take n))) : ∀ n, Q (runOps d ((op :: ops).take n)) := by
  intro n
  cases n with
  | zero => simpa [runOps] using h
  | succ n => simpa [runOps] using h' n

theorem prefix_all {Q : Dir P → Prop} {d : Dir P} {ops : List (Op P)} (h : ∀ n, Q (runOps d (ops.take n))) : Q (runOps d ops) := by
  have := h ops.length
  rwa [List.take_length] at this

theorem runOps_append (d : Dir P) (a b : List (Op P)) : runOps d (a ++ b) = runOps (runOps d a) b := by
  simp [runOps]

theorem prefix_append {Q : Dir P → Prop} {d : Dir P} {a b : List (Op P)} (h : ∀ n, Q (runOps d (a.take n)))
    (h' : ∀ n, Q (runOps (runOps d a) (b.take n))) : ∀ n, Q (runOps d ((a ++ b).take n)) := by
  intro n
  rw [List.take_append, runOps_append]
  by_cases hn : n ≤ a.length
  · have : n - a.length = 0 := by omega
    rw [this]; simpa [runOps] using h n
  · have := h' (n - a.length)
    rwa [List.take_of_length_le (by omega)]

/-- at some instant of a step -/
def StepOK (key : String) (val : P → Int) (d : Dir P) (cur : Option P) (p : P) (d' : Dir P) : Prop :=
  (DirOK key val d' cur ∨ DirOK key val d' (some p)) ∧ d'.length ≤ d.length + 1

/-- at some instant of the removal of the previous checkpoint -/
def RemOK (key : String) (val : P → Int) (d : Dir P) (p : P) (d' : Dir P) : Prop :=
  DirOK key val d' (some p) ∧ d'.length ≤ d.length

/-- the contents of the directory after the checkpoint has been written, and at every instant before -/
theorem checkpoint_prefixes {d : Dir P} {cur : Option P} (h : DirOK key val d cur) {p : P} (hp : KeyInRange (val p))
    (hlt : ∀ c, cur = some c → val c < val p) (m : Move) :
    (∀ n, StepOK key val d cur p (runOps d ((checkpointOps m (ckptName key (val p)) p).take n))) ∧
    DirOK key val (runOps d (checkpointOps m (ckptName key (val p)) p)) (some p) ∧
    (∀ l, l ≠ ckptName key (val p) → suffixInt l ≠ .none →
      dget (runOps d (checkpointOps m (ckptName key (val p)) p)) l = dget d l) := by
  have hl1 := length_dset_le d (ckptName key (val p)) (.full p)
  simp only [checkpointOps]
  split
  · refine ⟨prefix_cons (Q := StepOK key val d cur p) ⟨.inl h, by omega⟩ (prefix_nil ⟨.inr (h.new hp hlt), hl1⟩), h.new hp hlt, ?_⟩
    intro l hl _
    simp [runOps, Op.run, dget_dset_ne _ _ (Ne.symm hl)]
  · rename_i id _
    have ht := suffixInt_tmp (ckptName key (val p)) id
    generalize hT : ckptName key (val p) ++ "." ++ id ++ ".tmp" = T at ht ⊢
    have hnum : ∀ i, suffixInt T = some i → ∃ c, cur = some c ∧ i < val c := by rw [ht]; simp
    have hA : DirOK key val (dset d T .broken) cur := h.put hnum
    have hB : DirOK key val (dset (dset d T .broken) T (.full p)) cur := hA.put hnum
    have hC : DirOK key val (ddel (dset (dset d T .broken) T (.full p)) T) cur := by
      apply hB.del
      rintro c hc rfl
      rw [suffixInt_ckptName key (hB.2 c hc).1] at ht; cases ht
    have hD := hC.new hp hlt
    have l1 := length_dset_le d T .broken
    have l2 : (dset (dset d T .broken) T (.full p)).length = (dset d T .broken).length :=
      length_dset_mem (w := .broken) (by simp)
    have l3 := length_ddel_mem (d := dset (dset d T .broken) T (.full p)) (k := T) (w := .full p) (by simp)
    have l4 := length_dset_le (ddel (dset (dset d T .broken) T (.full p)) T) (ckptName key (val p)) (.full p)
    refine ⟨?_, ?_, ?_⟩
    · apply prefix_cons (Q := StepOK key val d cur p) ⟨.inl h, by omega⟩
      apply prefix_cons (Q := StepOK key val d cur p) ⟨.inl hA, l1⟩
      apply prefix_cons (Q := StepOK key val d cur p) ⟨.inl hB, by show (dset (dset d T .broken) T (.full p)).length ≤ _; omega⟩
      apply prefix_nil
      simp only [Op.run, dget_dset_self]
      exact ⟨.inr hD, by omega⟩
    · simp only [runOps, List.foldl, Op.run, dget_dset_self]
      exact hD
    · intro l hl hs
      have hlT : T ≠ l := by rintro rfl; exact hs ht
      simp only [runOps, List.foldl, Op.run, dget_dset_self]
      rw [dget_dset_ne _ _ (Ne.symm hl), dget_ddel_ne _ hlT, dget_dset_ne _ _ hlT, dget_dset_ne _ _ hlT]

theorem remove_prefixes {d : Dir P} {p : P} (h : DirOK key val d (some p)) (m : Move) {l : String} {i : Int} {e : Ent P}
    (hl : dget d l = some e) (hi : suffixInt l = some i) (hlt : i < val p) :
    (∀ n, RemOK key val d p (runOps d ((removeOps m l).take n))) ∧
    (runOps d (removeOps m l)).length + 1 ≤ d.length := by
  have hne : ∀ c, some p = some c → l ≠ ckptName key (val c) := by
    rintro c hc rfl
    cases hc
    rw [suffixInt_ckptName key (h.2 p rfl).1] at hi
    cases hi; omega
  simp only [removeOps]
  split
  · have hA : DirOK key val (dset d l .broken) (some p) := h.put (fun j hj => ⟨p, rfl, by rw [hi] at hj; cases hj; exact hlt⟩)
    have l1 : (dset d l .broken).length = d.length := length_dset_mem hl
    have l2 := length_ddel_mem (d := dset d l .broken) (k := l) (w := .broken) (by simp)
    refine ⟨?_, ?_⟩
    · apply prefix_cons (Q := RemOK key val d p) ⟨h, by omega⟩
      apply prefix_cons (Q := RemOK key val d p) ⟨hA, by show (dset d l .broken).length ≤ _; omega⟩
      exact prefix_nil ⟨hA.del hne, by simp only [Op.run]; omega⟩
    · simp only [runOps, List.foldl, Op.run]; omega
  · have l2 := length_ddel_mem hl
    refine ⟨?_, ?_⟩
    · apply prefix_cons (Q := RemOK key val d p) ⟨h, by omega⟩
      exact prefix_nil ⟨h.del hne, by simp only [Op.run]; omega⟩
    · simp only [runOps, List.foldl, Op.run]; omega

/-- Everything about one step: it returns, afterwards the new checkpoint is the newest, and at every instant of the step the
newest is the old or the new one. -/
theorem step_main {d : Dir P} {cur : Option P} (h : DirOK key val d cur) {p : P} (hp : KeyInRange (val p))
    (hlt : ∀ c, cur = some c → val c < val p) (m : Move) :
    (∃ d', stepRun m key (val p) p d (cur.map (fun c => ckptName key (val c))) = some (d', some (ckptName key (val p))) ∧
      DirOK key val d' (some p) ∧ d'.length ≤ d.length + (if cur.isSome then 0 else 1)) ∧
    (∀ n, (DirOK key val (stepCrash m key (val p) p d (cur.map (fun c => ckptName key (val c))) n) cur ∨
        DirOK key val (stepCrash m key (val p) p d (cur.map (fun c => ckptName key (val c))) n) (some p)) ∧
      (stepCrash m key (val p) p d (cur.map (fun c => ckptName key (val c))) n).length ≤ d.length + 1) := by
  have hfresh : dhas d (ckptName key (val p)) = false := (dhas_false _ _).2 (h.fresh hp hlt)
  obtain ⟨c1, c2, c3⟩ := checkpoint_prefixes h hp hlt m
  have c1' := prefix_all c1
  cases cur with
  | none =>
    simp only [stepRun, stepCrash, stepOps, hfresh, Option.map_none, if_neg Bool.false_ne_true]
    exact ⟨⟨_, rfl, c2, by simpa using c1'.2⟩, c1⟩
  | some c =>
    have hc := h.2 c rfl
    have hl : dget (runOps d (checkpointOps m (ckptName key (val p)) p)) (ckptName key (val c)) = some (.full c) := by
      rw [c3, hc.2]
      · intro e
        have h3 := suffixInt_ckptName key hp
        rw [← e, suffixInt_ckptName key hc.1, Option.some.injEq] at h3
        have := hlt c rfl
        omega
      · rw [suffixInt_ckptName key hc.1]; simp
    have hhas := (dhas_iff _ _).2 ⟨_, hl⟩
    obtain ⟨r1, r2⟩ := remove_prefixes c2 m hl (suffixInt_ckptName key hc.1) (hlt c rfl)
    have r1' := prefix_all r1
    simp only [stepRun, stepCrash, stepOps, hfresh, Option.map_some, if_neg Bool.false_ne_true, hhas, if_true]
    refine ⟨⟨_, rfl, ?_, ?_⟩, ?_⟩
    · rw [runOps_append]; exact r1'.1
    · rw [runOps_append]
      have := c1'.2
      simp; omega
    · refine prefix_append (Q := StepOK key val d (some c) p) c1 ?_
      intro n
      have h1 := r1 n
      have h2 := c1'.2
      exact ⟨.inr h1.1, by have := h1.2; omega⟩

/-- the invariant of histories -/
theorem hist_inv {d0 : Dir P} {s : Sys P} (h : Hist key val d0 s) :
    ∃ cur, DirOK key val s.dir cur ∧ (cur = s.safe ∨ (s.pend.isSome ∧ cur = s.pend)) ∧
      (∀ last, s.mgr = some last → last = cur.map (fun c => ckptName key (val c)) ∧ cur = s.safe) ∧
      s.dir.length ≤ d0.length + s.crashes + (if cur.isSome then 1 else 0) := by
  induction h with
  | init hd =>
    exact ⟨_, hd, .inl rfl, by simp, by simp⟩
  | start _ ih =>
    obtain ⟨cur, h1, _, _, h4⟩ := ih
    obtain ⟨o, r⟩ := h1.openMgr_eq
    exact ⟨cur, h1, .inl r.symm, fun last hl => by cases hl; exact ⟨o, r.symm⟩, h4⟩
  | step m p _ hm hp hlt hr ih =>
    obtain ⟨cur, h1, _, h3, h4⟩ := ih
    obtain ⟨rfl, hs⟩ := h3 _ hm
    subst hs
    obtain ⟨⟨d', hd, ok, len⟩, _⟩ := step_main h1 hp hlt m
    rw [hd] at hr; cases hr
    refine ⟨some p, ok, .inl rfl, fun last hl => by cases hl; exact ⟨rfl, rfl⟩, ?_⟩
    simp only [Option.isSome_some, if_true]
    split at h4 <;> simp_all <;> omega
  | crashStep m p n _ hm hp hlt ih =>
    obtain ⟨cur, h1, _, h3, h4⟩ := ih
    obtain ⟨rfl, hs⟩ := h3 _ hm
    subst hs
    obtain ⟨_, hc⟩ := step_main h1 hp hlt m
    obtain ⟨ok, len⟩ := hc n
    rcases ok with ok | ok
    · refine ⟨_, ok, .inl rfl, by simp, ?_⟩
      simp only at len h4 ⊢
      omega
    · refine ⟨some p, ok, .inr ⟨rfl, rfl⟩, by simp, ?_⟩
      simp only [Option.isSome_some, if_true] at len h4 ⊢
      split at h4 <;> omega
  | crash _ ih =>
    obtain ⟨cur, h1, h2, _, h4⟩ := ih
    exact ⟨cur, h1, h2, by simp, h4⟩

/-! ## C40 -/

/-- C40: at any moment of any history, a StateManager opened now restores the contents of the last step that returned (or of the
last restore), or those of the interrupted step. Missing: keys outside `KeyInRange`, for which it is false (`C40_large_key_false`), and
directories that contain an entry ending in a larger number than the newest checkpoint (`C44_numbered_dir_false`). -/
theorem C40_crash_safe_partial {d0 : Dir P} {s : Sys P} (h : Hist key val d0 s) :
    restored s.dir = s.safe ∨ (s.pend.isSome = true ∧ restored s.dir = s.pend) := by
  obtain ⟨cur, h1, h2, _⟩ := hist_inv h
  rw [h1.openMgr_eq.2]
  rcases h2 with h2 | ⟨h2, h3⟩
  · exact .inl h2
  · exact .inr ⟨h2, h3⟩

/-- C40, in particular: once a step has returned there is always something complete to restore, with a key at least as large. -/
theorem C40_never_lost_partial {d0 : Dir P} {s : Sys P} (h : Hist key val d0 s) {c : P} (hc : s.safe = some c) :
    ∃ c', restored s.dir = some c' ∧ (c' = c ∨ s.pend = some c') := by
  rcases C40_crash_safe_partial h with h1 | ⟨h1, h2⟩
  · exact ⟨c, by rw [h1, hc], .inl rfl⟩
  · cases hp : s.pend with
    | none => rw [hp] at h1; cases h1
    | some c' => exact ⟨c', by rw [h2, hp], .inr rfl⟩

/-- C40: steps with increasing keys never raise, however the directory was left by earlier crashes, and leave their contents to be
restored. -/
theorem C40_step_returns_partial {d0 : Dir P} {s : Sys P} (h : Hist key val d0 s) {last : Option String} (hm : s.mgr = some last) (m : Move)
    {p : P} (hp : KeyInRange (val p)) (hlt : ∀ c, s.safe = some c → val c < val p) :
    ∃ d', stepRun m key (val p) p s.dir last = some (d', some (ckptName key (val p))) ∧ restored d' = some p := by
  obtain ⟨cur, h1, _, h3, _⟩ := hist_inv h
  obtain ⟨rfl, hs⟩ := h3 _ hm
  subst hs
  obtain ⟨⟨d', hd, ok, _⟩, _⟩ := step_main h1 hp hlt m
  exact ⟨d', hd, ok.openMgr_eq.2⟩

/-- C40 is false for keys of more than twelve digits: a step that is interrupted while the previous checkpoint is deleted leaves nothing that
can be restored, although the new checkpoint is complete. -/
theorem C40_large_key_false : ∃ (d1 : Dir Int) (l1 : Option String),
    stepRun ⟨.none, true⟩ "step" 999999999999 999999999999 [] .none = some (d1, l1) ∧ restored d1 = some 999999999999 ∧
    restored (stepCrash ⟨.none, true⟩ "step" 1000000000000 1000000000000 d1 l1 2) = .none :=
  ⟨[("latest-step999999999999", .full 999999999999)], some "latest-step999999999999", by decide +kernel, by decide +kernel, by decide +kernel⟩

/-! ## C42 -/

/-- C42: at most one entry per interrupted step is left behind besides the newest checkpoint. Missing: as in C40. -/
theorem C42_bounded_partial {d0 : Dir P} {s : Sys P} (h : Hist key val d0 s) : s.dir.length ≤ d0.length + 1 + s.crashes := by
  obtain ⟨cur, _, _, _, h4⟩ := hist_inv h
  split at h4 <;> omega

theorem no_pending {d0 : Dir P} {s : Sys P} (hs : Hist key val d0 s) : s.crashes = 0 → s.pend = .none := by
  induction hs with
  | init _ => intro _; rfl
  | start _ _ => intro _; rfl
  | step _ _ _ _ _ _ _ _ => intro _; rfl
  | crashStep _ _ _ _ _ _ _ _ => intro h; simp at h
  | crash _ ih => exact ih

/-- C42: if no step was interrupted, the directory contains what was there initially and exactly one checkpoint: the last one.
(Assumption: the names of temporary copies, which contain a random UUID, do not occur in the initial directory.) -/
theorem C42_exact_partial {d0 : Dir P} {s : Sys P} (h : Hist key val d0 s) (hc : s.crashes = 0)
    (hnum : ∀ n ∈ dkeys d0, suffixInt n = .none) (htmp : ∀ n ∈ dkeys d0, ∀ x, n ≠ x ++ ".tmp") :
    s.dir = d0 ++ (s.safe.map (fun c => (ckptName key (val c), Ent.full c))).toList := by
  suffices (∀ n ∈ dkeys d0, suffixInt n = .none) ∧
      s.dir = d0 ++ (s.safe.map (fun c => (ckptName key (val c), Ent.full c))).toList from this.2
  induction h with
  | @init c0 hd =>
    refine ⟨hnum, ?_⟩
    cases c0 with
    | none => simp
    | some c =>
      have h1 := dget_mem (hd.2 c rfl).2
      have h2 := hnum _ (List.mem_map_of_mem h1)
      rw [suffixInt_ckptName key (hd.2 c rfl).1] at h2; cases h2
  | @start s hs ih =>
    obtain ⟨h0, ih⟩ := ih hc
    refine ⟨h0, ?_⟩
    rcases C40_crash_safe_partial hs with h | ⟨hp, h⟩
    · simpa only [h] using ih
    · rw [no_pending hs hc] at hp; cases hp
  | @step s last last' d' m p hs hm hp hlt hr ih =>
    obtain ⟨h0, ih⟩ := ih hc
    refine ⟨h0, ?_⟩
    obtain ⟨cur, h1, _, h3, _⟩ := hist_inv hs
    obtain ⟨rfl, hsafe⟩ := h3 _ hm
    subst hsafe
    have hfresh := h1.fresh hp hlt
    have hhas : dhas s.dir (ckptName key (val p)) = false := (dhas_false _ _).2 hfresh
    have hput : runOps s.dir (checkpointOps m (ckptName key (val p)) p) = s.dir ++ [(ckptName key (val p), .full p)] := by
      simp only [checkpointOps]
      split
      · simp [runOps, Op.run, dset_new hfresh]
      · rename_i id _
        have ht := suffixInt_tmp (ckptName key (val p)) id
        have hT : dget s.dir (ckptName key (val p) ++ "." ++ id ++ ".tmp") = .none := by
          rw [dget_eq_none_iff, ih]
          intro hm
          simp only [dkeys, List.map_append, List.mem_append] at hm
          rcases hm with hm | hm
          · exact htmp _ hm _ rfl
          · cases hsf : s.safe with
            | none => rw [hsf] at hm; simp at hm
            | some c =>
              rw [hsf] at hm
              simp only [Option.map_some, Option.toList_some, List.map_cons, List.map_nil, List.mem_singleton] at hm
              rw [hm, suffixInt_ckptName key (h1.2 c hsf).1] at ht
              cases ht
        generalize ckptName key (val p) ++ "." ++ id ++ ".tmp" = T at ht hT ⊢
        simp only [runOps, List.foldl, Op.run, dget_dset_self]
        rw [ddel_dset, ddel_dset, ddel_not_mem _ _ hT, dset_new hfresh]
    cases hsf : s.safe with
    | none =>
      rw [hsf] at hr ih
      simp only [stepRun, stepOps, hhas, Option.map_none, if_neg Bool.false_ne_true] at hr
      cases hr
      simp only
      rw [hput, ih]; simp
    | some c =>
      have hcr := h1.2 c hsf
      have hne : ckptName key (val c) ≠ ckptName key (val p) := by
        intro e
        rw [e, hfresh] at hcr; exact absurd hcr.2 (by simp)
      rw [hsf] at hr ih
      have hl : dhas (runOps s.dir (checkpointOps m (ckptName key (val p)) p)) (ckptName key (val c)) = true := by
        rw [dhas_iff, hput, ← dset_new hfresh, dget_dset_ne _ _ (Ne.symm hne)]
        exact ⟨_, hcr.2⟩
      simp only [stepRun, stepOps, hhas, Option.map_some, if_neg Bool.false_ne_true, hl, if_true] at hr
      have hd0 : dget d0 (ckptName key (val c)) = .none := by
        rw [dget_eq_none_iff]
        intro hmem
        have := h0 _ hmem
        rw [suffixInt_ckptName key hcr.1] at this; cases this
      have hrem : ∀ d : Dir P, runOps d (removeOps m (ckptName key (val c))) = ddel d (ckptName key (val c)) := by
        intro d
        simp only [removeOps]
        split
        · simp only [runOps, List.foldl, Op.run, ddel_dset]
        · rfl
      rw [runOps_append, hput, hrem] at hr
      cases hr
      simp only
      rw [ih]
      simp [ddel_append, ddel, ddel_not_mem _ _ hd0, Ne.symm hne]
  | crashStep m p n _ hm hp hlt ih => simp at hc
  | crash _ ih => exact ih hc

/-! ### concrete histories -/

namespace Ckpt

/-- states are just their step count -/
abbrev V : Int → Int := fun i => i

def fast : Move := ⟨.none, false⟩
def slow : Move := ⟨some "4c1d", true⟩

/-- a foreign file in the directory, one step, a crash half-way through the next one's copy, a restart -/
def s1 : Sys Int :=
  ⟨[("notes.txt", .file), ("latest-step000000000010", .full 10), ("latest-step000000000020.4c1d.tmp", .broken)],
   some (some "latest-step000000000010"), some 10, .none, 1⟩

def s0 : Sys Int := ⟨[("notes.txt", .file), ("latest-step000000000010", .full 10)], some (some "latest-step000000000010"), some 10, .none, 0⟩

theorem hist_s0 : Hist "step" V [("notes.txt", .file)] s0 := by
  have h0 : Hist "step" V [("notes.txt", .file)] ⟨[("notes.txt", .file)], .none, .none, .none, 0⟩ :=
    .init (.empty (by simp [dkeys]; decide +kernel))
  have h1 := Hist.start h0
  exact Hist.step fast 10 h1 (last := .none) (by decide +kernel) (by unfold KeyInRange V; omega) (by decide +kernel) (by decide +kernel)

theorem hist_s1 : Hist "step" V [("notes.txt", .file)] s1 := by
  have h2 := Hist.crashStep slow 20 1 hist_s0 rfl (by unfold KeyInRange V; omega) (by intro c hc; cases hc; decide)
  have h3 := Hist.start h2
  have e : (⟨stepCrash slow "step" (V 20) 20 s0.dir (some "latest-step000000000010") 1,
      some (openMgr (stepCrash slow "step" (V 20) 20 s0.dir (some "latest-step000000000010") 1)),
      restored (stepCrash slow "step" (V 20) 20 s0.dir (some "latest-step000000000010") 1), .none, 1⟩ : Sys Int) = s1 := by
    decide +kernel
  rw [← e]; exact h3

/-- a directory in which training has been going on before: the remains of a checkpoint that was being deleted, and a newer one -/
example : Hist "step" V [("latest-step000000000003", .broken), ("latest-step000000000010", .full 10)]
    ⟨[("latest-step000000000003", .broken), ("latest-step000000000010", .full 10)], .none, some 10, .none, 0⟩ := by
  have h3 : suffixInt "latest-step000000000003" = some 3 := by decide +kernel
  refine .init ⟨?_, ?_⟩
  · intro n hn i hi
    refine ⟨10, rfl, ?_⟩
    have : n = "latest-step000000000003" ∨ n = "latest-step000000000010" := by simpa [dkeys] using hn
    rcases this with rfl | rfl
    · rw [h3] at hi; cases hi; exact .inr (by decide)
    · exact .inl (by decide +kernel)
  · intro c hc
    cases hc
    exact ⟨by unfold KeyInRange V; omega, by decide +kernel⟩

/-- non-vacuity of C40, C42: the theorems apply to this history -/
example : restored s1.dir = some 10 := by
  rcases C40_crash_safe_partial hist_s1 with h | h
  · exact h
  · exact absurd h.1 (by decide)

example : ∃ d', stepRun slow "step" 20 20 s1.dir (some "latest-step000000000010") = some (d', some (ckptName "step" 20)) ∧
    restored d' = some 20 :=
  C40_step_returns_partial hist_s1 rfl slow (p := 20) (by unfold KeyInRange V; omega) (by intro c hc; cases hc; decide)

example : s1.dir.length ≤ 1 + 1 + 1 := C42_bounded_partial hist_s1

example : s0.dir = [("notes.txt", .file)] ++ [("latest-step000000000010", .full 10)] := rfl

end Ckpt

/-! ## C41 -/

/-- C41, for any directory and any `_last_checkpoint`: if the key's name is not in use, the directory contains the current contents
under that name once step has returned. Missing: keys that are already in use, see below. -/
theorem C41_step_saves_partial (m : Move) (key : String) (i : Int) (p : P) (d : Dir P) (last : Option String)
    (hfresh : ckptName key i ∉ dkeys d) (hlast : last ≠ some (ckptName key i)) {d' : Dir P} {last' : Option String}
    (h : stepRun m key i p d last = some (d', last')) :
    dget d' (ckptName key i) = some (.full p) ∧ last' = some (ckptName key i) := by
  have hf := (dget_eq_none_iff _ _).2 hfresh
  have hhas : dhas d (ckptName key i) = false := (dhas_false _ _).2 hf
  have hput : dget (runOps d (checkpointOps m (ckptName key i) p)) (ckptName key i) = some (.full p) := by
    simp only [checkpointOps]
    split
    · simp [runOps, Op.run]
    · simp [runOps, List.foldl, Op.run]
  cases last with
  | none =>
    simp only [stepRun, stepOps, hhas, if_neg Bool.false_ne_true] at h
    cases h
    exact ⟨hput, rfl⟩
  | some l =>
    have hne : l ≠ ckptName key i := fun e => hlast (by rw [e])
    simp only [stepRun, stepOps, hhas, if_neg Bool.false_ne_true] at h
    split at h
    · rename_i heq
      split at heq
      · cases h; cases heq
        refine ⟨?_, rfl⟩
        rw [runOps_append, removeOps]
        split
        · simp only [runOps, List.foldl, Op.run] at hput ⊢
          rw [ddel_dset, dget_ddel_ne _ hne]; exact hput
        · simp only [runOps, List.foldl, Op.run] at hput ⊢
          rw [dget_ddel_ne _ hne]; exact hput
      · cases heq
    · cases h

/-- C41 is false: for every directory without that checkpoint, stepping a new manager twice without changing the key removes the
only checkpoint; and from then on every step with a different key raises. -/
theorem C41_same_key_false (m m' : Move) (key : String) (i : Int) (p p' : P) (d : Dir P) (hfresh : ckptName key i ∉ dkeys d) :
    ∃ d1 d2 l, stepRun m key i p d .none = some (d1, l) ∧ stepRun m' key i p' d1 l = some (d2, l) ∧
      ckptName key i ∉ dkeys d2 ∧
      ∀ m'' j q, ckptName key j ≠ ckptName key i → stepRun m'' key j q d2 l = .none := by
  have hf := (dget_eq_none_iff _ _).2 hfresh
  have hhas : dhas d (ckptName key i) = false := (dhas_false _ _).2 hf
  have h1 : stepRun m key i p d .none = some (runOps d (checkpointOps m (ckptName key i) p), some (ckptName key i)) := by
    simp only [stepRun, stepOps, hhas, if_neg Bool.false_ne_true]
  have h1' := (C41_step_saves_partial m key i p d .none hfresh (by simp) h1).1
  have hh1 := (dhas_iff _ _).2 ⟨_, h1'⟩
  have hh1' : dhas (runOps (runOps d (checkpointOps m (ckptName key i) p)) []) (ckptName key i) = true := hh1
  have hrem : ∀ d : Dir P, runOps d (removeOps m' (ckptName key i)) = ddel d (ckptName key i) := by
    intro d
    simp only [removeOps]
    split
    · simp only [runOps, List.foldl, Op.run, ddel_dset]
    · rfl
  refine ⟨_, ddel (runOps d (checkpointOps m (ckptName key i) p)) (ckptName key i), _, h1, ?_, ?_, ?_⟩
  · simp only [stepRun, stepOps, hh1, if_true, hh1', List.nil_append, hrem]
  · rw [← dget_eq_none_iff]; simp
  · intro m'' j q hne
    have hgone : dget (ddel (runOps d (checkpointOps m (ckptName key i) p)) (ckptName key i)) (ckptName key i) = .none := by simp
    generalize ddel (runOps d (checkpointOps m (ckptName key i) p)) (ckptName key i) = d2 at hgone
    have : dhas (runOps d2 (if dhas d2 (ckptName key j) then [] else checkpointOps m'' (ckptName key j) q)) (ckptName key i) = false := by
      rw [dhas_false]
      split
      · simpa [runOps] using hgone
      · simp only [checkpointOps]
        split
        · simp only [runOps, List.foldl, Op.run]
          rw [dget_dset_ne _ _ hne, hgone]
        · simp only [runOps, List.foldl, Op.run, dget_dset_self]
          rw [dget_dset_ne _ _ hne, ddel_dset, ddel_dset]
          by_cases e : ckptName key j ++ "." ++ ‹String› ++ ".tmp" = ckptName key i
          · rw [e]; simp
          · rw [dget_ddel_ne _ e, hgone]
    simp [stepRun, stepOps, this]

/-- the witness, with numbers: step 5, step 5, step 6 -/
example : (stepRun Ckpt.fast "step" 5 (100 : Int) [] .none = some ([("latest-step000000000005", .full 100)], some "latest-step000000000005")) ∧
    stepRun Ckpt.fast "step" 5 101 [("latest-step000000000005", .full 100)] (some "latest-step000000000005") =
      some ([], some "latest-step000000000005") ∧
    stepRun Ckpt.fast "step" 6 102 [] (some "latest-step000000000005") = .none := by decide +kernel

/-- C41 is also false when an entry with the key's name is already there: its old contents are kept. -/
theorem C41_stale_false (m : Move) (key : String) (i : Int) (p : P) (d : Dir P) (e : Ent P) (he : dget d (ckptName key i) = some e) :
    stepRun m key i p d .none = some (d, some (ckptName key i)) := by
  simp [stepRun, stepOps, dhas, he, runOps]

/-! ## C43 -/

/-- C43: if the directories with a number are complete checkpoints written by step with in-range keys, the one with the largest key is
restored, whatever else is in the directory and in whatever order it is listed. -/
theorem C43_newest_partial {d : Dir P} {q : P} (hn : (dkeys d).Nodup) (hq : (ckptName key (val q), .full q) ∈ d) (hr : KeyInRange (val q))
    (hall : ∀ n e i, (n, e) ∈ d → e.isDir = true → suffixInt n = some i →
      ∃ p, KeyInRange (val p) ∧ n = ckptName key (val p) ∧ (val p = val q ∨ val p < val q)) :
    restored d = some q ∧ openMgr d = some (ckptName key (val q)) := by
  have hf : findLatest d = some (ckptName key (val q)) := by
    apply findLatest_max hq rfl (suffixInt_ckptName key hr)
    intro m e j hm he hj
    obtain ⟨p, hp, rfl, h | h⟩ := hall m e j hm he hj
    · left; rw [h]
    · right
      rw [suffixInt_ckptName key hp] at hj
      cases hj; exact h
  have ho : openMgr d = some (ckptName key (val q)) := by
    simp only [openMgr, hf]; rw [latest_ckptName]; rfl
  exact ⟨by simp [restored, ho, dget_of_mem hn hq], ho⟩

/-- C43: the listing order does not matter, for any directory in which the largest number occurs once. -/
theorem C43_order {d d' : Dir P} (hp : d.Perm d') (hn : (dkeys d).Nodup)
    (huniq : ∀ n e m e' i, (n, e) ∈ d → (m, e') ∈ d → e.isDir = true → e'.isDir = true → suffixInt n = some i → suffixInt m = some i → n = m) :
    openMgr d = openMgr d' ∧ restored d = restored d' := by
  have hn' : (dkeys d').Nodup := (hp.map Prod.fst).nodup_iff.1 hn
  have hf : findLatest d = findLatest d' := by
    cases h : findLatest d with
    | none =>
      rw [findLatest_none] at h
      symm
      rw [findLatest_none]
      intro m e hm; exact h m e (hp.mem_iff.2 hm)
    | some n =>
      obtain ⟨e, i, h1, h2, h3, h4⟩ := findLatest_some h
      symm
      apply findLatest_max (hp.mem_iff.1 h1) h2 h3
      intro m e' j hm he' hj
      have hm' := hp.mem_iff.2 hm
      rcases Int.lt_or_eq_of_le (h4 m e' j hm' he' hj) with hlt | rfl
      · exact .inr hlt
      · exact .inl (huniq m e' n e j hm' h1 he' h2 hj h3)
  have ho : openMgr d = openMgr d' := by simp only [openMgr, hf]
  refine ⟨ho, ?_⟩
  have hg : ∀ n, dget d n = dget d' n := by
    intro n
    cases h : dget d n with
    | none =>
      symm
      rw [dget_eq_none_iff] at h ⊢
      intro hm; exact h ((hp.map Prod.fst).mem_iff.2 hm)
    | some v => exact (dget_of_mem hn' (hp.mem_iff.1 (dget_mem h))).symm
  simp only [restored, ho, hg]

example : restored [("latest-step000000000007", .full (7 : Int)), ("x", .broken), ("latest-step-00000000100", .full (-100)),
    ("latest-step000000000012", .full 12)] = some 12 := by decide +kernel

/-- C43 is false for keys of more than twelve digits: their names are compared by the last twelve digits only. -/
theorem C43_large_key_false :
    restored [(ckptName "step" 999999999999, .full (999999999999 : Int)), (ckptName "step" 1000000000000, .full 1000000000000)] =
      some 999999999999 := by decide +kernel

/-! ## C44 -/

/-- entries that `find_latest_checkpoint` does not consider: files, short names, names whose last twelve characters contain something
that is no digit, sign, underscore or space -/
def Foreign (n : String) (e : Ent P) : Prop :=
  e = .file ∨ n.toList.length < 12 ∨
  ∃ c ∈ n.toList.drop (n.toList.length - 12), c ≠ '_' ∧ c ≠ '-' ∧ c ≠ '+' ∧ isSpaceC c = false ∧ digitVal c = .none

theorem Foreign.skip {n : String} {e : Ent P} (h : Foreign n e) : e.isDir = false ∨ suffixInt n = .none := by
  rcases h with rfl | h | ⟨c, hc, h1, h2, h3, h4, h5⟩
  · exact .inl rfl
  · right; simp only [suffixInt]; rw [if_neg (by omega)]
  · right
    simp only [suffixInt]
    split
    · exact pyInt_bad h1 h5 h4 h2 h3 hc
    · rfl

theorem findLatestLoop_skip {n : String} {e : Ent P} (h : e.isDir = false ∨ suffixInt n = .none) (d2 : Dir P) : ∀ (d1 : Dir P) (b : Option (Int × String)),
    findLatestLoop (d1 ++ (n, e) :: d2) b = findLatestLoop (d1 ++ d2) b := by
  intro d1
  induction d1 with
  | nil =>
    intro b
    simp only [List.nil_append, findLatestLoop]
    rcases h with h | h
    · simp [h]
    · simp [h]
  | cons x d1 ih =>
    intro b
    obtain ⟨m, e'⟩ := x
    simp only [List.cons_append, findLatestLoop, ih]

/-- C44: files, directories with short names and directories without a number at the end of their name change nothing. -/
theorem C44_foreign_ignored_partial (d1 d2 : Dir P) {n : String} {e : Ent P} (h : Foreign n e) (hn : n ∉ dkeys (d1 ++ d2)) :
    openMgr (d1 ++ (n, e) :: d2) = openMgr (d1 ++ d2) ∧ restored (d1 ++ (n, e) :: d2) = restored (d1 ++ d2) := by
  have hf : findLatest (d1 ++ (n, e) :: d2) = findLatest (d1 ++ d2) := by
    simp only [findLatest, findLatestLoop_skip h.skip]
  have ho : openMgr (d1 ++ (n, e) :: d2) = openMgr (d1 ++ d2) := by simp only [openMgr, hf]
  refine ⟨ho, ?_⟩
  simp only [restored, ho]
  cases hm : openMgr (d1 ++ d2) with
  | none => rfl
  | some m =>
    have hmem : m ∈ dkeys (d1 ++ d2) := by
      simp only [openMgr] at hm
      cases hfl : findLatest (d1 ++ d2) with
      | none => rw [hfl] at hm; cases hm
      | some m' =>
        rw [hfl] at hm
        simp only at hm
        split at hm
        · cases hm
          obtain ⟨e', _, h1, _⟩ := findLatest_some hfl
          exact List.mem_map_of_mem h1
        · cases hm
    have hne : n ≠ m := by rintro rfl; exact hn hmem
    have hd : dget (d1 ++ (n, e) :: d2) m = dget (d1 ++ d2) m := by
      clear ho hf hn hmem hm
      induction d1 with
      | nil => simp [dget, hne]
      | cons x d1 ih => obtain ⟨j, y⟩ := x; simp [dget, ih]
    simp only [hd]

/-- the temporary copies made by `atomic_move` are of that kind -/
theorem C44_tmp_foreign (name id : String) (e : Ent P) : Foreign (name ++ "." ++ id ++ ".tmp") e := by
  by_cases h : (name ++ "." ++ id ++ ".tmp").toList.length < 12
  · exact .inr (.inl h)
  · refine .inr (.inr ⟨'p', ?_, by decide, by decide, by decide, by decide, by decide⟩)
    have hl : (name ++ "." ++ id ++ ".tmp").toList = (name ++ "." ++ id).toList ++ ['.', 't', 'm', 'p'] := by simp
    rw [hl] at h ⊢
    rw [List.drop_append]
    apply List.mem_append_right
    simp only [List.length_append, List.length_cons, List.length_nil] at h ⊢
    have : (name ++ "." ++ id).toList.length + (0 + 1 + 1 + 1 + 1) - 12 - (name ++ "." ++ id).toList.length = 0 := by omega
    rw [this]; decide

example : Foreign "notes.txt" (.file : Ent Int) := .inl rfl

/-- C44 is false for other directories: any directory whose name ends in a larger number and does not start with "latest" hides all
checkpoints. -/
theorem C44_numbered_dir_false (d : Dir P) (n : String) (i : Int) (e : Ent P) (hm : (n, e) ∈ d) (he : e.isDir = true) (hi : suffixInt n = some i)
    (hp : "latest".toList.isPrefixOf n.toList = false)
    (hmax : ∀ m e' j, (m, e') ∈ d → e'.isDir = true → suffixInt m = some j → m = n ∨ j < i) : openMgr d = .none ∧ restored d = .none := by
  have hf := findLatest_max hm he hi hmax
  have ho : openMgr d = .none := by simp only [openMgr, hf, hp]; rfl
  exact ⟨ho, by simp [restored, ho]⟩

example : restored [("latest-step000000000010", .full (10 : Int)), ("backup-202401312359", .broken)] = .none := by decide +kernel

/-- ... and one whose name starts with "latest" is restored instead. -/
theorem C44_latest_dir_false :
    openMgr [("latest-step000000000010", .full (10 : Int)), ("latest_notes_202401312359", .broken)] = some "latest_notes_202401312359" := by
  decide +kernel

end
end HS
