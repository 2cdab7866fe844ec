import Verif.Model.Ranks
import Verif.Props.Checkpoint
/-!
# C79: several processes that call `step` on the same checkpoint directory
-/
namespace HS

section
variable {P : Type} {key : String} {val : P → Int}

/-- The number of the checkpoint that the process would delete is smaller. -/
def LastLt (last : Option String) (v : Int) : Prop := ∀ l j, last = some l → suffixInt l = some j → j < v

/-- Calls of `step` use a key in the usual range that is larger than the one of the checkpoint which this process has loaded or written
last. -/
def CallOK (val : P → Int) (s : Ranks P) : REv P → Prop
  | .call i v p => v = val p ∧ KeyInRange v ∧ ∀ last, s.procs i = some ⟨last, .idle⟩ → LastLt last v
  | _ => True

/-- all calls of a history -/
def CallsOK (key : String) (val : P → Int) : Ranks P → List (REv P) → Prop
  | _, [] => True
  | s, e :: es => CallOK val s e ∧ CallsOK key val (s.ev key e).1 es

/-! ## the invariant -/

/-- what is known about a process; `A p`: some process has called `step` with contents `p` -/
def RankOK (val : P → Int) (A : P → Prop) (top : Option P) (r : Rank P) : Prop :=
  (∀ l, r.last = some l → ∃ j c, suffixInt l = some j ∧ top = some c ∧ j ≤ val c) ∧
  match r.pc with
  | .idle => True
  | .entered v p => v = val p ∧ A p ∧ KeyInRange v ∧ LastLt r.last v
  | .dumped v p => v = val p ∧ A p ∧ KeyInRange v ∧ LastLt r.last v
  | .copying v p tmp => v = val p ∧ A p ∧ KeyInRange v ∧ LastLt r.last v ∧ suffixInt tmp = .none
  | .copied v p tmp => v = val p ∧ A p ∧ KeyInRange v ∧ LastLt r.last v ∧ suffixInt tmp = .none
  | .present v => KeyInRange v ∧ LastLt r.last v ∧ ∃ c, top = some c ∧ v ≤ val c
  | .deleting v l => KeyInRange v ∧ LastLt r.last v ∧ r.last = some l ∧ ∃ c, top = some c ∧ v ≤ val c

/-- the newest checkpoint only gets newer -/
def TopLe (val : P → Int) (top top' : Option P) : Prop := ∀ c, top = some c → ∃ c', top' = some c' ∧ (c' = c ∨ val c < val c')

theorem TopLe.refl (top : Option P) : TopLe val top top := fun c hc => ⟨c, hc, .inl rfl⟩

theorem TopLe.trans {a b c : Option P} (h : TopLe val a b) (h' : TopLe val b c) : TopLe val a c := by
  intro x hx
  obtain ⟨y, hy, h1⟩ := h x hx
  obtain ⟨z, hz, h2⟩ := h' y hy
  refine ⟨z, hz, ?_⟩
  rcases h1 with rfl | h1
  · exact h2
  · rcases h2 with rfl | h2
    · exact .inr h1
    · exact .inr (by omega)

theorem TopLe.bound {top top' : Option P} (h : TopLe val top top') {v : Int} (hv : ∃ c, top = some c ∧ v ≤ val c) : ∃ c, top' = some c ∧ v ≤ val c := by
  obtain ⟨c, hc, hle⟩ := hv
  obtain ⟨c', hc', h1⟩ := h c hc
  refine ⟨c', hc', ?_⟩
  rcases h1 with rfl | h1
  · exact hle
  · omega

theorem RankOK.mono {A : P → Prop} {top top' : Option P} (h : TopLe val top top') {r : Rank P} (hr : RankOK val A top r) : RankOK val A top' r := by
  obtain ⟨h1, h2⟩ := hr
  refine ⟨?_, ?_⟩
  · intro l hl
    obtain ⟨j, c, hj, hc⟩ := h1 l hl
    obtain ⟨c', hc'⟩ := h.bound ⟨c, hc⟩
    exact ⟨j, c', hj, hc'⟩
  · cases hpc : r.pc with
    | idle => trivial
    | entered v p => rw [hpc] at h2; exact h2
    | dumped v p => rw [hpc] at h2; exact h2
    | copying v p tmp => rw [hpc] at h2; exact h2
    | copied v p tmp => rw [hpc] at h2; exact h2
    | present v => rw [hpc] at h2; exact ⟨h2.1, h2.2.1, h.bound h2.2.2⟩
    | deleting v l => rw [hpc] at h2; exact ⟨h2.1, h2.2.1, h2.2.2.1, h.bound h2.2.2.2⟩

/-- a complete checkpoint appears under a name that could be renamed to -/
theorem DirOK.write {d : Dir P} {top : Option P} (h : DirOK key val d top) {p : P} (hp : KeyInRange (val p))
    (hfree : ∀ c, top = some c → val c ≠ val p) :
    ∃ top', DirOK key val (dset d (ckptName key (val p)) (.full p)) top' ∧ TopLe val top top' ∧ (∃ c, top' = some c ∧ val p ≤ val c) ∧
      (top' = top ∨ top' = some p) := by
  cases top with
  | none => exact ⟨some p, h.new hp (by simp), fun c hc => by simp at hc, ⟨p, rfl, Int.le_refl _⟩, .inr rfl⟩
  | some c =>
    have := hfree c rfl
    rcases Int.lt_or_gt_of_ne this with hlt | hgt
    · exact ⟨some p, h.new hp (fun c' hc' => by cases hc'; exact hlt), fun c' hc' => by cases hc'; exact ⟨p, rfl, .inr hlt⟩, ⟨p, rfl, Int.le_refl _⟩, .inr rfl⟩
    · refine ⟨some c, h.put ?_, TopLe.refl _, ⟨c, rfl, by omega⟩, .inl rfl⟩
      intro i hi
      rw [suffixInt_ckptName key hp] at hi
      cases hi
      exact ⟨c, rfl, hgt⟩

theorem canRename_free {os : Os} {d : Dir P} {top : Option P} (h : DirOK key val d top) {p : P} (hc : canRename os d (ckptName key (val p)) = true) :
    ∀ c, top = some c → val c ≠ val p := by
  intro c hc' e
  have := (h.2 c hc').2
  rw [e] at this
  simp [canRename, this] at hc

/-- an entry with the name of a checkpoint is not newer than the newest -/
theorem DirOK.le_top {d : Dir P} {top : Option P} (h : DirOK key val d top) {v : Int} (hv : KeyInRange v) (hd : dhas d (ckptName key v) = true) :
    ∃ c, top = some c ∧ v ≤ val c := by
  have hm : ckptName key v ∈ dkeys d := by
    obtain ⟨e, he⟩ := (dhas_iff _ _).1 hd
    exact List.mem_map_of_mem (dget_mem he)
  obtain ⟨c, hc, h1⟩ := h.1 _ hm _ (suffixInt_ckptName key hv)
  refine ⟨c, hc, ?_⟩
  rcases h1 with h1 | h1
  · have h3 := suffixInt_ckptName key hv
    rw [h1, suffixInt_ckptName key (h.2 c hc).1, Option.some.injEq] at h3
    omega
  · omega

theorem last_old {A : P → Prop} {d : Dir P} {top : Option P} (_ : DirOK key val d top) {r : Rank P} (hr : RankOK val A top r) {l : String}
    (hl : r.last = some l) {v : Int} (hlt : LastLt r.last v) (hv : ∃ c, top = some c ∧ v ≤ val c) :
    ∃ j c, suffixInt l = some j ∧ top = some c ∧ j < val c := by
  obtain ⟨j, c, hj, hc, _⟩ := hr.1 l hl
  obtain ⟨c', hc', hle⟩ := hv
  rw [hc] at hc'; cases hc'
  have := hlt l j hl hj
  exact ⟨j, c, hj, hc, by omega⟩

theorem DirOK.del_old {d : Dir P} {top : Option P} (h : DirOK key val d top) {l : String} {j : Int} {c : P} (hj : suffixInt l = some j)
    (hc : top = some c) (hlt : j < val c) : DirOK key val (ddel d l) top ∧ DirOK key val (dset d l .broken) top := by
  refine ⟨h.del ?_, h.put ?_⟩
  · rintro c' hc' rfl
    rw [hc] at hc'; cases hc'
    rw [suffixInt_ckptName key (h.2 c hc).1] at hj
    cases hj; omega
  · intro i hi
    rw [hj] at hi; cases hi
    exact ⟨c, hc, hlt⟩

/-- one effect of one process -/
theorem ranks_next_inv {A : P → Prop} {d d' : Dir P} {top : Option P} {r r' : Rank P} {os : Os} {o : Outcome} (hd : DirOK key val d top)
    (hr : RankOK val A top r) (h : r.next key os d = (d', r', o)) :
    ∃ top', DirOK key val d' top' ∧ RankOK val A top' r' ∧ TopLe val top top' ∧ (top' = top ∨ ∃ p, A p ∧ top' = some p) ∧
      ∀ v, o = .returned v → ∃ c, top' = some c ∧ v ≤ val c := by
  have hlast := hr.1
  have hdone : ∀ (v : Int), KeyInRange v → (∃ c, top = some c ∧ v ≤ val c) → RankOK val A top ⟨some (ckptName key v), .idle⟩ := by
    intro v hv ⟨c, hc, hle⟩
    refine ⟨?_, trivial⟩
    intro l hl
    cases hl
    exact ⟨v, c, suffixInt_ckptName key hv, hc, hle⟩
  have hpc := hr.2
  rw [Rank.next] at h
  cases hp : r.pc with
  | idle =>
    simp only [hp] at h
    cases h
    exact ⟨top, hd, hr, TopLe.refl _, .inl rfl, by simp⟩
  | entered v p =>
    simp only [hp] at h hpc
    split at h
    · rename_i hh
      cases h
      exact ⟨top, hd, ⟨hlast, hpc.2.2.1, hpc.2.2.2, hd.le_top hpc.2.2.1 hh⟩, TopLe.refl _, .inl rfl, by simp⟩
    · cases h
      exact ⟨top, hd, ⟨hlast, hpc⟩, TopLe.refl _, .inl rfl, by simp⟩
  | dumped v p =>
    simp only [hp] at h hpc
    obtain ⟨rfl, hA, hk, hl⟩ := hpc
    split at h
    · split at h
      · rename_i hc
        cases h
        obtain ⟨top', h1, h2, h3, h4⟩ := hd.write hk (canRename_free hd hc)
        refine ⟨top', h1, ⟨(RankOK.mono h2 hr).1, hk, hl, h3⟩, h2, ?_, by simp⟩
        rcases h4 with h4 | h4
        · exact .inl h4
        · exact .inr ⟨p, hA, h4⟩
      · cases h
        exact ⟨top, hd, ⟨hlast, trivial⟩, TopLe.refl _, .inl rfl, by simp⟩
    · rename_i id _
      cases h
      have ht := suffixInt_tmp (ckptName key (val p)) id
      exact ⟨top, hd.put (by rw [ht]; simp), ⟨hlast, rfl, hA, hk, hl, ht⟩, TopLe.refl _, .inl rfl, by simp⟩
  | copying v p tmp =>
    simp only [hp] at h hpc
    cases h
    exact ⟨top, hd.put (by rw [hpc.2.2.2.2]; simp), ⟨hlast, hpc⟩, TopLe.refl _, .inl rfl, by simp⟩
  | copied v p tmp =>
    simp only [hp] at h hpc
    obtain ⟨rfl, hA, hk, hl, ht⟩ := hpc
    split at h
    · rename_i hc
      cases h
      have hd' : DirOK key val (ddel d tmp) top := by
        apply hd.del
        rintro c hc' rfl
        rw [suffixInt_ckptName key (hd.2 c hc').1] at ht; cases ht
      obtain ⟨top', h1, h2, h3, h4⟩ := hd'.write hk (canRename_free hd hc)
      refine ⟨top', h1, ⟨(RankOK.mono h2 hr).1, hk, hl, h3⟩, h2, ?_, by simp⟩
      rcases h4 with h4 | h4
      · exact .inl h4
      · exact .inr ⟨p, hA, h4⟩
    · cases h
      exact ⟨top, hd, ⟨hlast, trivial⟩, TopLe.refl _, .inl rfl, by simp⟩
  | present v =>
    simp only [hp] at h hpc
    obtain ⟨hk, hl, hv⟩ := hpc
    cases hla : r.last with
    | none =>
      simp only [hla] at h
      cases h
      exact ⟨top, hd, hdone v hk hv, TopLe.refl _, .inl rfl, fun v' hv' => by cases hv'; exact hv⟩
    | some l =>
      simp only [hla] at h
      obtain ⟨j, c, hj, hc, hlt⟩ := last_old hd hr hla hl hv
      obtain ⟨d1, d2⟩ := hd.del_old hj hc hlt
      split at h
      · split at h
        · cases h
          rw [hla] at hl hlast
          exact ⟨top, d2, ⟨hlast, hk, hl, rfl, hv⟩, TopLe.refl _, .inl rfl, by simp⟩
        · cases h
          exact ⟨top, d1, hdone v hk hv, TopLe.refl _, .inl rfl, fun v' hv' => by cases hv'; exact hv⟩
      · cases h
        rw [hla] at hlast
        exact ⟨top, hd, ⟨hlast, trivial⟩, TopLe.refl _, .inl rfl, by simp⟩
  | deleting v l =>
    simp only [hp] at h hpc
    obtain ⟨hk, hl, hla, hv⟩ := hpc
    obtain ⟨j, c, hj, hc, hlt⟩ := last_old hd hr hla hl hv
    split at h
    · cases h
      exact ⟨top, (hd.del_old hj hc hlt).1, hdone v hk hv, TopLe.refl _, .inl rfl, fun v' hv' => by cases hv'; exact hv⟩
    · cases h
      exact ⟨top, hd, ⟨hlast, trivial⟩, TopLe.refl _, .inl rfl, by simp⟩

/-- the invariant of the system -/
def RanksInv (key : String) (val : P → Int) (A : P → Prop) (s : Ranks P) (top : Option P) : Prop :=
  DirOK key val s.dir top ∧ (∀ c, top = some c → A c) ∧ ∀ i r, s.procs i = some r → RankOK val A top r

theorem RanksInv.put {A : P → Prop} {s : Ranks P} {top top' : Option P} (h : RanksInv key val A s top) (hle : TopLe val top top') {d : Dir P}
    (hd : DirOK key val d top') (hA : ∀ c, top' = some c → A c) (i : Nat) {r : Option (Rank P)} (hr : ∀ r', r = some r' → RankOK val A top' r') :
    RanksInv key val A ⟨d, s.put i r⟩ top' := by
  refine ⟨hd, hA, ?_⟩
  intro j r' hj
  simp only [Ranks.put] at hj
  split at hj
  · exact hr r' hj
  · exact (h.2.2 j r' hj).mono hle

theorem openMgr_rank {A : P → Prop} {d : Dir P} {top : Option P} (hd : DirOK key val d top) : RankOK val A top ⟨openMgr d, .idle⟩ := by
  refine ⟨?_, trivial⟩
  intro l hl
  rw [hd.openMgr_eq.1] at hl
  cases top with
  | none => cases hl
  | some c =>
    cases hl
    exact ⟨val c, c, suffixInt_ckptName key (hd.2 c rfl).1, rfl, Int.le_refl _⟩

theorem ranks_ev_inv {A : P → Prop} {s : Ranks P} {top : Option P} (h : RanksInv key val A s top) {e : REv P} (hc : CallOK val s e)
    (hA : ∀ i v p, e = .call i v p → A p) :
    ∃ top', RanksInv key val A (s.ev key e).1 top' ∧ TopLe val top top' ∧
      ∀ v, (s.ev key e).2 = .returned v → ∃ c, top' = some c ∧ v ≤ val c := by
  cases e with
  | start i =>
    exact ⟨top, h.put (TopLe.refl _) h.1 h.2.1 i (fun r' hr' => by cases hr'; exact openMgr_rank h.1), TopLe.refl _, by simp [Ranks.ev]⟩
  | crash i => exact ⟨top, h.put (TopLe.refl _) h.1 h.2.1 i (by simp), TopLe.refl _, by simp [Ranks.ev]⟩
  | call i v p =>
    simp only [Ranks.ev]
    split
    · rename_i last hi
      refine ⟨top, h.put (TopLe.refl _) h.1 h.2.1 i ?_, TopLe.refl _, by simp⟩
      intro r' hr'
      cases hr'
      exact ⟨(h.2.2 i _ hi).1, hc.1, hA i v p rfl, hc.2.1, hc.2.2 last hi⟩
    · exact ⟨top, h, TopLe.refl _, by simp⟩
  | next i os =>
    simp only [Ranks.ev]
    cases hi : s.procs i with
    | none => exact ⟨top, h, TopLe.refl _, by simp⟩
    | some r =>
      simp only
      obtain ⟨top', h1, h2, h3, h4, h5⟩ := ranks_next_inv (d' := (r.next key os s.dir).1) (r' := (r.next key os s.dir).2.1)
        (o := (r.next key os s.dir).2.2) h.1 (h.2.2 i r hi) rfl
      refine ⟨top', h.put h3 h1 ?_ i (fun r' hr' => by cases hr'; exact h2), h3, h5⟩
      rcases h4 with rfl | ⟨p, hp, rfl⟩
      · exact h.2.1
      · intro c hc'; cases hc'; exact hp

theorem ranks_run_inv {A : P → Prop} : ∀ (es : List (REv P)) (s : Ranks P) (top : Option P), RanksInv key val A s top → CallsOK key val s es →
    (∀ i v p, .call i v p ∈ es → A p) →
    ∃ top', RanksInv key val A (s.run key es).2 top' ∧ TopLe val top top' ∧
      ∀ v, .returned v ∈ (s.run key es).1 → ∃ c, top' = some c ∧ v ≤ val c
  | [], s, top, h, _, _ => ⟨top, h, TopLe.refl _, by simp [Ranks.run]⟩
  | e :: es, s, top, h, hc, hA => by
    obtain ⟨top1, h1, h2, h3⟩ := ranks_ev_inv h hc.1 (fun i v p he => hA i v p (by rw [he]; exact List.mem_cons_self))
    obtain ⟨top2, k1, k2, k3⟩ := ranks_run_inv es _ top1 h1 hc.2 (fun i v p he => hA i v p (List.mem_cons_of_mem _ he))
    refine ⟨top2, k1, h2.trans k2, ?_⟩
    intro v hv
    simp only [Ranks.run, List.mem_cons] at hv
    rcases hv with hv | hv
    · exact k2.bound (h3 v hv.symm)
    · exact k3 v hv

/-- nobody is running -/
def Ranks.start (d : Dir P) : Ranks P := ⟨d, fun _ => .none⟩

theorem ranks_start_inv {A : P → Prop} {d : Dir P} {c0 : Option P} (hd : DirOK key val d c0) (hA : ∀ c, c0 = some c → A c) :
    RanksInv key val A (Ranks.start d) c0 := ⟨hd, hA, by simp [Ranks.start]⟩

/-! ## C79 -/

/-- C79: any number of processes start, call `step`, are interrupted and end on one directory, interleaved in any way. Whenever some call
of `step` has returned, a StateManager opened on the directory restores complete contents that a process has passed to `step` (or that were there at
the beginning), with a key at least as large. Missing: keys outside the usual range, and steps of a process with a key that is not larger than the one of its previous
checkpoint (for both it is false for one process: C40_large_key_false, C41_same_key_false). -/
theorem C79_safe_partial {d : Dir P} {c0 : Option P} (hd : DirOK key val d c0) {es : List (REv P)} (hc : CallsOK key val (Ranks.start d) es)
    {v : Int} (hv : .returned v ∈ ((Ranks.start d).run key es).1) :
    ∃ c, (c0 = some c ∨ ∃ i, .call i (val c) c ∈ es) ∧ restored ((Ranks.start d).run key es).2.dir = some c ∧ v ≤ val c := by
  have hval : ∀ (es : List (REv P)) (s : Ranks P), CallsOK key val s es → ∀ i v p, .call i v p ∈ es → v = val p := by
    intro es
    induction es with
    | nil => intro s _ i v p h; cases h
    | cons e es ih =>
      intro s hc i v p hm
      rcases List.mem_cons.1 hm with he | hm
      · have := hc.1
        rw [← he] at this
        exact this.1
      · exact ih _ hc.2 i v p hm
  obtain ⟨top, h1, _, h3⟩ := ranks_run_inv (A := fun p => c0 = some p ∨ ∃ i, .call i (val p) p ∈ es) es (Ranks.start d) c0
    (ranks_start_inv hd fun _ => .inl) hc (fun i v p h => .inr ⟨i, by have := hval es _ hc i v p h; rw [← this]; exact h⟩)
  obtain ⟨c, rfl, hle⟩ := h3 v hv
  exact ⟨c, h1.2.1 c rfl, h1.1.openMgr_eq.2, hle⟩

/-- C79: what a StateManager opened on the directory restores only ever becomes newer. -/
theorem C79_forward_partial {d : Dir P} {c0 : Option P} (hd : DirOK key val d c0) {es fs : List (REv P)}
    (hc : CallsOK key val (Ranks.start d) es) (hc' : CallsOK key val ((Ranks.start d).run key es).2 fs) {c : P}
    (hr : restored ((Ranks.start d).run key es).2.dir = some c) :
    ∃ c', restored (((Ranks.start d).run key es).2.run key fs).2.dir = some c' ∧ (c' = c ∨ val c < val c') := by
  obtain ⟨top, h1, _, _⟩ := ranks_run_inv (A := fun _ => True) es (Ranks.start d) c0 (ranks_start_inv hd fun _ _ => trivial) hc (fun _ _ _ _ => trivial)
  obtain ⟨top', k1, k2, _⟩ := ranks_run_inv (A := fun _ => True) fs _ top h1 hc' (fun _ _ _ _ => trivial)
  rw [h1.1.openMgr_eq.2] at hr
  rw [k1.1.openMgr_eq.2]
  exact k2 c hr

/-- C79: a StateManager that is opened at any moment and finds a checkpoint finds a complete one. -/
theorem C79_complete_partial {d : Dir P} {c0 : Option P} (hd : DirOK key val d c0) {es : List (REv P)}
    (hc : CallsOK key val (Ranks.start d) es) {n : String} (ho : openMgr ((Ranks.start d).run key es).2.dir = some n) :
    ∃ c, n = ckptName key (val c) ∧ dget ((Ranks.start d).run key es).2.dir n = some (.full c) := by
  obtain ⟨top, h1, _, _⟩ := ranks_run_inv (A := fun _ => True) es (Ranks.start d) c0 (ranks_start_inv hd fun _ _ => trivial) hc (fun _ _ _ _ => trivial)
  rw [h1.1.openMgr_eq.1] at ho
  cases top with
  | none => cases ho
  | some c => cases ho; exact ⟨c, rfl, (h1.1.2 c rfl).2⟩

/-! ## a process that is not disturbed -/

/-- the next effects of a process, until its call ends -/
def Rank.go (key : String) (os : Os) : Nat → Dir P → Rank P → Dir P × Rank P × Outcome
  | 0, d, r => (d, r, .running)
  | n + 1, d, r => match r.next key os d with
    | (d', r', .running) => r'.go key os n d'
    | x => x

theorem tmp_ne (t id : String) : t ++ "." ++ id ++ ".tmp" ≠ t := by
  intro h
  have := congrArg (fun s => s.toList.length) h
  simp only [String.toList_append, List.length_append] at this
  have h4 : (".tmp" : String).toList.length = 4 := by decide
  omega

theorem go_present {os : Os} (hclash : os.clash = false) (v : Int) (d : Dir P) (last : Option String) :
    (⟨last, .present v⟩ : Rank P).go key os 2 d =
      match last with
      | .none => (d, ⟨some (ckptName key v), .idle⟩, .returned v)
      | some l => if dhas d l then (runOps d (removeOps os.move l), ⟨some (ckptName key v), .idle⟩, .returned v)
        else (d, ⟨some l, .idle⟩, .raised) := by
  cases last with
  | none => rfl
  | some l =>
    by_cases hl : dhas d l = true
    · have hl' : dhas (dset d l (.broken : Ent P)) l = true := (dhas_iff _ _).2 ⟨_, dget_dset_self _ _ _⟩
      cases hs : os.move.slowDelete with
      | true => simp [Rank.go, Rank.next, hl, hs, hl', hclash, runOps, removeOps, Op.run]
      | false => simp [Rank.go, Rank.next, hl, hs, runOps, removeOps, Op.run]
    · simp [Rank.go, Rank.next, hl]

theorem go_more (key : String) (os : Os) : ∀ (n k : Nat) (d : Dir P) (r : Rank P), (r.go key os n d).2.2 ≠ .running → r.go key os (n + k) d = r.go key os n d
  | 0, _, _, _, h => absurd rfl h
  | n + 1, k, d, r, h => by
    rw [show n + 1 + k = (n + k) + 1 from by omega]
    simp only [Rank.go] at h ⊢
    split
    · rename_i d' r' he
      rw [he] at h
      exact go_more key os n k d' r' h
    · rfl

/-- C79: a call of `step` that nobody interferes with is the step of Model/Checkpoint. -/
theorem C79_alone {os : Os} (hclash : os.clash = false) (v : Int) (p : P) (d : Dir P) (last : Option String) :
    (⟨last, .entered v p⟩ : Rank P).go key os 6 d =
      match stepOps os.move key v p d last with
      | (ops, some t) => (runOps d ops, ⟨some t, .idle⟩, .returned v)
      | (ops, .none) => (runOps d ops, ⟨last, .idle⟩, .raised) := by
  have hend : ∀ (ops : List (Op P)) k, (⟨last, .present v⟩ : Rank P).go key os (2 + k) (runOps d ops) =
      match (match last with
        | .none => (ops, some (ckptName key v))
        | some l => if dhas (runOps d ops) l then (ops ++ removeOps os.move l, some (ckptName key v)) else (ops, .none) : List (Op P) × Option String) with
      | (ops, some t) => (runOps d ops, ⟨some t, .idle⟩, .returned v)
      | (ops, .none) => (runOps d ops, ⟨last, .idle⟩, .raised) := by
    intro ops k
    rw [go_more, go_present hclash]
    · cases last with
      | none => rfl
      | some l =>
        simp only
        split
        · simp only [runOps_append]
        · rfl
    · rw [go_present hclash]
      cases last with
      | none => simp
      | some l => simp only; split <;> simp
  by_cases hh : dhas d (ckptName key v) = true
  · have := hend [] 3
    simp only [runOps, List.foldl_nil] at this
    rw [Rank.go, Rank.next]
    simp only [hh, if_true, this, stepOps]
    rfl
  · have hn : dget d (ckptName key v) = .none := (dhas_false _ _).1 (by simpa using hh)
    cases hid : os.move.copyId with
    | none =>
      have := hend (checkpointOps os.move (ckptName key v) p) 2
      have hr : runOps d (checkpointOps os.move (ckptName key v) p) = dset d (ckptName key v) (.full p) := by
        simp only [checkpointOps, hid, runOps, List.foldl, Op.run]
      rw [Rank.go, Rank.next]
      simp only [hh, Bool.false_eq_true, if_false]
      rw [Rank.go, Rank.next]
      simp only [hid, canRename, hn, if_true, stepOps, hh, Bool.false_eq_true, if_false]
      rw [← hr]
      exact this
    | some id =>
      have ht := tmp_ne (ckptName key v) id
      have := hend (checkpointOps os.move (ckptName key v) p) 0
      rw [Rank.go, Rank.next]
      simp only [hh, Bool.false_eq_true, if_false]
      rw [Rank.go, Rank.next]
      simp only [hid]
      rw [Rank.go, Rank.next]
      simp only
      rw [Rank.go, Rank.next]
      simp only [stepOps, hh, Bool.false_eq_true, if_false]
      have hr : runOps d (checkpointOps os.move (ckptName key v) p) =
          dset (ddel (dset (dset d (ckptName key v ++ "." ++ id ++ ".tmp") .broken) (ckptName key v ++ "." ++ id ++ ".tmp") (.full p))
            (ckptName key v ++ "." ++ id ++ ".tmp")) (ckptName key v) (.full p) := by
        simp only [checkpointOps, hid, runOps, List.foldl, Op.run, dget_dset_self]
      have hcan : canRename os (dset (dset d (ckptName key v ++ "." ++ id ++ ".tmp") (.broken : Ent P)) (ckptName key v ++ "." ++ id ++ ".tmp") (.full p))
          (ckptName key v) = true := by
        simp only [canRename]
        rw [dget_dset_ne _ _ ht, dget_dset_ne _ _ ht, hn]
      rw [hcan]
      simp only [if_true]
      rw [← hr]
      exact this

/-! ## what goes wrong -/

/-- C79 is false in that steps need not return: when another process has deleted the checkpoint that this one wrote or loaded last, every
further step raises, after it has saved the state. -/
theorem C79_gone_false {os : Os} (hclash : os.clash = false) {v : Int} (p : P) {d : Dir P} {l : String} (hl : dget d l = .none)
    (hne : ckptName key v ≠ l) (htmp : ∀ x, l ≠ x ++ ".tmp") :
    ∃ d', (⟨some l, .entered v p⟩ : Rank P).go key os 6 d = (d', ⟨some l, .idle⟩, .raised) ∧ dget d' l = .none ∧
      dhas d' (ckptName key v) = true := by
  rw [C79_alone hclash]
  simp only [stepOps]
  by_cases hh : dhas d (ckptName key v) = true
  · have : dhas (runOps d []) l = false := (dhas_false _ _).2 hl
    simp only [hh, if_true, this, Bool.false_eq_true, if_false]
    exact ⟨_, rfl, hl, hh⟩
  · have hw : dget (runOps d (checkpointOps os.move (ckptName key v) p)) l = .none ∧
        dhas (runOps d (checkpointOps os.move (ckptName key v) p)) (ckptName key v) = true := by
      simp only [checkpointOps]
      split
      · simp only [runOps, List.foldl, Op.run]
        exact ⟨by rw [dget_dset_ne _ _ hne, hl], (dhas_iff _ _).2 ⟨_, dget_dset_self _ _ _⟩⟩
      · rename_i id _
        simp only [runOps, List.foldl, Op.run, dget_dset_self]
        refine ⟨?_, (dhas_iff _ _).2 ⟨_, dget_dset_self _ _ _⟩⟩
        have ht : ckptName key v ++ "." ++ id ++ ".tmp" ≠ l := fun e => htmp _ e.symm
        rw [dget_dset_ne _ _ hne, dget_ddel_ne _ ht, dget_dset_ne _ _ ht, dget_dset_ne _ _ ht, hl]
    have h1 : dhas (runOps d (checkpointOps os.move (ckptName key v) p)) l = false := (dhas_false _ _).2 hw.1
    simp only [hh, Bool.false_eq_true, if_false, h1]
    exact ⟨_, rfl, hw.1, hw.2⟩

namespace ExRanks
def fast : Os := ⟨⟨.none, false⟩, false, false⟩
def slow : Os := ⟨⟨some "7e0f", true⟩, true, false⟩
/-- two processes in lockstep: both reach step 10, then both reach step 20; contents are the number of the process and the step -/
def lockstep : List (REv (Nat × Int)) :=
  [.start 0, .start 1,
   .call 0 10 (0, 10), .next 0 fast, .next 0 fast, .next 0 fast,
   .call 1 10 (1, 10), .next 1 fast, .next 1 fast,
   .call 0 20 (0, 20), .next 0 fast, .next 0 fast, .next 0 fast,
   .call 1 20 (1, 20), .next 1 fast, .next 1 fast]
/-- two processes that copy at the same time, the second one fails to rename -/
def race : List (REv (Nat × Int)) :=
  [.start 0, .start 1, .call 0 10 (0, 10), .call 1 10 (1, 10), .next 0 slow, .next 1 fast, .next 0 slow, .next 0 slow, .next 1 fast, .next 0 slow,
   .next 1 fast]
/-- `_last_checkpoint` of process `i` -/
def lastIs (s : Ranks (Nat × Int)) (i : Nat) : Option (Option String) := (s.procs i).map Rank.last
end ExRanks

/-- C79 is false: when two processes reach the same steps, the second step of the second process raises FileNotFoundError; what it passed to
`step` is not saved, neither then nor when its first step returned. -/
theorem C79_lockstep_false :
    ((Ranks.start []).run "step" ExRanks.lockstep).1.filter (· ≠ .running) = [.returned 10, .returned 10, .returned 20, .raised] ∧
    ((Ranks.start []).run "step" (ExRanks.lockstep.take 9)).2.dir = [("latest-step000000000010", .full (0, 10))] ∧
    ((Ranks.start []).run "step" ExRanks.lockstep).2.dir = [("latest-step000000000020", .full (0, 20))] ∧
    ExRanks.lastIs ((Ranks.start []).run "step" ExRanks.lockstep).2 1 = some (some "latest-step000000000010") := by
  exact ⟨by decide +kernel, by decide +kernel, by decide +kernel, by decide +kernel⟩

/-- C79 is false: when two processes write the same checkpoint at the same time, the slower one raises, and its copy stays behind. -/
theorem C79_race_false :
    ((Ranks.start []).run "step" ExRanks.race).1.filter (· ≠ .running) = [.raised, .returned 10] ∧
    ((Ranks.start []).run "step" ExRanks.race).2.dir =
      [("latest-step000000000010.7e0f.tmp", .full (0, 10)), ("latest-step000000000010", .full (1, 10))] := by
  exact ⟨by decide +kernel, by decide +kernel⟩

theorem lastLt_known {s : Ranks P} {i : Nat} {v : Int} {L : Option String} (h : s.procs i = some ⟨L, .idle⟩) (hL : LastLt L v) :
    ∀ last, s.procs i = some ⟨last, .idle⟩ → LastLt last v := by
  intro last hl
  rw [h] at hl
  cases hl
  exact hL

/-- the hypotheses of C79_safe_partial: the calls in these histories -/
example : CallsOK "step" Prod.snd (Ranks.start []) ExRanks.lockstep := by
  have k10 : KeyInRange 10 := by unfold KeyInRange; omega
  have k20 : KeyInRange 20 := by unfold KeyInRange; omega
  have s10 : suffixInt (ckptName "step" 10) = some 10 := suffixInt_ckptName _ k10
  refine ⟨trivial, trivial, ⟨rfl, k10, ?_⟩, trivial, trivial, trivial, ⟨rfl, k10, ?_⟩, trivial, trivial, ⟨rfl, k20, ?_⟩, trivial, trivial, trivial,
    ⟨rfl, k20, ?_⟩, trivial, trivial, trivial⟩
  · exact lastLt_known (L := .none) (by decide +kernel) (by intro l j h; cases h)
  · exact lastLt_known (L := .none) (by decide +kernel) (by intro l j h; cases h)
  · exact lastLt_known (L := some (ckptName "step" 10)) (by decide +kernel) (by intro l j h h'; cases h; rw [s10] at h'; cases h'; decide)
  · exact lastLt_known (L := some (ckptName "step" 10)) (by decide +kernel) (by intro l j h h'; cases h; rw [s10] at h'; cases h'; decide)

/-- the hypotheses of C79_gone_false, in the situation at the end of this history -/
example : dget ((Ranks.start []).run "step" ExRanks.lockstep).2.dir "latest-step000000000010" = .none ∧
    ckptName "step" 30 ≠ "latest-step000000000010" := by
  exact ⟨by decide +kernel, by decide +kernel⟩

end

end HS
