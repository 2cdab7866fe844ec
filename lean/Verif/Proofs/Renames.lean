import Verif.Model.Checker
import Mathlib.Algebra.Order.Field.Rat
/-!
# Lemmas on rename matching
-/
namespace HS
variable {α : Type} (c : RenameCfg α)

/-- the comparisons of one round, as one fold over all pairs -/
def matchFold (ps : List ((Nat × α) × (Nat × α))) (b : Rat × Option ((Nat × α) × (Nat × α))) :
    Rat × Option ((Nat × α) × (Nat × α)) := ps.foldl (fun b p => betterMatch c b p.1 p.2) b

theorem bestMatch_fold (t : Rat) (rs as : List (Nat × α)) :
    bestMatch c t rs as = matchFold c (rs.flatMap fun r => as.map fun a => (r, a)) (t, .none) := by
  unfold bestMatch
  generalize (t, (none : Option ((Nat × α) × (Nat × α)))) = b
  induction rs generalizing b with
  | nil => rfl
  | cons r rs ih =>
    rw [List.foldl_cons, ih]
    simp only [matchFold, List.flatMap_cons, List.foldl_append, List.foldl_map]

theorem matchFold_spec (ps : List ((Nat × α) × (Nat × α))) (b : Rat × Option ((Nat × α) × (Nat × α))) :
    (matchFold c ps b = b ∨ ∃ p ∈ ps, b.1 < (matchFold c ps b).1 ∧ (matchFold c ps b).2 = some p ∧
      c.sim p.2.2 p.1.2 = some (matchFold c ps b).1) ∧
    b.1 ≤ (matchFold c ps b).1 ∧
    ∀ p ∈ ps, ∀ t, c.sim p.2.2 p.1.2 = some t → t ≤ (matchFold c ps b).1 := by
  induction ps generalizing b with
  | nil => simp [matchFold]
  | cons q ps ih =>
    have e : matchFold c (q :: ps) b = matchFold c ps (betterMatch c b q.1 q.2) := rfl
    obtain ⟨h1, h2, h3⟩ := ih (betterMatch c b q.1 q.2)
    rw [e]
    generalize matchFold c ps (betterMatch c b q.1 q.2) = r at h1 h2 h3
    unfold betterMatch at h1 h2
    cases hs : c.sim q.2.2 q.1.2 with
    | none =>
      simp only [hs] at h1 h2
      refine ⟨?_, h2, ?_⟩
      · rcases h1 with h1 | ⟨p, hp, h1⟩
        · exact .inl h1
        · exact .inr ⟨p, List.mem_cons_of_mem _ hp, h1⟩
      · intro p hp t ht
        rcases List.mem_cons.1 hp with rfl | hp
        · rw [hs] at ht; exact (nomatch ht)
        · exact h3 p hp t ht
    | some s =>
      simp only [hs] at h1 h2
      by_cases hlt : b.1 < s
      · rw [if_pos hlt] at h1 h2
        simp only at h1 h2
        refine ⟨.inr ?_, Rat.le_trans (Rat.le_of_lt hlt) h2, ?_⟩
        · rcases h1 with h1 | ⟨p, hp, h4, h5⟩
          · exact ⟨q, by simp, by rw [h1]; exact hlt, by rw [h1], by rw [h1]; exact hs⟩
          · exact ⟨p, List.mem_cons_of_mem _ hp, lt_trans hlt h4, h5⟩
        · intro p hp t ht
          rcases List.mem_cons.1 hp with rfl | hp
          · rw [hs] at ht; cases ht; exact h2
          · exact h3 p hp t ht
      · rw [if_neg hlt] at h1 h2
        refine ⟨?_, h2, ?_⟩
        · rcases h1 with h1 | ⟨p, hp, h1⟩
          · exact .inl h1
          · exact .inr ⟨p, List.mem_cons_of_mem _ hp, h1⟩
        · intro p hp t ht
          rcases List.mem_cons.1 hp with rfl | hp
          · rw [hs] at ht; cases ht; exact Rat.le_trans (Rat.not_lt.1 hlt) h2
          · exact h3 p hp t ht

/-- no match: no pair is above the threshold -/
theorem bestMatch_none (t : Rat) (rs as : List (Nat × α)) (h : (bestMatch c t rs as).2 = .none) :
    ∀ r ∈ rs, ∀ a ∈ as, ∀ s, c.sim a.2 r.2 = some s → s ≤ t := by
  rw [bestMatch_fold] at h
  obtain ⟨h1, _, h3⟩ := matchFold_spec c (rs.flatMap fun r => as.map fun a => (r, a)) (t, .none)
  intro r hr a ha s hs
  have h4 := h3 (r, a) (by simp [hr, ha]) s hs
  rcases h1 with h1 | ⟨p, _, _, h5, _⟩
  · rw [h1] at h4; exact h4
  · rw [h] at h5; exact (nomatch h5)

/-- a match is a most similar pair, and above the threshold -/
theorem bestMatch_some (t : Rat) (rs as : List (Nat × α)) (r a : Nat × α) (h : (bestMatch c t rs as).2 = some (r, a)) :
    r ∈ rs ∧ a ∈ as ∧ ∃ s, c.sim a.2 r.2 = some s ∧ t < s ∧
      ∀ r' ∈ rs, ∀ a' ∈ as, ∀ s', c.sim a'.2 r'.2 = some s' → s' ≤ s := by
  obtain ⟨hr, ha⟩ := bestMatch_mem c t rs as r a h
  refine ⟨hr, ha, ?_⟩
  rw [bestMatch_fold] at h
  obtain ⟨h1, _, h3⟩ := matchFold_spec c (rs.flatMap fun r => as.map fun a => (r, a)) (t, .none)
  rcases h1 with h1 | ⟨p, _, h4, h5, h6⟩
  · rw [h1] at h; exact (nomatch h)
  · rw [h] at h5
    cases h5
    refine ⟨_, h6, h4, ?_⟩
    intro r' hr' a' ha' s' hs'
    exact h3 (r', a') (by simp [hr', ha']) s' hs'

/-! ## removing by number -/

theorem removeId_filter (n : Nat) (xs : List (Nat × α)) (h : (xs.map Prod.fst).Nodup) :
    removeId n xs = xs.filter (fun x => x.1 != n) := by
  induction xs with
  | nil => rfl
  | cons x xs ih =>
    simp only [List.map_cons, List.nodup_cons] at h
    simp only [removeId, List.eraseP_cons, List.filter_cons] at ih ⊢
    by_cases hx : x.1 = n
    · simp only [hx, beq_self_eq_true, bne_self_eq_false, Bool.false_eq_true, if_false]
      rw [List.filter_eq_self.2]
      · rfl
      · intro y hy
        simp only [bne_iff_ne, ne_eq]
        intro hyn
        exact h.1 (List.mem_map.2 ⟨y, hy, by rw [hyn, hx]⟩)
    · have h1 : (x.1 == n) = false := by simpa using hx
      have h2 : (x.1 != n) = true := by simpa using hx
      rw [h1, h2]
      simp only [if_true, cond_false]
      rw [ih h.2]

theorem numbered_get (xs : List α) (p : Nat × α) : p ∈ numbered xs ↔ xs[p.1]? = some p.2 := by
  unfold numbered
  simp only [List.mem_map, Prod.exists]
  constructor
  · rintro ⟨a, i, h, rfl⟩
    exact List.mem_zipIdx_iff_getElem?.1 h
  · intro h
    exact ⟨p.2, p.1, List.mem_zipIdx_iff_getElem?.2 h, rfl⟩

theorem numbered_fst (xs : List α) : (numbered xs).map Prod.fst = List.range xs.length := by
  unfold numbered
  rw [List.map_map]
  apply List.ext_getElem
  · simp
  · intro i h1 h2
    simp

theorem numbered_nodup (xs : List α) : ((numbered xs).map Prod.fst).Nodup := by
  rw [numbered_fst]; exact List.nodup_range

theorem filter_nodup_fst (xs : List (Nat × α)) (p : Nat × α → Bool) (h : (xs.map Prod.fst).Nodup) :
    ((xs.filter p).map Prod.fst).Nodup :=
  h.sublist (List.Sublist.map _ List.filter_sublist)

/-! ## the loop -/

abbrev Matching (α : Type) := List ((Nat × α) × (Nat × α))

/-- state after the matches `ms` -/
structure RInv (xs : List α) (ms : Matching α) (s : RenameSt α) : Prop where
  changes : ∃ news : List (Nat × α), s.changes = (numbered xs).filter (fun x => decide (x.1 ∉ ms.map (·.1.1) ∧ x.1 ∉ ms.map (·.2.1))) ++ news ∧
    news.map Prod.snd = ms.map (fun m => c.renamed m.2.2 m.1.2) ∧ (∀ x ∈ news, xs.length ≤ x.1 ∧ x.1 < s.next) ∧
    (news.map Prod.fst).Nodup
  removeds : s.removeds = (numbered xs).filter (fun x => c.isRemoved x.2 && decide (x.1 ∉ ms.map (·.1.1)))
  addeds : s.addeds = (numbered xs).filter (fun x => c.isAdded x.2 && decide (x.1 ∉ ms.map (·.2.1)))
  next : xs.length ≤ s.next
  mem : ∀ m ∈ ms, xs[m.1.1]? = some m.1.2 ∧ c.isRemoved m.1.2 = true ∧ xs[m.2.1]? = some m.2.2 ∧ c.isAdded m.2.2 = true
  nodupR : (ms.map (·.1.1)).Nodup
  nodupA : (ms.map (·.2.1)).Nodup
  best : ∀ pre m post, ms = pre ++ m :: post → ∃ s, c.sim m.2.2 m.1.2 = some s ∧ 1 / 10 < s ∧
    ∀ i x j y t, xs[i]? = some x → c.isRemoved x = true → i ∉ pre.map (·.1.1) → xs[j]? = some y → c.isAdded y = true →
      j ∉ pre.map (·.2.1) → c.sim y x = some t → t ≤ s

theorem rinv_init (xs : List α) : RInv c xs [] (renameInit c xs) where
  changes := ⟨[], by simp [renameInit]; exact (List.filter_eq_self.2 (by simp)).symm, rfl, by simp, by simp⟩
  removeds := by simp [renameInit]
  addeds := by simp [renameInit]
  next := Nat.le_refl _
  mem := by simp
  nodupR := by simp
  nodupA := by simp
  best := by intro pre m post h; simp at h

theorem rinv_step (xs : List α) (ms : Matching α) (s s' : RenameSt α) (hi : RInv c xs ms s) (h : renameStep c s = some s') :
    ∃ m, RInv c xs (ms ++ [m]) s' := by
  unfold renameStep at h
  split at h
  · exact (nomatch h)
  rename_i r a hm
  cases h
  obtain ⟨hr, ha, sm, hsim, hlt, hbest⟩ := bestMatch_some c _ _ _ r a hm
  have hr' := hr
  have ha' := ha
  rw [hi.removeds] at hr'
  rw [hi.addeds] at ha'
  simp only [List.mem_filter, Bool.and_eq_true, decide_eq_true_eq, numbered_get] at hr' ha'
  have hrlt : r.1 < xs.length := (List.getElem?_eq_some_iff.1 hr'.1).1
  have halt : a.1 < xs.length := (List.getElem?_eq_some_iff.1 ha'.1).1
  refine ⟨(r, a), ?_⟩
  constructor
  · obtain ⟨news, h1, h2, h3, h4⟩ := hi.changes
    refine ⟨news ++ [(s.next, c.renamed a.2 r.2)], ?_, ?_, ?_, ?_⟩
    · simp only [List.map_append, List.map_cons, List.map_nil, List.mem_append, List.mem_singleton, not_or]
      rw [h1]
      have nd : (((numbered xs).filter (fun x => decide (x.1 ∉ ms.map (·.1.1) ∧ x.1 ∉ ms.map (·.2.1))) ++ news).map Prod.fst).Nodup := by
        rw [List.map_append, List.nodup_append]
        refine ⟨filter_nodup_fst _ _ (numbered_nodup xs), h4, ?_⟩
        intro i hi1 j hj hij
        subst hij
        obtain ⟨x, hx, rfl⟩ := List.mem_map.1 hi1
        obtain ⟨y, hy, hy1⟩ := List.mem_map.1 hj
        have hx1 : x.1 < xs.length := (List.getElem?_eq_some_iff.1 ((numbered_get xs x).1 (List.mem_filter.1 hx).1)).1
        have := (h3 y hy).1
        omega
      rw [removeId_filter r.1 _ nd, removeId_filter a.1 _ (filter_nodup_fst _ _ nd)]
      rw [List.filter_filter, List.filter_append, List.filter_filter]
      rw [List.filter_eq_self.2 (show ∀ y ∈ news, (y.1 != a.1 && y.1 != r.1) = true by
        intro y hy
        have := (h3 y hy).1
        simp only [Bool.and_eq_true, bne_iff_ne, ne_eq]
        omega)]
      rw [List.append_assoc]
      congr 1
      apply List.filter_congr
      intro x _
      rw [Bool.eq_iff_iff]
      simp only [Bool.and_eq_true, bne_iff_ne, ne_eq, decide_eq_true_eq]
      constructor
      · rintro ⟨⟨h5, h6⟩, h7, h8⟩; exact ⟨⟨h7, h6⟩, h8, h5⟩
      · rintro ⟨⟨h7, h6⟩, h8, h5⟩; exact ⟨⟨h5, h6⟩, h7, h8⟩
    · simp [h2]
    · intro x hx
      rcases List.mem_append.1 hx with hx | hx
      · have := h3 x hx
        simp only
        omega
      · simp only [List.mem_singleton] at hx
        subst hx
        have := hi.next
        simp only
        omega
    · rw [List.map_append, List.nodup_append]
      refine ⟨h4, by simp, ?_⟩
      intro i hi1 j hj hij
      subst hij
      obtain ⟨x, hx, rfl⟩ := List.mem_map.1 hi1
      simp only [List.map_cons, List.map_nil, List.mem_singleton] at hj
      have := (h3 x hx).2
      omega
  · simp only
    rw [hi.removeds, removeId_filter _ _ (filter_nodup_fst _ _ (numbered_nodup xs)), List.filter_filter]
    apply List.filter_congr
    intro x _
    rw [Bool.eq_iff_iff]
    simp only [Bool.and_eq_true, bne_iff_ne, ne_eq, decide_eq_true_eq, List.map_append, List.map_cons, List.map_nil,
      List.mem_append, List.mem_singleton, not_or]
    constructor
    · rintro ⟨h5, h6, h7⟩; exact ⟨h6, h7, h5⟩
    · rintro ⟨h6, h7, h5⟩; exact ⟨h5, h6, h7⟩
  · simp only
    rw [hi.addeds, removeId_filter _ _ (filter_nodup_fst _ _ (numbered_nodup xs)), List.filter_filter]
    apply List.filter_congr
    intro x _
    rw [Bool.eq_iff_iff]
    simp only [Bool.and_eq_true, bne_iff_ne, ne_eq, decide_eq_true_eq, List.map_append, List.map_cons, List.map_nil,
      List.mem_append, List.mem_singleton, not_or]
    constructor
    · rintro ⟨h5, h6, h7⟩; exact ⟨h6, h7, h5⟩
    · rintro ⟨h6, h7, h5⟩; exact ⟨h5, h6, h7⟩
  · have := hi.next
    simp only
    omega
  · intro m hm'
    rcases List.mem_append.1 hm' with hm' | hm'
    · exact hi.mem m hm'
    · simp only [List.mem_singleton] at hm'
      subst hm'
      exact ⟨hr'.1, hr'.2.1, ha'.1, ha'.2.1⟩
  · rw [List.map_append, List.nodup_append]
    refine ⟨hi.nodupR, by simp, ?_⟩
    intro i h1 j h2 h3
    subst h3
    simp only [List.map_cons, List.map_nil, List.mem_singleton] at h2
    subst h2
    exact hr'.2.2 h1
  · rw [List.map_append, List.nodup_append]
    refine ⟨hi.nodupA, by simp, ?_⟩
    intro i h1 j h2 h3
    subst h3
    simp only [List.map_cons, List.map_nil, List.mem_singleton] at h2
    subst h2
    exact ha'.2.2 h1
  · intro pre m post hms
    rcases List.eq_nil_or_concat post with rfl | ⟨post', z, rfl⟩
    · have := List.append_inj' hms rfl
      obtain ⟨h1, h2⟩ := this
      cases h2
      subst h1
      refine ⟨sm, hsim, hlt, ?_⟩
      intro i x j y t hx hxr hxn hy hya hyn ht
      refine hbest (i, x) ?_ (j, y) ?_ t ht
      · rw [hi.removeds]
        simp only [List.mem_filter, Bool.and_eq_true, decide_eq_true_eq, numbered_get]
        exact ⟨hx, hxr, hxn⟩
      · rw [hi.addeds]
        simp only [List.mem_filter, Bool.and_eq_true, decide_eq_true_eq, numbered_get]
        exact ⟨hy, hya, hyn⟩
    · have : ms ++ [(r, a)] = (pre ++ m :: post') ++ [z] := by rw [hms]; simp
      exact hi.best pre m post' (List.append_inj' this rfl).1

theorem renameLoop_spec (xs : List α) : ∀ (n : Nat) (ms : Matching α) (s : RenameSt α), s.removeds.length ≤ n → RInv c xs ms s →
    ∃ ms', RInv c xs ms' (renameLoop c s) ∧ renameStep c (renameLoop c s) = .none := by
  intro n
  induction n with
  | zero =>
    intro ms s hn hi
    cases h : renameStep c s with
    | none =>
      refine ⟨ms, ?_⟩
      rw [renameLoop]
      split
      · exact ⟨hi, h⟩
      · rename_i h'; rw [h] at h'; exact (nomatch h')
    | some s' =>
      have := renameStep_decreases c s s' h
      omega
  | succ n ih =>
    intro ms s hn hi
    cases h : renameStep c s with
    | none =>
      refine ⟨ms, ?_⟩
      rw [renameLoop]
      split
      · exact ⟨hi, h⟩
      · rename_i h'; rw [h] at h'; exact (nomatch h')
    | some s' =>
      have hd := renameStep_decreases c s s' h
      obtain ⟨m, hi'⟩ := rinv_step c xs ms s s' hi h
      have := ih (ms ++ [m]) s' (by omega) hi'
      rw [renameLoop]
      split
      · rename_i h'; rw [h] at h'; exact (nomatch h')
      · rename_i s'' h'
        rw [h] at h'
        cases h'
        exact this

theorem renameStep_none (s : RenameSt α) (h : renameStep c s = .none) :
    ∀ r ∈ s.removeds, ∀ a ∈ s.addeds, ∀ t, c.sim a.2 r.2 = some t → t ≤ 1 / 10 := by
  unfold renameStep at h
  split at h
  · rename_i h1
    exact bestMatch_none c _ _ _ h1
  · exact (nomatch h)

theorem numbered_filter_map (xs : List α) (p : Nat → Prop) [DecidablePred p] :
    ((numbered xs).filter (fun x => decide (p x.1))).map Prod.snd = (xs.zipIdx.filter (fun x => decide (p x.2))).map Prod.fst := by
  unfold numbered
  rw [List.filter_map, List.map_map]
  rfl

end HS
