import Verif.Proofs.Renames
import Verif.Props.Severity
/-!
# C29: rename matching

`findRenames` is a total function: the loop always ends (`renameStep_decreases`).
-/
namespace HS

/-- What rename matching has to produce for the changes `xs`: the pairs `ms` of (position, change) of a removal and an addition
are the renames, in the order in which they were found. -/
structure IsMatching {α : Type} (c : RenameCfg α) (xs out : List α) (ms : List ((Nat × α) × (Nat × α))) : Prop where
  /-- every rename joins a removal and an addition among the changes -/
  mem : ∀ m ∈ ms, xs[m.1.1]? = some m.1.2 ∧ c.isRemoved m.1.2 = true ∧ xs[m.2.1]? = some m.2.2 ∧ c.isAdded m.2.2 = true
  /-- no removal is used twice -/
  removedOnce : (ms.map (·.1.1)).Nodup
  /-- no addition is used twice -/
  addedOnce : (ms.map (·.2.1)).Nodup
  /-- the result: the changes not used, in the old order, then the renames -/
  result : out = (xs.zipIdx.filter (fun x => decide (x.2 ∉ ms.map (·.1.1) ∧ x.2 ∉ ms.map (·.2.1)))).map Prod.fst ++
    ms.map (fun m => c.renamed m.2.2 m.1.2)
  /-- every rename is above the threshold, and no pair that was still free when it was chosen is more similar -/
  greedy : ∀ pre m post, ms = pre ++ m :: post → ∃ s, c.sim m.2.2 m.1.2 = some s ∧ 1 / 10 < s ∧
    ∀ i x j y t, xs[i]? = some x → c.isRemoved x = true → i ∉ pre.map (·.1.1) → xs[j]? = some y → c.isAdded y = true →
      j ∉ pre.map (·.2.1) → c.sim y x = some t → t ≤ s
  /-- no pair above the threshold is left -/
  maximal : ∀ i x j y t, xs[i]? = some x → c.isRemoved x = true → i ∉ ms.map (·.1.1) → xs[j]? = some y →
    c.isAdded y = true → j ∉ ms.map (·.2.1) → c.sim y x = some t → t ≤ 1 / 10

/-- C29: for every list of changes, every choice of kinds and every similarity function, `_find_renames` produces a greedy
maximal matching -/
theorem C29_matching {α : Type} (c : RenameCfg α) (xs : List α) : ∃ ms, IsMatching c xs (findRenames c xs) ms := by
  obtain ⟨ms, hi, hn⟩ := renameLoop_spec c xs _ [] (renameInit c xs) (Nat.le_refl _) (rinv_init c xs)
  refine ⟨ms, hi.mem, hi.nodupR, hi.nodupA, ?_, hi.best, ?_⟩
  · obtain ⟨news, h1, h2, _, _⟩ := hi.changes
    unfold findRenames
    rw [h1, List.map_append, h2]
    congr 1
    exact numbered_filter_map xs (fun n => n ∉ ms.map (·.1.1) ∧ n ∉ ms.map (·.2.1))
  · intro i x j y t hx hxr hxn hy hya hyn ht
    refine renameStep_none c _ hn (i, x) ?_ (j, y) ?_ t ht
    · rw [hi.removeds]
      simp only [List.mem_filter, Bool.and_eq_true, decide_eq_true_eq, numbered_get]
      exact ⟨hx, hxr, hxn⟩
    · rw [hi.addeds]
      simp only [List.mem_filter, Bool.and_eq_true, decide_eq_true_eq, numbered_get]
      exact ⟨hy, hya, hyn⟩

/-- C29: changes of other kinds are kept -/
theorem C29_kept {α : Type} (c : RenameCfg α) (xs : List α) (x : α) (hx : x ∈ xs) (h1 : c.isAdded x = false)
    (h2 : c.isRemoved x = false) : x ∈ findRenames c xs := by
  obtain ⟨ms, hm⟩ := C29_matching c xs
  obtain ⟨i, hi, rfl⟩ := List.mem_iff_getElem.1 hx
  rw [hm.result]
  apply List.mem_append_left
  refine List.mem_map.2 ⟨(xs[i], i), ?_, rfl⟩
  simp only [List.mem_filter, decide_eq_true_eq]
  refine ⟨List.mem_zipIdx_iff_getElem?.2 (List.getElem?_eq_some_iff.2 ⟨hi, rfl⟩), ?_, ?_⟩
  · intro hmem
    obtain ⟨m, hm1, hm2⟩ := List.mem_map.1 hmem
    obtain ⟨h3, h4, _⟩ := hm.mem m hm1
    rw [hm2, List.getElem?_eq_getElem hi] at h3
    rw [← Option.some.inj h3, h2] at h4
    exact (nomatch h4)
  · intro hmem
    obtain ⟨m, hm1, hm2⟩ := List.mem_map.1 hmem
    obtain ⟨_, _, h3, h4⟩ := hm.mem m hm1
    rw [hm2, List.getElem?_eq_getElem hi] at h3
    rw [← Option.some.inj h3, h1] at h4
    exact (nomatch h4)

/-- C29: everything in the result was there before or is a rename of a removal and an addition that were there -/
theorem C29_origin {α : Type} (c : RenameCfg α) (xs : List α) (x : α) (hx : x ∈ findRenames c xs) :
    x ∈ xs ∨ ∃ a ∈ xs, ∃ r ∈ xs, c.isAdded a = true ∧ c.isRemoved r = true ∧ x = c.renamed a r ∧
      ∃ s, c.sim a r = some s ∧ 1 / 10 < s := by
  obtain ⟨ms, hm⟩ := C29_matching c xs
  rw [hm.result] at hx
  rcases List.mem_append.1 hx with hx | hx
  · left
    obtain ⟨p, hp, rfl⟩ := List.mem_map.1 hx
    have := List.mem_zipIdx_iff_getElem?.1 (List.mem_filter.1 hp).1
    exact List.mem_of_getElem? this
  · right
    obtain ⟨m, hm1, rfl⟩ := List.mem_map.1 hx
    obtain ⟨h1, h2, h3, h4⟩ := hm.mem m hm1
    obtain ⟨pre, post, hpp⟩ := List.append_of_mem hm1
    obtain ⟨s, h5, h6, _⟩ := hm.greedy pre m post hpp
    exact ⟨m.2.2, List.mem_of_getElem? h3, m.1.2, List.mem_of_getElem? h1, h4, h2, rfl, s, h5, h6⟩

/-- C29: when no pair is above the threshold nothing is changed -/
theorem C29_no_pair {α : Type} (c : RenameCfg α) (xs : List α)
    (h : ∀ a ∈ xs, ∀ r ∈ xs, c.isAdded a = true → c.isRemoved r = true → ∀ s, c.sim a r = some s → s ≤ 1 / 10) :
    findRenames c xs = xs := by
  obtain ⟨ms, hm⟩ := C29_matching c xs
  have hms : ms = [] := by
    cases ms with
    | nil => rfl
    | cons m ms =>
      obtain ⟨s, h5, h6, _⟩ := hm.greedy [] m ms rfl
      obtain ⟨h1, h2, h3, h4⟩ := hm.mem m (by simp)
      have := h m.2.2 (List.mem_of_getElem? h3) m.1.2 (List.mem_of_getElem? h1) h4 h2 s h5
      exact absurd h6 (not_lt.2 this)
  rw [hm.result, hms]
  simp only [List.map_nil, List.append_nil]
  rw [List.filter_eq_self.2 (by simp)]
  exact List.zipIdx_map_fst 0 xs

/-- C29: a reported field rename joins a removed and an added field of the first pass; the removed type is a subtype of the
added one, they agree on having a default, and the defaults are equal -/
theorem C29_field_rename (lower : Char → String) (cs : List Change) (p q : List String)
    (h : .fieldRenamed p q ∈ findRenames (fieldRenameCfg lower) cs) (hn : .fieldRenamed p q ∉ cs) :
    ∃ rt rd h at' ad, .fieldRemoved p rt rd h ∈ cs ∧ .fieldAdded q at' ad h ∈ cs ∧ isSubtype rt at' = true ∧
      pyEq rd ad = true := by
  rcases C29_origin _ cs _ h with h | ⟨a, ha, r, hr, h1, h2, h3, s, h4, _⟩
  · exact absurd h hn
  · cases a <;> try (simp [fieldRenameCfg] at h1; done)
    cases r <;> try (simp [fieldRenameCfg] at h2; done)
    rename_i ap at' ad ah rp rt rd rh
    simp only [fieldRenameCfg] at h3 h4
    cases h3
    split at h4
    · rename_i hc
      simp only [Bool.and_eq_true, beq_iff_eq] at hc
      obtain ⟨⟨hc1, hc2⟩, hc3⟩ := hc
      subst hc2
      exact ⟨rt, rd, rh, at', ad, hr, ha, hc1, hc3⟩
    · exact (nomatch h4)

/-- the checker's two passes over a concrete list: `learning_rate` is matched with `lr` rather than with `rate` -/
def Ex.changes : List Change := [
  .fieldAdded ["opt", "lr"] (.prim "float") .none false,
  .fieldAdded ["rate"] (.prim "float") .none false,
  .defaultChanged ["x"] (.int 1) (.int 2),
  .fieldRemoved ["opt", "learning_rate"] (.prim "float") .none false]

example : (findRenames (fieldRenameCfg Ex.lc) Ex.changes).map (fun c => match c with
    | .fieldRenamed p q => (0, p, q) | .fieldAdded p _ _ _ => (1, p, []) | .defaultChanged p _ _ => (2, p, []) | _ => (3, [], [])) =
    [(1, ["rate"], []), (2, ["x"], []), (0, ["opt", "learning_rate"], ["opt", "lr"])] := by decide +kernel

-- hypotheses of C29_kept, C29_field_rename and C29_no_pair
example : (fieldRenameCfg Ex.lc).isAdded (.defaultChanged ["x"] (.int 1) (.int 2)) = false ∧
    (fieldRenameCfg Ex.lc).isRemoved (.defaultChanged ["x"] (.int 1) (.int 2)) = false := ⟨rfl, rfl⟩
example : ∃ p q, Change.fieldRenamed p q ∈ findRenames (fieldRenameCfg Ex.lc) Ex.changes ∧ Change.fieldRenamed p q ∉ Ex.changes := by
  refine ⟨["opt", "learning_rate"], ["opt", "lr"], ?_, by simp [Ex.changes]⟩
  have h : (match findRenames (fieldRenameCfg Ex.lc) Ex.changes with
    | [_, _, .fieldRenamed p q] => decide (p = ["opt", "learning_rate"] ∧ q = ["opt", "lr"]) | _ => false) = true := by
    decide +kernel
  split at h
  · rename_i h1
    simp only [decide_eq_true_eq] at h
    rw [h1, h.1, h.2]
    simp
  · exact (nomatch h)
example : ∀ a ∈ Ex.changes.take 3, ∀ r ∈ Ex.changes.take 3, (fieldRenameCfg Ex.lc).isAdded a = true →
    (fieldRenameCfg Ex.lc).isRemoved r = true → ∀ s, (fieldRenameCfg Ex.lc).sim a r = some s → s ≤ 1 / 10 := by
  intro a _ r hr _ h
  simp only [Ex.changes, List.take_succ_cons, List.take_zero, List.mem_cons, List.not_mem_nil, or_false] at hr
  rcases hr with rfl | rfl | rfl <;> exact (nomatch h)

end HS
