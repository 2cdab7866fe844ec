import Verif.Proofs.Names
import Verif.Proofs.Split
import Mathlib.Tactic.Linarith
import Mathlib.Tactic.Positivity
import Mathlib.Tactic.NormNum
import Mathlib.Algebra.Order.Field.Rat
/-!
# C31: name similarity

The statements hold for every function `lower` in place of `str.lower`.
-/
namespace HS
variable (lower : Char → String)

/-- C31: the edit distance is the least cost of a script of edits -/
theorem C31_least (s t : List Char) :
    Edit lower s t (levenshtein lower s t) ∧ ∀ n, Edit lower s t n → levenshtein lower s t ≤ n :=
  ⟨levenshtein_edit s t, fun _ h => levenshtein_le h⟩

/-- C31: the distance is symmetric -/
theorem C31_symm (s t : List Char) : levenshtein lower s t = levenshtein lower t s :=
  Nat.le_antisymm (levenshtein_le (levenshtein_edit t s).symm) (levenshtein_le (levenshtein_edit s t).symm)

/-- C31: the distance is zero exactly for equal names -/
theorem C31_zero (s t : List Char) : levenshtein lower s t = 0 ↔ s = t := by
  constructor
  · intro h
    exact (levenshtein_edit s t).eq_of_zero h
  · rintro rfl
    exact Nat.le_zero.1 (levenshtein_le (Edit.refl s))

/-- C31: the distance is at most the longer length (in quarters) -/
theorem C31_bound (s t : List Char) : levenshtein lower s t ≤ 4 * max s.length t.length := by
  obtain ⟨n, h1, h2⟩ := Edit.exists_le (lower := lower) s t
  exact Nat.le_trans (levenshtein_le h2) h1

/-- C31: triangle inequality -/
theorem C31_triangle (s t u : List Char) :
    levenshtein lower s u ≤ levenshtein lower s t + levenshtein lower t u := by
  obtain ⟨c, h1, h2⟩ := Edit.trans _ (Nat.le_refl _) (levenshtein_edit (lower := lower) s t) (levenshtein_edit t u)
  exact Nat.le_trans (levenshtein_le h2) h1

theorem toList_inj' {a b : String} (h : a.toList = b.toList) : a = b := String.toList_inj.1 h

/-- C31: `name_similarity` never divides by zero, and its value lies between 0 and 1.1 -/
theorem C31_range (f g : String) : ∃ q, nameSimilarity lower f g = .ok q ∧ 0 ≤ q ∧ q ≤ 11 / 10 := by
  unfold nameSimilarity
  split
  · exact ⟨_, rfl, by decide +kernel, by decide +kernel⟩
  · rename_i hne
    split
    · exact ⟨_, rfl, by decide +kernel, by decide +kernel⟩
    · split
      · exact ⟨_, rfl, by decide +kernel, by decide +kernel⟩
      · simp only
        split
        · rename_i h0
          exfalso
          apply hne
          apply toList_inj'
          have h1 : f.toList = [] := List.length_eq_zero_iff.1 (by omega)
          have h2 : g.toList = [] := List.length_eq_zero_iff.1 (by omega)
          rw [h1, h2]
        · rename_i h0
          have hb := C31_bound lower f.toList g.toList
          generalize max f.toList.length g.toList.length = m at *
          generalize levenshtein lower f.toList g.toList = l at *
          have hm : (0 : Rat) < (m : Rat) := by exact_mod_cast Nat.pos_of_ne_zero h0
          have hl : (l : Rat) ≤ 4 * (m : Rat) := by exact_mod_cast hb
          have hl0 : (0 : Rat) ≤ (l : Rat) := by exact_mod_cast Nat.zero_le l
          refine ⟨_, rfl, ?_, ?_⟩
          · have : (l : Rat) / 4 / m ≤ 1 := by
              rw [div_le_one hm]
              linarith
            linarith
          · have : 0 ≤ (l : Rat) / 4 / m := by positivity
            linarith

/-- C31: the value is 1.1 exactly for identical names -/
theorem C31_identical (f g : String) : nameSimilarity lower f g = .ok (11 / 10) ↔ f = g := by
  constructor
  · intro h
    unfold nameSimilarity at h
    split at h
    · rename_i h1; exact h1
    · split at h
      · simp only [Except.ok.injEq] at h; exact absurd h (by decide +kernel)
      · split at h
        · simp only [Except.ok.injEq] at h; exact absurd h (by decide +kernel)
        · simp only at h
          split at h
          · exact (nomatch h)
          · simp only [Except.ok.injEq] at h
            have : (0 : Rat) ≤ ((levenshtein lower f.toList g.toList : Nat) : Rat) / 4 /
              ((max f.toList.length g.toList.length : Nat) : Rat) := by positivity
            linarith
  · rintro rfl
    simp [nameSimilarity]

/-- C31: `name_similarity` is symmetric -/
theorem C31_sim_symm (f g : String) : nameSimilarity lower f g = nameSimilarity lower g f := by
  unfold nameSimilarity
  rw [C31_symm lower f.toList g.toList, Nat.max_comm]
  by_cases h1 : f = g
  · subst h1; rfl
  · rw [if_neg h1, if_neg (Ne.symm h1)]
    by_cases h2 : dropUnderscores f = dropUnderscores g
    · rw [if_pos h2, if_pos h2.symm]
    · rw [if_neg h2, if_neg (Ne.symm h2)]
      by_cases h3 : f = initials g ∨ g = initials f
      · rw [if_pos h3, if_pos h3.symm]
      · rw [if_neg h3, if_neg (fun h : g = initials f ∨ f = initials g => h3 h.symm)]

/-- more edits, less similar: outside the special cases the similarity is 1 minus the distance per character -/
theorem C31_value (f g : String) (h1 : f ≠ g) (h2 : dropUnderscores f ≠ dropUnderscores g) (h3 : f ≠ initials g)
    (h4 : g ≠ initials f) :
    nameSimilarity lower f g = .ok (1 - ((levenshtein lower f.toList g.toList : Nat) : Rat) / 4 /
      ((max f.toList.length g.toList.length : Nat) : Rat)) := by
  obtain ⟨q, hq, _⟩ := C31_range lower f g
  rw [hq]
  unfold nameSimilarity at hq
  rw [if_neg h1, if_neg h2, if_neg (by rintro (h | h) <;> contradiction)] at hq
  simp only at hq
  split at hq
  · exact (nomatch hq)
  · exact hq.symm

/-- C31: the first letters of the words of a name, as in `lr` for `learning_rate`, are as similar to it as two different names can be,
whichever of the two comes first. -/
theorem C31_abbreviation (ws : List (Char × List Char)) (hne : ws ≠ []) (hw : ∀ w ∈ ws, '_' ≠ w.1 ∧ '_' ∉ w.2)
    {long short : String} (hl : long.toList = joinC '_' (ws.map fun w => w.1 :: w.2)) (hs : short.toList = ws.map Prod.fst)
    (hd : long ≠ short) : nameSimilarity lower long short = .ok 1 ∧ nameSimilarity lower short long = .ok 1 := by
  have h1 : splitC '_' long.toList = ws.map fun w => w.1 :: w.2 := by
    rw [hl]
    refine splitC_joinC (by simpa using hne) ?_
    intro w h
    obtain ⟨w', h', rfl⟩ := List.mem_map.1 h
    have := hw w' h'
    simp [this.1, this.2]
  have h2 : initials long = short := by
    rw [initials, h1]
    apply String.toList_injective
    rw [hs, String.toList_ofList]
    clear hs hl h1 hne hw hd
    induction ws with
    | nil => rfl
    | cons w ws ih => simp_all
  have h3 : nameSimilarity lower long short = .ok 1 := by
    rw [nameSimilarity, if_neg hd]
    split
    · rfl
    · rw [if_pos (.inr h2.symm)]
  exact ⟨h3, by rw [C31_sim_symm, h3]⟩

/-- C31: so are two names that are made of the same letters but for the underscores, as in `batchsize` for `batch_size`. -/
theorem C31_underscores (ws ws' : List (List Char)) (hw : ∀ w ∈ ws, '_' ∉ w) (hw' : ∀ w ∈ ws', '_' ∉ w) (he : ws.flatten = ws'.flatten)
    {f g : String} (hf : f.toList = joinC '_' ws) (hg : g.toList = joinC '_' ws') (hd : f ≠ g) : nameSimilarity lower f g = .ok 1 := by
  have key : ∀ ws : List (List Char), (∀ w ∈ ws, '_' ∉ w) → (joinC '_' ws).filter (· ≠ '_') = ws.flatten := by
    intro ws h
    have hk : ∀ w : List Char, '_' ∉ w → w.filter (· ≠ '_') = w := by
      intro w hw
      rw [List.filter_eq_self]
      intro a ha
      simp only [ne_eq, decide_eq_true_eq]
      rintro rfl; exact hw ha
    have hm : ∀ ws : List (List Char), (∀ w ∈ ws, '_' ∉ w) → (ws.flatMap (fun w => '_' :: w)).filter (· ≠ '_') = ws.flatten := by
      intro ws
      induction ws with
      | nil => intro _; rfl
      | cons w ws ih =>
        intro h
        rw [List.flatMap_cons, List.filter_append, ih (fun w h' => h w (by simp [h'])), List.filter_cons_of_neg (by simp),
          hk w (h w (by simp)), List.flatten_cons]
    cases ws with
    | nil => rfl
    | cons w ws =>
      rw [joinC, List.filter_append, hk w (h w (by simp)), hm ws (fun w h' => h w (by simp [h'])), List.flatten_cons]
  rw [nameSimilarity, if_neg hd, if_pos]
  rw [dropUnderscores, dropUnderscores, hf, hg, key ws hw, key ws' hw', he]

example : nameSimilarity (fun c => String.ofList [c.toLower]) "learning_rate" "lr" = .ok 1 :=
  (C31_abbreviation _ [('l', "earning".toList), ('r', "ate".toList)] (by simp) (by decide +kernel) (by decide +kernel) (by decide +kernel)
    (by decide +kernel)).1
example : nameSimilarity (fun c => String.ofList [c.toLower]) "batchsize" "batch_size" = .ok 1 :=
  C31_underscores _ ["batchsize".toList] ["batch".toList, "size".toList] (by decide +kernel) (by decide +kernel) (by decide +kernel)
    (by decide +kernel) (by decide +kernel) (by decide +kernel)

/-- `kitten` and `sitting`: two replacements and one insertion; `MAZE` and `Maze`: three changes of case -/
example : levenshtein (fun c => String.ofList [c.toLower]) "kitten".toList "sitting".toList = 12 := by decide +kernel
example : levenshtein (fun c => String.ofList [c.toLower]) "MAZE".toList "Maze".toList = 3 := by decide +kernel
example : nameSimilarity (fun c => String.ofList [c.toLower]) "learning_rate" "lr" = .ok 1 := by decide +kernel
example : nameSimilarity (fun c => String.ofList [c.toLower]) "MAZE" "Maze" = .ok (13 / 16) := by decide +kernel
example : nameSimilarity (fun c => String.ofList [c.toLower]) "" "" = .ok (11 / 10) := by decide +kernel
-- the hypotheses of C31_value are met
example : "MAZE" ≠ "Maze" ∧ dropUnderscores "MAZE" ≠ dropUnderscores "Maze" ∧ "MAZE" ≠ initials "Maze" ∧ "Maze" ≠ initials "MAZE" := by
  decide +kernel

end HS
