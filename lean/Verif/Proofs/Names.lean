import Verif.Model.Names
import Verif.Spec.Names
/-!
# Lemmas on `levenshtein`
-/
namespace HS
variable {lower : Char → String}

/-! ## edit scripts -/

theorem Edit.sub {s t : List Char} {n : Nat} (c d : Char) (h : Edit lower s t n) :
    Edit lower (c :: s) (d :: t) (n + substCost lower c d) := by
  unfold substCost
  split
  · rename_i h1; subst h1; exact .keep c h
  · split
    · rename_i h1; exact .recase c d h1 h
    · exact .replace c d h

theorem Edit.symm {s t : List Char} {n : Nat} (h : Edit lower s t n) : Edit lower t s n := by
  induction h with
  | nil => exact .nil
  | keep c _ ih => exact .keep c ih
  | recase c d hl _ ih => exact .recase d c hl.symm ih
  | replace c d _ ih => exact .replace d c ih
  | delete c _ ih => exact .insert c ih
  | insert d _ ih => exact .delete d ih

theorem Edit.append {s t s' t' : List Char} {n n' : Nat} (h : Edit lower s t n) (h' : Edit lower s' t' n') :
    Edit lower (s ++ s') (t ++ t') (n + n') := by
  induction h with
  | nil => simpa using h'
  | keep c _ ih => exact .keep c ih
  | recase c d hl _ ih =>
    have := Edit.recase c d hl ih
    simpa [Nat.add_right_comm] using this
  | replace c d _ ih =>
    have := Edit.replace c d ih
    simpa [Nat.add_right_comm] using this
  | delete c _ ih =>
    have := Edit.delete c ih
    simpa [Nat.add_right_comm] using this
  | insert d _ ih =>
    have := Edit.insert d ih
    simpa [Nat.add_right_comm] using this

theorem Edit.reverse {s t : List Char} {n : Nat} (h : Edit lower s t n) : Edit lower s.reverse t.reverse n := by
  induction h with
  | nil => exact .nil
  | keep c _ ih =>
    have := ih.append (Edit.keep c .nil)
    simpa using this
  | recase c d hl _ ih =>
    have := ih.append (Edit.recase c d hl .nil)
    simpa using this
  | replace c d _ ih =>
    have := ih.append (Edit.replace c d .nil)
    simpa using this
  | delete c _ ih =>
    have := ih.append (Edit.delete c .nil)
    simpa using this
  | insert d _ ih =>
    have := ih.append (Edit.insert d .nil)
    simpa using this

theorem Edit.refl : ∀ s : List Char, Edit lower s s 0
  | [] => .nil
  | c :: s => .keep c (Edit.refl s)

theorem Edit.eq_of_zero {s t : List Char} {n : Nat} (h : Edit lower s t n) (hn : n = 0) : s = t := by
  induction h with
  | nil => rfl
  | keep c _ ih => rw [ih hn]
  | _ => omega

/-- there is a script of cost at most the longer length -/
theorem Edit.exists_le : ∀ s t : List Char, ∃ n, n ≤ 4 * max s.length t.length ∧ Edit lower s t n
  | [], [] => ⟨0, by simp, .nil⟩
  | c :: s, [] => by
    obtain ⟨n, h1, h2⟩ := Edit.exists_le s []
    exact ⟨n + 4, by simp at h1 ⊢; omega, .delete c h2⟩
  | [], d :: t => by
    obtain ⟨n, h1, h2⟩ := Edit.exists_le [] t
    exact ⟨n + 4, by simp at h1 ⊢; omega, .insert d h2⟩
  | c :: s, d :: t => by
    obtain ⟨n, h1, h2⟩ := Edit.exists_le s t
    refine ⟨n + 4, ?_, .replace c d h2⟩
    simp only [List.length_cons]
    omega

/-- one step of a script that consumes a character on both sides -/
inductive Step1 (lower : Char → String) (c d : Char) : Nat → Prop
  | keep : c = d → Step1 lower c d 0
  | recase : lower c = lower d → Step1 lower c d 1
  | replace : Step1 lower c d 4

theorem Step1.edit {c d : Char} {k : Nat} (h : Step1 lower c d k) {s t : List Char} {n : Nat} (he : Edit lower s t n) :
    Edit lower (c :: s) (d :: t) (n + k) := by
  cases h with
  | keep h => subst h; exact .keep c he
  | recase h => exact .recase c d h he
  | replace => exact .replace c d he

theorem Step1.trans {c d e : Char} {k l : Nat} (h : Step1 lower c d k) (h' : Step1 lower d e l) :
    ∃ m, m ≤ k + l ∧ Step1 lower c e m := by
  cases h with
  | keep h => subst h; exact ⟨l, by omega, h'⟩
  | recase h => cases h' with
    | keep h2 => subst h2; exact ⟨1, by omega, .recase h⟩
    | recase h2 => exact ⟨1, by omega, .recase (h.trans h2)⟩
    | replace => exact ⟨4, by omega, .replace⟩
  | replace => exact ⟨4, by omega, .replace⟩

/-- the last step of a script -/
inductive Edit.Inv (lower : Char → String) : List Char → List Char → Nat → Prop
  | nil : Inv lower [] [] 0
  | step {s t n c d k} : Step1 lower c d k → Edit lower s t n → Inv lower (c :: s) (d :: t) (n + k)
  | delete {s t n} (c : Char) : Edit lower s t n → Inv lower (c :: s) t (n + 4)
  | insert {s t n} (d : Char) : Edit lower s t n → Inv lower s (d :: t) (n + 4)

theorem Edit.inv {s t : List Char} {n : Nat} (h : Edit lower s t n) : Edit.Inv lower s t n := by
  cases h with
  | nil => exact .nil
  | keep c h => exact .step (.keep rfl) h
  | recase c d hl h => exact .step (.recase hl) h
  | replace c d h => exact .step .replace h
  | delete c h => exact .delete c h
  | insert d h => exact .insert d h

theorem Edit.trans : ∀ (k : Nat) {s t u : List Char} {a b : Nat}, s.length + t.length + u.length ≤ k → Edit lower s t a →
    Edit lower t u b → ∃ c, c ≤ a + b ∧ Edit lower s u c := by
  intro k
  induction k with
  | zero =>
    intro s t u a b hk h1 h2
    have e1 : s = [] := List.length_eq_zero_iff.1 (by omega)
    have e2 : u = [] := List.length_eq_zero_iff.1 (by omega)
    subst e1; subst e2
    exact ⟨0, by omega, .nil⟩
  | succ k ih =>
    intro s t u a b hk h1 h2
    cases h1.inv with
    | nil => exact ⟨b, by omega, h2⟩
    | delete c h1' =>
      simp only [List.length_cons] at hk
      obtain ⟨m, hm, he⟩ := ih (by omega) h1' h2
      exact ⟨m + 4, by omega, .delete c he⟩
    | @step s' t' n' c d j h1s h1' =>
      cases h2.inv with
      | insert e h2' =>
        simp only [List.length_cons] at hk
        obtain ⟨m, hm, he⟩ := ih (by simp only [List.length_cons]; omega) h1 h2'
        exact ⟨m + 4, by omega, .insert e he⟩
      | delete _ h2' =>
        simp only [List.length_cons] at hk
        obtain ⟨m, hm, he⟩ := ih (by omega) h1' h2'
        exact ⟨m + 4, by omega, .delete c he⟩
      | step h2s h2' =>
        simp only [List.length_cons] at hk
        obtain ⟨m, hm, he⟩ := ih (by omega) h1' h2'
        obtain ⟨q, hq, hqs⟩ := h1s.trans h2s
        exact ⟨m + q, by omega, hqs.edit he⟩
    | @insert s' t' n' d h1' =>
      cases h2.inv with
      | insert e h2' =>
        simp only [List.length_cons] at hk
        obtain ⟨m, hm, he⟩ := ih (by simp only [List.length_cons]; omega) h1 h2'
        exact ⟨m + 4, by omega, .insert e he⟩
      | delete _ h2' =>
        simp only [List.length_cons] at hk
        obtain ⟨m, hm, he⟩ := ih (by omega) h1' h2'
        exact ⟨m, by omega, he⟩
      | @step t2 u2 n2 c2 d2 k2 h2s h2' =>
        simp only [List.length_cons] at hk
        obtain ⟨m, hm, he⟩ := ih (by omega) h1' h2'
        exact ⟨m + 4, by omega, .insert d2 he⟩

/-! ## the recursion behind the table -/

def ed (lower : Char → String) : List Char → List Char → Nat
  | [], t => 4 * t.length
  | c :: s, [] => 4 * (s.length + 1)
  | c :: s, d :: t => min (min (ed lower s (d :: t) + 4) (ed lower (c :: s) t + 4)) (ed lower s t + substCost lower c d)

theorem ed_nil (s : List Char) : ed lower s [] = 4 * s.length := by
  cases s <;> simp [ed]

theorem ed_edit : ∀ s t : List Char, Edit lower s t (ed lower s t)
  | [], [] => by simpa [ed] using Edit.nil
  | [], d :: t => by
    have := Edit.insert d (ed_edit [] t)
    simpa [ed, Nat.mul_add] using this
  | c :: s, [] => by
    have := Edit.delete c (ed_edit s [])
    rw [ed_nil] at this ⊢
    simpa [Nat.mul_add] using this
  | c :: s, d :: t => by
    have h1 := Edit.delete c (ed_edit s (d :: t))
    have h2 := Edit.insert d (ed_edit (c :: s) t)
    have h3 := Edit.sub c d (ed_edit s t)
    rw [ed]
    rcases Nat.le_total (min (ed lower s (d :: t) + 4) (ed lower (c :: s) t + 4)) (ed lower s t + substCost lower c d) with h | h
    · rw [Nat.min_eq_left h]
      rcases Nat.le_total (ed lower s (d :: t) + 4) (ed lower (c :: s) t + 4) with h' | h'
      · rw [Nat.min_eq_left h']; exact h1
      · rw [Nat.min_eq_right h']; exact h2
    · rw [Nat.min_eq_right h]; exact h3

theorem ed_delete (c : Char) (s t : List Char) : ed lower (c :: s) t ≤ ed lower s t + 4 := by
  cases t with
  | nil => rw [ed_nil, ed_nil]; simp only [List.length_cons]; omega
  | cons d t => rw [ed]; omega

theorem ed_insert (d : Char) (s t : List Char) : ed lower s (d :: t) ≤ ed lower s t + 4 := by
  cases s with
  | nil => simp only [ed, List.length_cons]; omega
  | cons c s => rw [ed]; omega

theorem ed_le {s t : List Char} {n : Nat} (h : Edit lower s t n) : ed lower s t ≤ n := by
  induction h with
  | nil => simp [ed]
  | @keep s t n c _ ih =>
    rw [ed]
    have : substCost lower c c = 0 := by simp [substCost]
    omega
  | @recase s t n c d hl _ ih =>
    rw [ed]
    have : substCost lower c d ≤ 1 := by simp only [substCost]; split <;> simp
    omega
  | @replace s t n c d _ ih =>
    rw [ed]
    have : substCost lower c d ≤ 4 := by simp only [substCost]; split <;> try split
                                         all_goals omega
    omega
  | @delete s t n c _ ih => have := ed_delete (lower := lower) c s t; omega
  | @insert s t n d _ ih => have := ed_insert (lower := lower) d s t; omega

/-! ## the table -/

/-- the row of the table for the (reversed) prefix `ra` of `s1`, from the (reversed) prefix `p` of `s2` on -/
def rowOf (lower : Char → String) (ra : List Char) : List Char → List Char → List Nat
  | p, [] => [ed lower ra p]
  | p, c :: cs => ed lower ra p :: rowOf lower ra (c :: p) cs

theorem levCells_row (c1 : Char) (ra : List Char) : ∀ (s2 p : List Char),
    ed lower (c1 :: ra) p :: levCells lower c1 s2 (rowOf lower ra p s2) (ed lower (c1 :: ra) p) = rowOf lower (c1 :: ra) p s2 := by
  intro s2
  induction s2 with
  | nil => intro p; simp [levCells, rowOf]
  | cons c2 s2 ih =>
    intro p
    have hx : min (min (ed lower ra (c2 :: p) + 4) (ed lower (c1 :: ra) p + 4)) (ed lower ra p + substCost lower c1 c2) =
        ed lower (c1 :: ra) (c2 :: p) := by rw [ed]
    cases s2 with
    | nil =>
      simp only [rowOf, levCells, hx]
    | cons c3 s3 =>
      have := ih (c2 :: p)
      rw [rowOf] at this
      rw [rowOf, rowOf, levCells, hx, this]
      rfl

theorem levRows_row (s2 : List Char) : ∀ (s1 ra : List Char),
    levRows lower s2 s1 ra.length (rowOf lower ra [] s2) = rowOf lower (s1.reverse ++ ra) [] s2 := by
  intro s1
  induction s1 with
  | nil => intro ra; simp [levRows]
  | cons c1 s1 ih =>
    intro ra
    have h := levCells_row (lower := lower) c1 ra s2 []
    rw [ed_nil, List.length_cons] at h
    rw [levRows, h]
    have := ih (c1 :: ra)
    rw [List.length_cons] at this
    rw [this]
    simp

theorem rowOf_first : ∀ (s2 p : List Char), rowOf lower [] p s2 = (List.range (s2.length + 1)).map (fun j => 4 * (p.length + j)) := by
  intro s2
  induction s2 with
  | nil => intro p; simp [rowOf, ed]
  | cons c s2 ih =>
    intro p
    rw [rowOf, ih]
    simp only [List.length_cons]
    rw [List.range_succ_eq_map (n := s2.length + 1)]
    simp only [List.map_cons, List.map_map, ed, Nat.add_zero, List.cons.injEq, true_and]
    apply List.map_congr_left
    intro j _
    simp only [Function.comp]
    omega

theorem rowOf_last (ra : List Char) : ∀ (s2 p : List Char), (rowOf lower ra p s2).getLastD 0 = ed lower ra (s2.reverse ++ p) := by
  intro s2
  induction s2 with
  | nil => intro p; simp [rowOf]
  | cons c s2 ih =>
    intro p
    have := ih (c :: p)
    rw [rowOf]
    cases s2 with
    | nil => simp [rowOf]
    | cons d s3 =>
      rw [rowOf] at this ⊢
      simp only [List.getLastD_cons] at this ⊢
      rw [this]
      simp

theorem levLong_eq (s1 s2 : List Char) : levLong lower s1 s2 = ed lower s1.reverse s2.reverse := by
  unfold levLong
  split
  · rename_i h
    have : s2 = [] := List.length_eq_zero_iff.1 h
    subst this
    simp [ed_nil]
  · have h := rowOf_first (lower := lower) s2 []
    have h2 := levRows_row (lower := lower) s2 s1 []
    simp only [List.length_nil, Nat.zero_add] at h h2
    rw [← h, h2, rowOf_last]
    simp

/-- the distance is the cost of some script -/
theorem levenshtein_edit (s t : List Char) : Edit lower s t (levenshtein lower s t) := by
  unfold levenshtein
  split
  · rw [levLong_eq]
    have := (ed_edit (lower := lower) t.reverse s.reverse).reverse.symm
    simpa using this
  · rw [levLong_eq]
    have := (ed_edit (lower := lower) s.reverse t.reverse).reverse
    simpa using this

/-- and no script is cheaper -/
theorem levenshtein_le {s t : List Char} {n : Nat} (h : Edit lower s t n) : levenshtein lower s t ≤ n := by
  unfold levenshtein
  split
  · rw [levLong_eq]; exact ed_le h.symm.reverse
  · rw [levLong_eq]; exact ed_le h.reverse

end HS
