import Verif.Model.Py
/-!
# `split` and its inverse
-/
namespace HS

/-- words joined by a separator -/
def joinC (c : Char) : List (List Char) → List Char
  | [] => []
  | w :: ws => w ++ ws.flatMap (fun w => c :: w)

theorem splitC_word {c : Char} : ∀ {w : List Char}, c ∉ w → splitC c w = [w] := by
  intro w
  induction w with
  | nil => intro _; rfl
  | cons x w ih =>
    intro h
    have hx : x ≠ c := by rintro rfl; simp at h
    simp [splitC, hx, ih (fun hm => h (by simp [hm]))]

theorem splitC_word_append {c : Char} (rest : List Char) : ∀ {w : List Char}, c ∉ w →
    splitC c (w ++ c :: rest) = w :: splitC c rest := by
  intro w
  induction w with
  | nil => intro _; simp [splitC]
  | cons x w ih =>
    intro h
    have hx : x ≠ c := by rintro rfl; simp at h
    simp [splitC, hx, ih (fun hm => h (by simp [hm]))]

theorem splitC_joinC {c : Char} : ∀ {ws : List (List Char)}, ws ≠ [] → (∀ w ∈ ws, c ∉ w) → splitC c (joinC c ws) = ws := by
  intro ws
  induction ws with
  | nil => intro h; exact absurd rfl h
  | cons w ws ih =>
    intro _ hw
    cases ws with
    | nil => simp [joinC, splitC_word (hw w (by simp))]
    | cons w' ws =>
      have := ih (by simp) (fun v hv => hw v (by simp [hv]))
      simp only [joinC, List.flatMap_cons, List.cons_append] at this ⊢
      rw [splitC_word_append _ (hw w (by simp)), this]

theorem splitC_spec (c : Char) : ∀ cs : List Char, splitC c cs ≠ [] ∧ (∀ w ∈ splitC c cs, c ∉ w) ∧ joinC c (splitC c cs) = cs := by
  intro cs
  induction cs with
  | nil => simp [splitC, joinC]
  | cons x cs ih =>
    obtain ⟨h1, h2, h3⟩ := ih
    simp only [splitC]
    split
    · rename_i hx
      subst hx
      refine ⟨by simp, ?_, ?_⟩
      · intro w hw
        rcases List.mem_cons.1 hw with rfl | hw
        · simp
        · exact h2 w hw
      · cases hs : splitC x cs with
        | nil => exact absurd hs h1
        | cons w ws => rw [hs] at h3; simp [joinC] at h3 ⊢; exact h3
    · rename_i hx
      cases hs : splitC c cs with
      | nil => exact absurd hs h1
      | cons w ws =>
        rw [hs] at h2 h3
        refine ⟨by simp, ?_, ?_⟩
        · intro v hv
          rcases List.mem_cons.1 hv with rfl | hv
          · have := h2 w (by simp)
            simp [this]; exact fun e => hx e.symm
          · exact h2 v (by simp [hv])
        · simp [joinC] at h3 ⊢; exact h3

end HS
