import Verif.Props.Subtype
/-! # What `is_subtype` says about dataclasses

`Struct.is_subtype` (`hyperstate/schema/types.py:203-212`) compares the types of the fields the other way round, and asks nothing about
the fields that only the other class has. -/
namespace HS

/-- C30, the failing case in general: a dataclass is reported to be a subtype of another exactly if the other has all its fields, with
types that are subtypes of its own. In particular every field that only the other class has is ignored, with or without default. -/
theorem C30_structs_false (n n' : String) (fs gs : List (String × SFld)) (v v' : Option Int) :
    (isSubtype (.struct n fs v) (.struct n' gs v') = true ↔
      ∀ k f, (k, f) ∈ fs → ∃ g, dget gs k = some g ∧ isSubtype g.type f.type = true) ∧
    (∀ k g, isSubtype (.struct n fs v) (.struct n' gs v') = true →
      isSubtype (.struct n fs v) (.struct n' (gs ++ [(k, g)]) v') = true) := by
  have h1 : ∀ gs : List (String × SFld), isSubtype (.struct n fs v) (.struct n' gs v') = true ↔
      ∀ k f, (k, f) ∈ fs → ∃ g, dget gs k = some g ∧ isSubtype g.type f.type = true := by
    intro gs
    rw [isSubtype, subFields_iff]
  refine ⟨h1 gs, ?_⟩
  intro k g h
  rw [h1] at h ⊢
  intro k' f hf
  obtain ⟨g', e1, e2⟩ := h k' f hf
  refine ⟨g', ?_, e2⟩
  clear h hf e2
  induction gs with
  | nil => exact (nomatch e1)
  | cons e gs ih =>
    obtain ⟨a, b⟩ := e
    simp only [List.cons_append, dget] at e1 ⊢
    split
    · rename_i hak; rw [if_pos hak] at e1; exact e1
    · rename_i hak
      rw [if_neg hak] at e1
      exact ih e1

/-- `{}` is reported to be a subtype of `{x: int}`, and `{x: float}` of `{x: int}`, but not the other way round. -/
example : isSubtype (.struct "A" [("x", .mk "x" (.prim "float") .none false .none)] .none)
      (.struct "A" [("x", .mk "x" (.prim "int") .none false .none), ("y", .mk "y" (.prim "int") .none false .none)] .none) = true ∧
    isSubtype (.struct "A" [("x", .mk "x" (.prim "int") .none false .none)] .none)
      (.struct "A" [("x", .mk "x" (.prim "float") .none false .none)] .none) = false := by decide +kernel
end HS
