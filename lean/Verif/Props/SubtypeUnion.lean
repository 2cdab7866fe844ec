import Verif.Props.Subtype
/-! # What `is_subtype` says about Unions

`Union.is_subtype` (`hyperstate/schema/types.py:110-118`) asks whether every member is a subtype of the whole other Union; no other
type has an alternative for Unions. -/
namespace HS

/-- only Unions and Nothing are ever reported to be subtypes of a Union -/
theorem isSubtype_union {t : STy} (h1 : ∀ ts, t ≠ .union ts) (h2 : t ≠ .nothing) (us : List STy) : isSubtype t (.union us) = false := by
  cases t with
  | union ts => exact absurd rfl (h1 ts)
  | nothing => exact absurd rfl h2
  | _ => rw [isSubtype] <;> simp

theorem subAll_mem {ts : List STy} {t o : STy} (hm : t ∈ ts) (h : isSubtype t o = false) : subAll ts o = false := by
  induction ts with
  | nil => exact (nomatch hm)
  | cons a ts ih =>
    rw [subAll]
    rcases List.mem_cons.1 hm with rfl | hm
    · rw [h]; rfl
    · rw [ih hm, Bool.and_false]

/-- C30: a member of a Union is never reported to be a subtype of the Union, and a Union with such a member is reported to be a subtype
of another one only if they are equal: a Union that gains a member is always taken for an incompatible type. -/
theorem C30_union_incomplete (ts us : List STy) (t : STy) (ht : t ∈ ts) (h1 : ∀ ws, t ≠ .union ws) (h2 : t ≠ .nothing) :
    isSubtype t (.union us) = false ∧ isSubtype (.union ts) (.union us) = styEq (.union ts) (.union us) := by
  have h := isSubtype_union h1 h2 us
  refine ⟨h, ?_⟩
  rw [isSubtype, subAll_mem ht h, Bool.or_false]

/-- The hypotheses are met: `Union[int, str]` and `Union[int, str, float]`; a document of the first loads as the second. -/
example : isSubtype (.union [.prim "int", .prim "str"]) (.union [.prim "int", .prim "str", .prim "float"]) = false ∧
    isSubtype (.union [.prim "int", .prim "str"]) (.union [.prim "int", .prim "str"]) = true := by
  constructor
  · rw [(C30_union_incomplete [.prim "int", .prim "str"] _ (.prim "int") (by simp) nofun nofun).2]; decide +kernel
  · decide +kernel
end HS
