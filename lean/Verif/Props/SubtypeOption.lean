import Verif.Props.Subtype
import Verif.Proofs.Overrides
/-! # What `is_subtype` says about Optionals

`Option.is_subtype` (`hyperstate/schema/types.py:222-223`) compares the arguments the other way round. -/
namespace HS

theorem fromDict_optional_eq (c : DCfg) (t : PyTy) (ig : Bool) (path : String) (x : Val) :
    fromDict c (.optional t) ig path x = if x.isNone then .ok (.none, []) else fromDict c t ig path x := by
  cases x <;> simp [fromDict, PyTy.optional, isOptionalArgs, PyTy.isNoneT, Val.isNone, fdHead]

/-- C30, the failing case in general: `Optional[A]` is reported to be a subtype of `Optional[B]` exactly if B is one of A, and (under the
hypotheses of `C30_partial`) every document that loads as `Optional[B]` then loads as `Optional[A]` with the same value: the answer is
that of the converse question. -/
theorem C30_options_false (c : DCfg) (ta tb : PyTy) (A B : STy) (hA : materialize (.optional ta) = .ok (.option A))
    (hB : materialize (.optional tb) = .ok (.option B)) :
    isSubtype (.option A) (.option B) = isSubtype B A ∧
    (FlatS B → LitUsable c.ext A → isSubtype (.option A) (.option B) = true → ∀ (ig : Bool) (path : String) (x : Val), IntsFit x →
      ∀ r, fromDict c (.optional tb) ig path x = .ok r → ∃ r', fromDict c (.optional ta) ig path x = .ok r' ∧ Kept x r.1 r'.1 ∧ EvsLike r.2 r'.2) := by
  have he : isSubtype (.option A) (.option B) = isSubtype B A := by rw [isSubtype]
  refine ⟨he, ?_⟩
  intro hf hl hs ig path x hx r h
  obtain ⟨A', a1, a2⟩ := materialize_opt ta hA
  obtain ⟨B', b1, b2⟩ := materialize_opt tb hB
  cases a2
  cases b2
  rw [fromDict_optional_eq] at h ⊢
  by_cases hn : x.isNone = true
  · rw [if_pos hn] at h ⊢
    cases h
    exact ⟨_, rfl, .refl (fun _ _ e => (nomatch e)), trivial⟩
  · rw [if_neg hn] at h ⊢
    exact C30_partial c tb ta B A b1 a1 hf hl (he ▸ hs) ig path x hx r h

/-- The hypotheses are met: `Optional[float]` is reported to be a subtype of `Optional[int]`. -/
example : materialize (.optional .float) = .ok (.option (.prim "float")) ∧ materialize (.optional .int) = .ok (.option (.prim "int")) ∧
    FlatS (.prim "int") ∧ isSubtype (.option (.prim "float")) (.option (.prim "int")) = true ∧
    fromDict (Ex.world.dcfg false false) (.optional .int) false "" (.int 3) = .ok (.int 3, []) :=
  ⟨rfl, rfl, .prim, by decide +kernel, rfl⟩
end HS
