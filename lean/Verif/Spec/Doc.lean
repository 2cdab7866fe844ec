import Verif.Model.Py
/-!
# Specification vocabulary for documents

A document is a tree of dicts; a path is a list of keys. `Val.at? d p` is what a reader finds at path `p`.
-/
namespace HS

/-- What is found in document `d` at path `p` (following dict entries only). -/
def Val.at? : Val → List String → Option Val
  | v, [] => some v
  | .dict d, k :: ks => (dget d k).bind (fun c => c.at? ks)
  | _, _ :: _ => .none

/-- Neither path is a prefix of the other: they denote disjoint parts of a document. -/
def Unrelated (p q : List String) : Prop := ¬ p <+: q ∧ ¬ q <+: p

/-- Every *proper* ancestor of `p` that is present in `d` is an object (dict), so something can be stored at `p`. -/
def Reachable (d : Val) (p : List String) : Prop :=
  ∀ q, q <+: p → q ≠ p → ∀ v, d.at? q = some v → v.isDict = true

/-- Every proper ancestor of `p` that is present is an object or `None` (what a typed config document looks like). -/
def Walkable (d : Val) (p : List String) : Prop :=
  ∀ q, q <+: p → q ≠ p → q ≠ [] → ∀ v, d.at? q = some v → v.isDict = true ∨ v = .none

end HS
