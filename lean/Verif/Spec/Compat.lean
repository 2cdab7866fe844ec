import Verif.Model.Checker
import Verif.Spec.Subtype
/-!
# Specification: documents, changes that do not break them
-/
namespace HS

/-- values a document consists of -/
def Val.isRaw : Val → Bool
  | .inst _ _ | .enm _ _ _ | .ser _ _ => false
  | _ => true

/-- a document: no instances, enum members or blobs in it -/
def Raw (x : Val) : Prop := ∀ y, Inside y x → y.isRaw = true

/-- schemas in which dict keys are distinct, enum values are scalars, nested classes are not versioned and (if `ne`) dataclasses are not empty -/
inductive GoodS (ne : Bool) : STy → Prop
  | struct {n fs} : (ne = true → fs ≠ []) → (fs.map Prod.fst).Nodup → (∀ k f, (k, f) ∈ fs → GoodS ne f.type) →
      GoodS ne (.struct n fs .none)
  | list {t} : GoodS ne t → GoodS ne (.list t)
  | option {t} : GoodS ne t → GoodS ne (.option t)
  | prim {s} : GoodS ne (.prim s)
  | tuple {ts} : GoodS ne (.tuple ts)
  | dict {k v} : GoodS ne (.dict k v)
  | union {ts} : GoodS ne (.union ts)
  | enum {n vs} : (vs.map Prod.fst).Nodup → (∀ k v, (k, v) ∈ vs → v.scalar = true) → GoodS ne (.enum n vs)
  | literal {vs} : GoodS ne (.literal vs)
  | nothing : GoodS ne .nothing

/-- no dataclass without fields in it, through dataclasses -/
inductive NeS : STy → Prop
  | struct {n fs v} : fs ≠ [] → (∀ k f, (k, f) ∈ fs → NeS f.type) → NeS (.struct n fs v)
  | other {t} : t.isStruct = false → NeS t

/-- the fields of the main class (which may be versioned) -/
def GoodF (ne : Bool) (fs : List (String × SFld)) : Prop :=
  (fs.map Prod.fst).Nodup ∧ ∀ k f, (k, f) ∈ fs → GoodS ne f.type

/-- changes that do not break documents: new fields with defaults, widened types, new enum members, new Literal values -/
def Harmless : Change → Prop
  | .fieldAdded _ _ _ h => h = true
  | .typeChanged _ o n => isSubtype o n = true ∧ FlatS o
  | .variantAdded _ _ _ _ => True
  | .literalAdded _ _ => True
  | _ => False

end HS
