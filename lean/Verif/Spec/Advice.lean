import Verif.Spec.Diff
import Verif.Model.SchemaRewrite
/-!
# Specification: reports whose proposed upgrade rules settle them
-/
namespace HS

/-- the fields a change is about -/
def Change.places : Change → List (List String)
  | .fieldAdded p _ _ _ => [p]
  | .fieldRemoved p _ _ _ => [p]
  | .fieldRenamed p q => [p, q]
  | .defaultChanged p _ _ => [p]
  | .defaultRemoved p _ => [p]
  | .typeChanged p _ _ => [p]
  | .variantValueChanged p _ _ _ _ => [p]
  | .variantRemoved p _ _ _ => [p]
  | .variantAdded p _ _ _ => [p]
  | .variantRenamed p _ _ _ => [p]
  | .literalAdded p _ => [p]
  | .literalRemoved p _ => [p]

/-- neither path leads to a field within (or equal to) the other one's -/
def Incomp (p q : List String) : Prop := ¬ p <+: q ∧ ¬ q <+: p

instance (p q : List String) : Decidable (Incomp p q) := by unfold Incomp; infer_instance

/-- `DeepField s p f`: following the keys `p` through the structs of `s`, also those within lists and Optionals, ends at the
field `f` -/
inductive DeepField : STy → List String → SFld → Prop
  | here {n fs v k f} : (k, f) ∈ fs → DeepField (.struct n fs v) [k] f
  | under {n fs v k g p f} : (k, g) ∈ fs → DeepField g.type.unwrap p f → DeepField (.struct n fs v) (k :: p) f

/-- no struct in the schema is without fields -/
inductive NoEmpty : STy → Prop
  | struct {n fs v} : fs ≠ [] → (∀ k f, (k, f) ∈ fs → NoEmpty f.type) → NoEmpty (.struct n fs v)
  | list {t} : NoEmpty t → NoEmpty (.list t)
  | option {t} : NoEmpty t → NoEmpty (.option t)
  | prim {s} : NoEmpty (.prim s)
  | tuple {ts} : NoEmpty (.tuple ts)
  | dict {k v} : NoEmpty (.dict k v)
  | union {ts} : NoEmpty (.union ts)
  | enum {n vs} : NoEmpty (.enum n vs)
  | literal {vs} : NoEmpty (.literal vs)
  | nothing : NoEmpty .nothing

/-- the change alters the set of fields -/
def Change.structural : Change → Bool
  | .fieldAdded _ _ _ _ => true
  | .fieldRemoved _ _ _ _ => true
  | _ => false

/-- the change comes with a proposed rule, or alters the set of fields -/
def Change.marked (c : Change) : Bool := c.fix.isSome || c.structural

/-- changes that need no rule, or whose proposed rule settles them:
removed fields; renamed fields, where the checker accepts the old type for the new one; changed defaults; new fields without
default of an Optional or List type; fields (not elements of containers) that have become Literals. No value is a nan. -/
inductive Easy (old new : STy) : Change → Prop
  | compatible {c} : c.severity = .info → c.fix = .none → (∀ p e o n, c ≠ .variantRenamed p e o n) → Easy old new c
  | removed {p t d h} : Easy old new (.fieldRemoved p t d h)
  | renamed {p q} : (∀ f g, DeepField old p f → DeepField new q g → ∃ ds, findChanges q g.type f.type = .ok ds ∧
      ∀ c ∈ ds, c.severity = .info) → Easy old new (.fieldRenamed p q)
  | default {p a b} : pyEq a a = true → pyEq b b = true → Easy old new (.defaultChanged p a b)
  | option {p t d} : Easy old new (.fieldAdded p (.option t) d false)
  | list {p t d} : Easy old new (.fieldAdded p (.list t) d false)
  | literal {p o vs} : (∀ g, DeepField new p g → g.type = .literal vs) → (∀ v ∈ vs, pyEq v v = true) →
      Easy old new (.typeChanged p o (.literal vs))

end HS
