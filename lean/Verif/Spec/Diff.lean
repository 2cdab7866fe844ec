import Verif.Model.Checker
/-!
# Specification: what differs between two schemas

Stated with paths through a schema, without following the checker's recursion.
-/
namespace HS

/-- the fields of a struct are a dict: no key occurs twice -/
inductive WFS : STy → Prop
  | struct {n fs v} : (fs.map Prod.fst).Nodup → (∀ k f, (k, f) ∈ fs → WFS f.type) → WFS (.struct n fs v)
  | list {t} : WFS t → WFS (.list t)
  | option {t} : WFS t → WFS (.option t)
  | prim {s} : WFS (.prim s)
  | tuple {ts} : WFS (.tuple ts)
  | dict {k v} : WFS (.dict k v)
  | union {ts} : WFS (.union ts)
  | enum {n vs} : WFS (.enum n vs)
  | literal {vs} : WFS (.literal vs)
  | nothing : WFS .nothing

/-- `Node s p f`: following the keys `p` through nested structs of `s` ends at the field `f` -/
inductive Node : STy → List String → SFld → Prop
  | here {n fs v k f} : (k, f) ∈ fs → Node (.struct n fs v) [k] f
  | under {n fs v k f p g} : (k, f) ∈ fs → Node f.type p g → Node (.struct n fs v) (k :: p) g

/-- a field whose type is not a struct -/
def Leaf (s : STy) (p : List String) (f : SFld) : Prop := Node s p f ∧ f.type.isStruct = false

/-- `Twin old new q o n`: `o` in the old and `n` in the new schema belong together, and are reached by the path `q`: the two
schemas themselves; what the leaves at equal paths hold; the element types of two lists; the types under two Optionals. -/
inductive Twin : STy → STy → List String → STy → STy → Prop
  | root {o n} : Twin o n [] o n
  | list {o n q o' n'} : Twin o n q o' n' → Twin (.list o) (.list n) q o' n'
  | option {o n q o' n'} : Twin o n q o' n' → Twin (.option o) (.option n) q o' n'
  | leaf {o n p f g q o' n'} : Leaf o p f → Leaf n p g → Twin f.type g.type q o' n' → Twin o n (p ++ q) o' n'

/-- the class of a schema type -/
def STy.kind : STy → Nat
  | .prim _ => 0 | .list _ => 1 | .tuple _ => 2 | .dict _ _ => 3 | .union _ => 4 | .enum _ _ => 5 | .literal _ => 6
  | .struct _ _ _ => 7 | .option _ => 8 | .nothing => 9

/-- `Local q o n c`: the change `c` is what distinguishes the pair `o`, `n` found at the path `q` -/
inductive Local (q : List String) : STy → STy → Change → Prop
  /-- a leaf of the new struct that is not a leaf of the old one -/
  | added {o n r f} : o.isStruct = true → Leaf n r f → (∀ g, ¬ Leaf o r g) →
      Local q o n (.fieldAdded (q ++ r) f.type f.dflt f.hasDefault)
  /-- a leaf of the old struct that is not a leaf of the new one -/
  | removed {o n r f} : n.isStruct = true → Leaf o r f → (∀ g, ¬ Leaf n r g) →
      Local q o n (.fieldRemoved (q ++ r) f.type f.dflt f.hasDefault)
  /-- fields (leaves or structs) at the same path with different defaults -/
  | defaultRemoved {o n r f g} : Node o r f → Node n r g → f.type.isStruct = g.type.isStruct → f.hasDefault = true →
      g.hasDefault = false → Local q o n (.defaultRemoved (q ++ r) f.dflt)
  | defaultChanged {o n r f g} : Node o r f → Node n r g → f.type.isStruct = g.type.isStruct → f.hasDefault = true →
      g.hasDefault = true → pyEq f.dflt g.dflt = false → Local q o n (.defaultChanged (q ++ r) f.dflt g.dflt)
  /-- types of different classes -/
  | kind {o n} : o.kind ≠ n.kind → Local q o n (.typeChanged q o n)
  /-- different primitive types -/
  | prim {a b} : a ≠ b → Local q (.prim a) (.prim b) (.typeChanged q (.prim a) (.prim b))
  | variantAdded {on ovs nn nvs k v} : (k, v) ∈ nvs → k ∉ ovs.map Prod.fst →
      Local q (.enum on ovs) (.enum nn nvs) (.variantAdded q nn k v)
  | variantRemoved {on ovs nn nvs k v} : (k, v) ∈ ovs → k ∉ nvs.map Prod.fst →
      Local q (.enum on ovs) (.enum nn nvs) (.variantRemoved q nn k v)
  | variantChanged {on ovs nn nvs k v w} : (k, v) ∈ nvs → dget ovs k = some w → pyEq w v = false →
      Local q (.enum on ovs) (.enum nn nvs) (.variantValueChanged q nn k w v)
  | literalAdded {ovs nvs} : nvs.filter (fun v => !(pyMem v ovs)) ≠ [] →
      Local q (.literal ovs) (.literal nvs) (.literalAdded q (nvs.filter (fun v => !(pyMem v ovs))))
  | literalRemoved {ovs nvs} : ovs.filter (fun v => !(pyMem v nvs)) ≠ [] →
      Local q (.literal ovs) (.literal nvs) (.literalRemoved q (ovs.filter (fun v => !(pyMem v nvs))))

/-- pairs the checker rejects -/
def Unsupported (o n : STy) : Prop := o.kind = n.kind ∧ (o.kind = 2 ∨ o.kind = 3 ∨ o.kind = 4 ∨ o.kind = 9)

end HS
