import Verif.Spec.Diff
import Verif.Model.Report
/-!
# Specification: what the lines of a report say about the two schemas
-/
namespace HS

/-- `Says sh old new text p`: `text` is what is to be said about the field at the path `p`, given how the old and the new schema differ
there (with `Twin`, `Node` and `Leaf` of Spec/Diff.lean) -/
inductive Says (sh : Show) (old new : STy) : String → List String → Prop
  /-- a field of the new schema that the old one does not have -/
  | added {q o n r f} : Twin old new q o n → o.isStruct = true → Leaf n r f → (∀ g, ¬ Leaf o r g) →
      Says sh old new "new field without default value" (q ++ r)
  /-- a field of the old schema that the new one does not have -/
  | removed {q o n r f} : Twin old new q o n → n.isStruct = true → Leaf o r f → (∀ g, ¬ Leaf n r g) →
      Says sh old new "field removed" (q ++ r)
  /-- one of each, of suitable types and with the same default -/
  | renamed {q o n r f q' o' n' r' f'} : Twin old new q o n → n.isStruct = true → Leaf o r f → (∀ g, ¬ Leaf n r g) →
      Twin old new q' o' n' → o'.isStruct = true → Leaf n' r' f' → (∀ g, ¬ Leaf o' r' g) →
      isSubtype f.type f'.type = true → f.hasDefault = f'.hasDefault → pyEq f.dflt f'.dflt = true →
      Says sh old new ("field renamed to " ++ pyJoin "." (q' ++ r')) (q ++ r)
  /-- a field of both, with different defaults -/
  | defaultChanged {q o n r f g} : Twin old new q o n → Node o r f → Node n r g → f.hasDefault = true → g.hasDefault = true →
      pyEq f.dflt g.dflt = false →
      Says sh old new ("default value changed from " ++ sh.str f.dflt ++ " to " ++ sh.str g.dflt) (q ++ r)
  | defaultRemoved {q o n r f g} : Twin old new q o n → Node o r f → Node n r g → f.hasDefault = true → g.hasDefault = false →
      Says sh old new ("default value removed: " ++ sh.str f.dflt) (q ++ r)
  /-- a field (or element type of a list, or type under an Optional) with another type -/
  | typeChanged {q o n} : Twin old new q o n → o ≠ n →
      Says sh old new ("type changed from " ++ sh.ty o ++ " to " ++ sh.ty n) q
  /-- the name of the enum is that in the new schema -/
  | variantChanged {q on ovs nn nvs k v w} : Twin old new q (.enum on ovs) (.enum nn nvs) → dget ovs k = some v → (k, w) ∈ nvs → pyEq v w = false →
      Says sh old new ("value of " ++ nn ++ "." ++ k ++ " changed from " ++ sh.str v ++ " to " ++ sh.str w) q
  | variantRemoved {q on ovs nn nvs k v} : Twin old new q (.enum on ovs) (.enum nn nvs) → (k, v) ∈ ovs → k ∉ nvs.map Prod.fst →
      Says sh old new ("variant " ++ k ++ " of " ++ nn ++ " removed") q
  | variantAdded {q on ovs nn nvs k v} : Twin old new q (.enum on ovs) (.enum nn nvs) → (k, v) ∈ nvs → k ∉ ovs.map Prod.fst →
      Says sh old new ("variant " ++ k ++ " of " ++ nn ++ " added") q
  /-- a removed and an added variant with equal values, possibly of different enums. The old name is not mentioned. -/
  | variantRenamed {q on ovs nn nvs k v q' on' ovs' nn' nvs' k' v'} : Twin old new q (.enum on ovs) (.enum nn nvs) → (k, v) ∈ ovs →
      k ∉ nvs.map Prod.fst → Twin old new q' (.enum on' ovs') (.enum nn' nvs') → (k', v') ∈ nvs' → k' ∉ ovs'.map Prod.fst → pyEq v v' = true →
      Says sh old new ("variant " ++ k' ++ " of " ++ nn' ++ " renamed to " ++ k') q'
  /-- a removed and an added variant with different values, possibly of different enums: the name is that of the removed one, the enum that
  of the added one -/
  | variantMatched {q on ovs nn nvs k v q' on' ovs' nn' nvs' k' v'} : Twin old new q (.enum on ovs) (.enum nn nvs) → (k, v) ∈ ovs →
      k ∉ nvs.map Prod.fst → Twin old new q' (.enum on' ovs') (.enum nn' nvs') → (k', v') ∈ nvs' → k' ∉ ovs'.map Prod.fst → pyEq v v' = false →
      Says sh old new ("value of " ++ nn' ++ "." ++ k ++ " changed from " ++ sh.str v ++ " to " ++ sh.str v') q
  | literalAdded1 {q ovs nvs v} : Twin old new q (.literal ovs) (.literal nvs) → nvs.filter (fun v => !(pyMem v ovs)) = [v] →
      Says sh old new ("value " ++ sh.str v ++ " added to literal type " ++ pyJoin "." q) q
  | literalAdded {q ovs nvs v w vs} : Twin old new q (.literal ovs) (.literal nvs) → nvs.filter (fun v => !(pyMem v ovs)) = v :: w :: vs →
      Says sh old new ("values " ++ pyJoin ", " ((v :: w :: vs).map sh.repr) ++ " added to literal type " ++ pyJoin "." q) q
  | literalRemoved1 {q ovs nvs v} : Twin old new q (.literal ovs) (.literal nvs) → ovs.filter (fun v => !(pyMem v nvs)) = [v] →
      Says sh old new ("value " ++ sh.str v ++ " removed from literal type " ++ pyJoin "." q) q
  | literalRemoved {q ovs nvs v w vs} : Twin old new q (.literal ovs) (.literal nvs) → ovs.filter (fun v => !(pyMem v nvs)) = v :: w :: vs →
      Says sh old new ("values " ++ pyJoin ", " ((v :: w :: vs).map sh.repr) ++ " removed from literal type " ++ pyJoin "." q) q

end HS
