import Verif.Model.Schema
/-!
# What a schema file says, for files written or edited by hand
-/
namespace HS

mutual
/-- the record `v` of a schema file stands for the type `s`: it has the name of the kind of type, and the attributes hold its parts.
Further attributes do not matter. -/
inductive SaysTy : Val → STy → Prop
  | prim {kvs t} : dget kvs "type" = some (.str t) → SaysTy (.ntup "Primitive" kvs) (.prim t)
  | list {kvs v t} : dget kvs "inner" = some v → SaysTy v t → SaysTy (.ntup "List" kvs) (.list t)
  | option {kvs v t} : dget kvs "type" = some v → SaysTy v t → SaysTy (.ntup "Option" kvs) (.option t)
  | enum {kvs vs n} : dget kvs "variants" = some (.dict vs) → dget kvs "name" = some (.str n) → SaysTy (.ntup "Enum" kvs) (.enum n vs)
  | literalL {kvs vs} : dget kvs "allowed_values" = some (.list vs) → SaysTy (.ntup "Literal" kvs) (.literal vs)
  | literalT {kvs vs} : dget kvs "allowed_values" = some (.tup vs) → SaysTy (.ntup "Literal" kvs) (.literal vs)
  | structV {kvs fs sfs n i} : dget kvs "fields" = some (.dict fs) → SaysFlds fs sfs → dget kvs "name" = some (.str n) →
      dget kvs "version" = some (.int i) → SaysTy (.ntup "Struct" kvs) (.struct n sfs (some i))
  | structN {kvs fs sfs n} : dget kvs "fields" = some (.dict fs) → SaysFlds fs sfs → dget kvs "name" = some (.str n) →
      dget kvs "version" = some .none → SaysTy (.ntup "Struct" kvs) (.struct n sfs .none)
/-- the fields, in the order of the file; the name of a field is its key -/
inductive SaysFlds : List (String × Val) → List (String × SFld) → Prop
  | nil : SaysFlds [] []
  | cons {k n kvs v t d b rest rest'} : dget kvs "type" = some v → SaysTy v t → dget kvs "default" = some d →
      dget kvs "has_default" = some (.bool b) → SaysFlds rest rest' →
      SaysFlds ((k, .ntup n kvs) :: rest) ((k, .mk k t d b .none) :: rest')
end

end HS
