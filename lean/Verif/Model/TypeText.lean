import Verif.Model.HelpText
/-!
# How the types of a schema are written: `__repr__` and `__str__` in `hyperstate/schema/types.py`

`help` and the report of changes print types with `str`. `str` of a type is its `__repr__` except for `Struct`, which has a `__str__`.
`Field` and `Enum` have the `__repr__` that `dataclass` makes. How Python writes values (`repr`) is a parameter.
-/
namespace HS

/-- a string put into its place in a sorted list -/
def insertStr (a : String) : List String → List String
  | [] => [a]
  | b :: bs => if a ≤ b then a :: b :: bs else b :: insertStr a bs

/-- `sorted` of a list of strings; strings are compared by code points -/
def sortStr : List String → List String
  | [] => []
  | a :: as => insertStr a (sortStr as)

/-- `"|".join(sorted([repr(v) for v in values]))` (types.py:168-169) -/
def literalRepr (rv : Val → String) (vs : List Val) : String :=
  pyJoin "|" (sortStr (vs.map rv))

/-- the `repr` that `dataclass` makes for `Enum` (types.py:130-133): the repr of a string and of a dict -/
def enumRepr (rv : Val → String) (n : String) (vs : List (String × Val)) : String :=
  "Enum(name=" ++ rv (.str n) ++ ", variants={" ++ pyJoin ", " (vs.map fun kv => rv (.str kv.1) ++ ": " ++ rv kv.2) ++ "})"

/-- `repr` of a bool -/
def boolRepr : Bool → String
  | true => "True"
  | false => "False"

/-- `repr` of an optional string -/
def docRepr (rv : Val → String) : Option String → String
  | .none => "None"
  | some d => rv (.str d)

mutual
/-- `str` of a type (types.py:34-35, 53-54, 68-69, 88-89, 107-108, 168-169, 186-187, 219-220, 231-232) -/
def STy.text (rv : Val → String) : STy → String
  | .prim s => s
  | .list t => "List[" ++ t.text rv ++ "]"
  -- the argument is a Python list, whose elements are written with `repr`
  | .tuple ts => "Tuple[[" ++ pyJoin ", " (reprL rv ts) ++ "]]"
  | .dict k v => "Dict[" ++ k.text rv ++ ", " ++ v.text rv ++ "]"
  | .union ts => "Union[" ++ pyJoin ", " (textL rv ts) ++ "]"
  | .enum n vs => enumRepr rv n vs
  | .literal vs => literalRepr rv vs
  | .struct n _ _ => n
  | .option t => "Optional[" ++ t.text rv ++ "]"
  | .nothing => "Nothing"
termination_by structural x => x
/-- `map(str, types)` -/
def textL (rv : Val → String) : List STy → List String
  | [] => []
  | t :: ts => t.text rv :: textL rv ts
termination_by structural x => x
/-- `repr` of a type: differs from `str` for `Struct` only (types.py:183-184) -/
def STy.repr (rv : Val → String) : STy → String
  | .struct n fs _ => n ++ "(" ++ pyJoin ", " (reprF rv fs) ++ ")"
  | .prim s => s
  | .list t => "List[" ++ t.text rv ++ "]"
  | .tuple ts => "Tuple[[" ++ pyJoin ", " (reprL rv ts) ++ "]]"
  | .dict k v => "Dict[" ++ k.text rv ++ ", " ++ v.text rv ++ "]"
  | .union ts => "Union[" ++ pyJoin ", " (textL rv ts) ++ "]"
  | .enum n vs => enumRepr rv n vs
  | .literal vs => literalRepr rv vs
  | .option t => "Optional[" ++ t.text rv ++ "]"
  | .nothing => "Nothing"
termination_by structural x => x
def reprL (rv : Val → String) : List STy → List String
  | [] => []
  | t :: ts => t.repr rv :: reprL rv ts
termination_by structural x => x
/-- `f'{k}={v}' for k, v in self.fields.items()` (types.py:184) -/
def reprF (rv : Val → String) : List (String × SFld) → List String
  | [] => []
  | f :: fs => reprP rv f :: reprF rv fs
termination_by structural x => x
def reprP (rv : Val → String) : String × SFld → String
  | (k, f) => k ++ "=" ++ reprS rv f
termination_by structural x => x
/-- the `repr` that `dataclass` makes for `Field` (types.py:121-127) -/
def reprS (rv : Val → String) : SFld → String
  | .mk n t d h doc => "Field(name=" ++ rv (.str n) ++ ", type=" ++ t.repr rv ++ ", default=" ++ rv d ++ ", has_default=" ++ boolRepr h ++
      ", docstring=" ++ docRepr rv doc ++ ")"
termination_by structural x => x
end

/-- how `help` writes types and values -/
def pyTexts (rv : Val → String) : Texts := ⟨STy.text rv, rv⟩

/-- how the report of changes writes them; `str` of a string is the string, of any other value its `repr` (values with their own `__str__`
are not modelled) -/
def pyShow (rv : Val → String) : Show := ⟨fun v => match v with | .str s => s | v => rv v, rv, STy.text rv⟩

end HS
