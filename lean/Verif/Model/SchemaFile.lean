import Verif.Model.Checker
/-!
# Schema files: `dump-schema`, `load_schema`

A schema is written as a dataclass object by `pyron.to_string` and read back with `preserve_structs=True`.
-/
namespace HS

mutual
/-- a schema type as the dataclass object it is (schema/types.py:30-232) -/
def STy.obj : STy → Val
  | .prim s => .inst "Primitive" [("type", .str s)]
  | .list t => .inst "List" [("inner", t.obj)]
  | .tuple ts => .inst "Tuple" [("inner", .list (objL ts))]
  | .dict k v => .inst "Dict" [("key", k.obj), ("val", v.obj)]
  | .union ts => .inst "Union" [("types", .list (objL ts))]
  | .enum n vs => .inst "Enum" [("name", .str n), ("variants", .dict vs)]
  | .literal vs => .inst "Literal" [("allowed_values", .list vs)]
  | .struct n fs v => .inst "Struct" [("name", .str n), ("fields", .dict (objF fs)),
      ("version", match v with | some i => .int i | .none => .none)]
  | .option t => .inst "Option" [("type", t.obj)]
  | .nothing => .inst "Nothing" []
termination_by structural x => x
def objL : List STy → List Val
  | [] => []
  | t :: ts => t.obj :: objL ts
termination_by structural x => x
def objF : List (String × SFld) → List (String × Val)
  | [] => []
  | f :: fs => objP f :: objF fs
termination_by structural x => x
def objP : String × SFld → String × Val
  | (k, f) => (k, f.obj)
termination_by structural x => x
def SFld.obj : SFld → Val
  | .mk n t d h doc => .inst "Field" [("name", .str n), ("type", t.obj), ("default", d), ("has_default", .bool h),
      ("docstring", match doc with | some s => .str s | .none => .none)]
termination_by structural x => x
end

mutual
/-- TRUSTED: what `pyron.load(path, preserve_structs=True)` (schema/types.py:336) returns after `pyron.to_string(v)`
(schema_checker.py:378): a dataclass instance or namedtuple comes back as a namedtuple with the same name and attributes,
everything else as it was. Only meant for values built from None, bool, int, float, str, list, dict and these. -/
def ronStruct : Val → Val
  | .list xs => .list (ronStructL xs)
  | .tup xs => .tup (ronStructL xs)
  | .dict kvs => .dict (ronStructD kvs)
  | .ntup n kvs => .ntup n (ronStructD kvs)
  | .inst n kvs => .ntup n (ronStructD kvs)
  | v => v
termination_by structural x => x
def ronStructL : List Val → List Val
  | [] => []
  | x :: xs => ronStruct x :: ronStructL xs
termination_by structural x => x
def ronStructD : List (String × Val) → List (String × Val)
  | [] => []
  | kv :: d => ronStructP kv :: ronStructD d
termination_by structural x => x
def ronStructP : String × Val → String × Val
  | (k, v) => (k, ronStruct v)
termination_by structural x => x
end

theorem sizeOf_dgetV {kvs : List (String × Val)} {k : String} {v : Val} (h : dget kvs k = some v) : sizeOf v < sizeOf kvs := by
  induction kvs with
  | nil => exact (nomatch h)
  | cons e kvs ih =>
    obtain ⟨k', w⟩ := e
    simp only [dget] at h
    split at h
    · cases h
      simp only [List.cons.sizeOf_spec, Prod.mk.sizeOf_spec]
      omega
    · have := ih h
      simp only [List.cons.sizeOf_spec]
      omega

/-- `schema.attr` -/
def ntAttr (kvs : List (String × Val)) (a : String) : Except Err Val :=
  match dget kvs a with
  | some v => .ok v
  | .none => .error .attributeError

/-- attributes of a known class. Simplification: the source stores whatever it finds; here a value of another class is a
TypeError. -/
def ntStr (kvs : List (String × Val)) (a : String) : Except Err String := do
  match ← ntAttr kvs a with
  | .str s => return s
  | _ => throw .typeError
def ntBool (kvs : List (String × Val)) (a : String) : Except Err Bool := do
  match ← ntAttr kvs a with
  | .bool b => return b
  | _ => throw .typeError
def ntVersion (kvs : List (String × Val)) : Except Err (Option Int) := do
  match ← ntAttr kvs "version" with
  | .int i => return some i
  | .none => return .none
  | _ => throw .typeError

mutual
/-- `schema_from_namedtuple` (schema/types.py:306-332). A value that is not a namedtuple has another class name. -/
def fromNT : Val → Except Err STy
  | .ntup n kvs =>
    if n = "Primitive" then do return .prim (← ntStr kvs "type")
    else if n = "List" then match _h : dget kvs "inner" with
      | some v => do return .list (← fromNT v)
      | .none => .error .attributeError
    else if n = "Struct" then match _h : dget kvs "fields" with
      | some (.dict fs) => do
        let fs ← fromNTF fs
        let name ← ntStr kvs "name"
        let version ← ntVersion kvs
        return .struct name fs version
      | _ => .error .attributeError
    else if n = "Option" then match _h : dget kvs "type" with
      | some v => do return .option (← fromNT v)
      | .none => .error .attributeError
    else if n = "Enum" then do
      match ← ntAttr kvs "variants" with
      | .dict vs => return .enum (← ntStr kvs "name") vs
      | _ => throw .attributeError
    else if n = "Literal" then do
      match ← ntAttr kvs "allowed_values" with
      | .list vs => return .literal vs
      | .tup vs => return .literal vs
      | _ => throw .typeError
    else .error .valueError
  | _ => .error .valueError
termination_by v => sizeOf v
decreasing_by
  all_goals (have := sizeOf_dgetV _h; simp only [Val.ntup.sizeOf_spec, Val.dict.sizeOf_spec] at *; omega)
/-- the loop over the fields (schema/types.py:314-320); the docstring is not read -/
def fromNTF : List (String × Val) → Except Err (List (String × SFld))
  | [] => .ok []
  | (k, .ntup _ fkvs) :: rest => do
    let f ← match _h : dget fkvs "type" with
      | some t => do
        let t ← fromNT t
        let d ← ntAttr fkvs "default"
        let h ← ntBool fkvs "has_default"
        pure (SFld.mk k t d h .none)
      | .none => .error .attributeError
    let rest ← fromNTF rest
    return (k, f) :: rest
  | _ :: _ => .error .attributeError
termination_by fs => sizeOf fs
decreasing_by
  all_goals first
    | (simp only [List.cons.sizeOf_spec] at *; omega)
    | (have := sizeOf_dgetV _h
       simp only [List.cons.sizeOf_spec, Prod.mk.sizeOf_spec, Val.ntup.sizeOf_spec] at *
       omega)
end

/-- `load_schema` (schema/types.py:335-339) on the parsed file -/
def loadSchema (v : Val) : Except Err STy := do
  match ← fromNT v with
  | .struct n fs v => return .struct n fs v
  | _ => throw .assertionError

/-- `_dump_schema` (schema_checker.py:377-380): the parsed content of the file written -/
def dumpSchema (ty : PyTy) : Except Err Val := do
  return ronStruct (← materialize ty).obj

end HS
