import Verif.Model.Ty
/-!
# `hyperstate/schema/types.py`: schema types, `materialize_type`, `find_field`, `is_subtype`

Simplification: docstrings are not collected (`_find_all_field_docs` depends on the external docstring parser); the
`docstring` component of a field is kept but `materialize` leaves it empty; `STy.withDocs` (`Model/HelpText.lean`) fills it in.
-/
namespace HS

mutual
/-- the types of schema/types.py:30-232 -/
inductive STy where
  | prim (type : String)
  | list (inner : STy)
  | tuple (inner : List STy)
  | dict (key val : STy)
  | union (types : List STy)
  | enum (name : String) (variants : List (String × Val))
  | literal (allowed : List Val)
  /-- `fields` is a dict: keys need not equal the names stored in the fields (after `_insert_schema`) -/
  | struct (name : String) (fields : List (String × SFld)) (version : Option Int)
  | option (type : STy)
  | nothing
/-- `Field` (schema/types.py:121-127) -/
inductive SFld where
  | mk (name : String) (type : STy) (dflt : Val) (hasDefault : Bool) (doc : Option String)
end

def SFld.name : SFld → String | .mk n _ _ _ _ => n
def SFld.type : SFld → STy | .mk _ t _ _ _ => t
def SFld.dflt : SFld → Val | .mk _ _ d _ _ => d
def SFld.hasDefault : SFld → Bool | .mk _ _ _ h _ => h
def SFld.doc : SFld → Option String | .mk _ _ _ _ d => d

/-- schema/types.py:269-270: an enum default is stored as its value -/
def schemaDefault : Option Val → Val × Bool
  | some (.enm _ _ v) => (v, true)
  | some v => (v, true)
  | .none => (.none, false)

mutual
/-- `materialize_type` (schema/types.py:235-294). `type(None)` and other classes are unsupported (ValueError). -/
def materialize : PyTy → Except Err STy
  | .int => .ok (.prim "int")
  | .str => .ok (.prim "str")
  | .bool => .ok (.prim "bool")
  | .float => .ok (.prim "float")
  | .list a => do return .list (← materialize a)
  | .tuple as => do return .tuple (← materializeL as)
  | .dict k v => do
    let k ← materialize k
    let v ← materialize v
    return .dict k v
  | .union as =>
    if isOptionalArgs as then materializeOpt as else do return .union (← materializeL as)
  | .data n fs ver => do return .struct n (← materializeF fs) (ver.map VerInfo.version)
  | .enum n ms => .ok (.enum n ms)
  | .literal vs => .ok (.literal vs)
  | .noneT | .blob _ => .error .valueError
termination_by structural x => x
def materializeOpt : List PyTy → Except Err STy
  | [] => .error .indexError
  | t :: _ => do return .option (← materialize t)
termination_by structural x => x
def materializeL : List PyTy → Except Err (List STy)
  | [] => .ok []
  | t :: ts => do
    let t ← materialize t
    let ts ← materializeL ts
    return t :: ts
termination_by structural x => x
def materializeF : List Fld → Except Err (List (String × SFld))
  | [] => .ok []
  | f :: fs => do
    let f ← materializeF1 f
    let fs ← materializeF fs
    return f :: fs
termination_by structural x => x
def materializeF1 : Fld → Except Err (String × SFld)
  | .mk n t d => do
    let t ← materialize t
    return (n, .mk n t (schemaDefault d).1 (schemaDefault d).2 .none)
termination_by structural x => x
end

/-- `while isinstance(_schema, Option): _schema = _schema.type` (schema/types.py:195-196) -/
def STy.stripOption : STy → STy
  | .option t => t.stripOption
  | t => t

/-- `Struct.find_field` (schema/types.py:189-201) on the fields of a struct. -/
def findField : List (String × SFld) → List String → Option SFld
  | _, [] => .none
  | fs, [k] => dget fs k
  | fs, k :: k' :: ks => match dget fs k with
    | some f => match f.type.stripOption with
      | .struct _ fs' _ => findField fs' (k' :: ks)
      | _ => .none
    | .none => .none

end HS
