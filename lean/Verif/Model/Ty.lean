import Verif.Model.Rewrite
/-!
# Python classes as used for config fields, and numbers

`PyTy` is what `clz` ranges over in `serde.from_dict` and `types.materialize_type`: builtin classes, `typing` generics,
dataclasses (with the class methods of `Versioned` if they have them), enums, `Literal`s and `Serializable` classes.

Simplifications: class trees are finite (no self-referential dataclasses: their annotation would be a string, which
`from_dict` cannot use); dataclasses are known by name, have no `__post_init__`, no `init=False` fields and no
subclassing between config classes; a field's default is a value (a `default_factory` returns an equal value each time);
`Tuple[X, ...]`, `Any` and `list[...]`-style generics are not modelled; `Optional[Union[A, B]]` is the flattened
`Union[A, B, None]`, as Python makes it; `Serializable` classes are not dataclasses.
-/
namespace HS

mutual
inductive PyTy where
  | int | float | str | bool
  /-- `type(None)` -/
  | noneT
  /-- `List[a]` -/
  | list (a : PyTy)
  /-- `Tuple[a1, ..., an]` -/
  | tuple (as : List PyTy)
  /-- `Dict[k, v]` -/
  | dict (k v : PyTy)
  /-- `Union[a1, ..., an]`; `Optional[a]` is `Union[a, None]` -/
  | union (as : List PyTy)
  /-- dataclass; `ver` is present when it is a subclass of `Versioned` -/
  | data (name : String) (fields : List Fld) (ver : Option VerInfo)
  /-- enum class with its members (name, value) in definition order -/
  | enum (name : String) (members : List (String × Val))
  /-- `Literal[v1, ..., vn]` -/
  | literal (vals : List Val)
  /-- subclass of `Serializable` -/
  | blob (name : String)
/-- A dataclass field: name, annotation, default (or result of the default factory). -/
inductive Fld where
  | mk (name : String) (ty : PyTy) (dflt : Option Val)
end

def Fld.name : Fld → String | .mk n _ _ => n
def Fld.ty : Fld → PyTy | .mk _ t _ => t
def Fld.dflt : Fld → Option Val | .mk _ _ d => d

/-- `Optional[t]` -/
def PyTy.optional (t : PyTy) : PyTy := .union [t, .noneT]

def PyTy.isNoneT : PyTy → Bool
  | .noneT => true
  | _ => false

/-- `clz.__args__.__len__() == 2 and clz.__args__[1] is type(None)` for a union with these arguments: `is_optional`
(serde.py:408-414, schema/types.py:297-303) -/
def isOptionalArgs : List PyTy → Bool
  | [_, b] => b.isNoneT
  | _ => false

/-- `clz.__name__` (for `typing` generics: as of Python 3.10) -/
def PyTy.pyName : PyTy → String
  | .int => "int" | .float => "float" | .str => "str" | .bool => "bool" | .noneT => "NoneType"
  | .list _ => "List" | .tuple _ => "Tuple" | .dict _ _ => "Dict" | .union _ => "Union"
  | .data n _ _ => n | .enum n _ => n | .literal _ => "Literal" | .blob n => n

/-- `hasattr(clz, "__args__")` -/
def PyTy.hasArgs : PyTy → Bool
  | .list _ | .tuple _ | .dict _ _ | .union _ | .literal _ => true
  | _ => false

/-- `str in clz.__args__` etc. -/
def PyTy.isStr : PyTy → Bool | .str => true | _ => false
def PyTy.isFloat : PyTy → Bool | .float => true | _ => false
def PyTy.isInt : PyTy → Bool | .int => true | _ => false

/-! ## numbers -/

/-- `int(f)` for a float: truncation; ValueError for nan, OverflowError for infinities. -/
def Flt.toInt : Flt → Except Err Int
  | .nan => .error .valueError
  | .inf _ => .error .overflow
  | .fin q => .ok (q.num.tdiv q.den)

/-- round a natural number to 53 significant bits, ties to even -/
def roundNat (n : Nat) : Nat :=
  if n < 2 ^ 53 then n
  else
    let e := n.log2 - 52
    let m := n / 2 ^ e
    let r := n % 2 ^ e
    let h := 2 ^ (e - 1)
    (if h < r || (r == h && m % 2 == 1) then m + 1 else m) * 2 ^ e

/-- `float(i)` for an int: round to nearest even binary64, OverflowError when out of range. -/
def floatOfInt (i : Int) : Except Err Flt :=
  let n := roundNat i.natAbs
  if 2 ^ 1024 ≤ n then .error .overflow
  else .ok (.fin (if i < 0 then -(n : Int) else (n : Int)))

end HS
