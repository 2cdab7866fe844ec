/-!
# Python values

The values that hyperstate's functions receive and return.  This file models the *language*, not the repository:
values, `==`, `in`, `[]` on the value kinds that occur in state dicts.

Simplifications: dict keys are strings (config documents have string keys); `-0.0` and `0.0` are one value;
a dict is an association list (first match is read, writing replaces in place or appends, deleting removes all matches);
`nan` is never equal to anything (Python's identity shortcut inside containers is ignored);
dataclass instances are compared by class name and fields (`eq=True`, no subclassing).
-/
namespace HS

/-- Exceptions as values.  Only the class is kept, and the payload that callers of the API inspect. -/
inductive Err where
  | typeError | valueError | keyError | indexError | assertionError | attributeError | zeroDivision
  | overflow | fileNotFound | osError | runtimeError | unboundLocal | syntaxError
  | deserType | deserValue
  | fieldNotFound (path : String)
  | fieldsNotFound (paths : List String)
deriving DecidableEq, Repr

/-- A Python float: `nan`, `±inf` or a finite number (a superset of the binary64 numbers). -/
inductive Flt where
  | nan
  | inf (neg : Bool)
  | fin (q : Rat)
deriving DecidableEq, Repr

/-- Python `==` between floats. -/
def Flt.eqv : Flt → Flt → Bool
  | .inf a, .inf b => a == b
  | .fin a, .fin b => decide (a = b)
  | _, _ => false

inductive Val where
  | none
  | bool (b : Bool)
  | int (i : Int)
  | flt (f : Flt)
  | str (s : String)
  | list (xs : List Val)
  | tup (xs : List Val)
  /-- `dict` with string keys -/
  | dict (kvs : List (String × Val))
  /-- `namedtuple(name, keys)(**kvs)` -/
  | ntup (name : String) (kvs : List (String × Val))
  /-- instance of the dataclass called `cls`; attributes in field order -/
  | inst (cls : String) (kvs : List (String × Val))
  /-- member `name` of the enum class `cls`, with its value -/
  | enm (cls : String) (name : String) (value : Val)
  /-- object of a `Serializable` class; `repr` is what its `serialize()` returns -/
  | ser (cls : String) (repr : Val)
deriving Repr

/-! ## dict operations -/

/-- `d.get(k)` -/
def dget {α : Type} : List (String × α) → String → Option α
  | [], _ => .none
  | (k', v) :: d, k => if k' = k then some v else dget d k

/-- `d[k] = v` -/
def dset {α : Type} : List (String × α) → String → α → List (String × α)
  | [], k, v => [(k, v)]
  | (k', v') :: d, k, v => if k' = k then (k, v) :: d else (k', v') :: dset d k v

/-- `del d[k]` (on a key that may be absent) -/
def ddel {α : Type} : List (String × α) → String → List (String × α)
  | [], _ => []
  | (k', v') :: d, k => if k' = k then ddel d k else (k', v') :: ddel d k

/-- `k in d` -/
def dhas {α : Type} (d : List (String × α)) (k : String) : Bool := (dget d k).isSome

/-- `d.keys()` -/
def dkeys {α : Type} (d : List (String × α)) : List String := d.map Prod.fst

/-! ## `==`, hashing, `in`, `[]` -/

/-- Numeric value of the numeric kinds (`True == 1 == 1.0`). -/
def Val.num? : Val → Option Flt
  | .bool b => some (.fin (if b then 1 else 0))
  | .int i => some (.fin i)
  | .flt f => some f
  | _ => .none

mutual
/-- Python `==` on values. Lists and tuples are compared element by element, a namedtuple is a tuple, dicts are compared
as maps, dataclass instances by class and attribute tuples, enum members by identity. -/
def pyEq : Val → Val → Bool
  | .none, w => match w with | .none => true | _ => false
  | .bool b, w => match w.num? with | some f => (Flt.fin (if b then 1 else 0)).eqv f | _ => false
  | .int i, w => match w.num? with | some f => (Flt.fin i).eqv f | _ => false
  | .flt g, w => match w.num? with | some f => g.eqv f | _ => false
  | .str s, w => match w with | .str t => s == t | _ => false
  | .list xs, w => match w with | .list ys => pyEqL xs ys | _ => false
  | .tup xs, w => match w with
    | .tup ys => pyEqL xs ys
    | .ntup _ kvs => pyEqL xs (kvs.map Prod.snd)
    | _ => false
  | .ntup _ kvs, w => match w with
    | .tup ys => pyEqV kvs ys
    | .ntup _ kvs' => pyEqV kvs (kvs'.map Prod.snd)
    | _ => false
  | .dict d, w => match w with
    | .dict d' => d.length == d'.length && pyEqD d d'
    | _ => false
  | .inst c kvs, w => match w with
    | .inst c' kvs' => c == c' && pyEqV kvs (kvs'.map Prod.snd)
    | _ => false
  | .enm c n _, w => match w with | .enm c' n' _ => c == c' && n == n' | _ => false
  | .ser c r, w => match w with | .ser c' r' => c == c' && pyEq r r' | _ => false
termination_by structural x => x
/-- element-wise `==` -/
def pyEqL : List Val → List Val → Bool
  | [], ys => match ys with | [] => true | _ => false
  | x :: xs, ys => match ys with | y :: ys => pyEq x y && pyEqL xs ys | [] => false
termination_by structural x => x
/-- element-wise `==` of the values of a named tuple -/
def pyEqV : List (String × Val) → List Val → Bool
  | [], ys => match ys with | [] => true | _ => false
  | x :: xs, ys => match ys with | y :: ys => pyEqS x y && pyEqV xs ys | [] => false
termination_by structural x => x
/-- every entry of the first dict is matched in the second -/
def pyEqD : List (String × Val) → List (String × Val) → Bool
  | [], _ => true
  | x :: d, d' => pyEqK x d' && pyEqD d d'
termination_by structural x => x
/-- the value of an entry `==` a value -/
def pyEqS : String × Val → Val → Bool
  | (_, x), y => pyEq x y
termination_by structural x => x
/-- an entry of the first dict is matched in the second -/
def pyEqK : String × Val → List (String × Val) → Bool
  | (k, v), d' => match dget d' k with | some w => pyEq v w | .none => false
termination_by structural x => x
end

/-- `v in vs` for a list or set of values. -/
def pyMem (v : Val) (vs : List Val) : Bool := vs.any (pyEq v)

mutual
/-- Does `hash(v)` succeed? (lists, dicts and `eq=True` dataclass instances are unhashable) -/
def hashable : Val → Bool
  | .list _ | .dict _ | .inst _ _ => false
  | .tup xs => hashableL xs
  | .ntup _ kvs => hashableV kvs
  | _ => true
termination_by structural x => x
def hashableL : List Val → Bool
  | [] => true
  | x :: xs => hashable x && hashableL xs
termination_by structural x => x
def hashableV : List (String × Val) → Bool
  | [] => true
  | x :: xs => hashableP x && hashableV xs
termination_by structural x => x
def hashableP : String × Val → Bool
  | (_, x) => hashable x
termination_by structural x => x
end

/-- substring test on character lists -/
def isInfixC (p : List Char) : List Char → Bool
  | [] => p.isEmpty
  | c :: cs => p.isPrefixOf (c :: cs) || isInfixC p cs

/-- `k in v` for a string `k`: key of a dict, substring of a str, element of a list or tuple; otherwise TypeError. -/
def pyIn (k : String) : Val → Except Err Bool
  | .dict d => .ok (dhas d k)
  | .str s => .ok (isInfixC k.toList s.toList)
  | .list xs => .ok (pyMem (.str k) xs)
  | .tup xs => .ok (pyMem (.str k) xs)
  | .ntup _ kvs => .ok (pyMem (.str k) (kvs.map Prod.snd))
  | _ => .error .typeError

/-- `v[k]` for a string `k`. -/
def pyGetItem (k : String) : Val → Except Err Val
  | .dict d => match dget d k with | some v => .ok v | .none => .error .keyError
  | _ => .error .typeError

/-- `v[k] = w` for a string `k`. -/
def pySetItem (k : String) (w : Val) : Val → Except Err Val
  | .dict d => .ok (.dict (dset d k w))
  | _ => .error .typeError

def Val.isDict : Val → Bool
  | .dict _ => true
  | _ => false

def Val.isNone : Val → Bool
  | .none => true
  | _ => false

/-! ## strings -/

/-- `s.split(c)` for a one-character separator, on character lists: never empty. -/
def splitC (c : Char) : List Char → List (List Char)
  | [] => [[]]
  | x :: xs =>
    if x = c then [] :: splitC c xs
    else match splitC c xs with
      | [] => [[x]]
      | w :: ws => (x :: w) :: ws

/-- `s.split(c)` -/
def pySplit (c : Char) (s : String) : List String := (splitC c s.toList).map String.ofList

/-- `s.split(c, maxsplit=1)`: the part before the first `c` and, if there is one, the part after it. -/
def split1C (c : Char) : List Char → List Char × Option (List Char)
  | [] => ([], .none)
  | x :: xs =>
    if x = c then ([], some xs)
    else match split1C c xs with
      | (a, b) => (x :: a, b)

/-- `"!weak ref"`, `hyperstate/schema/rewrite_rule.py:8` -/
def WEAK_REF : String := "!weak ref"

/-- key under which `pyron.loads(..., preserve_class_names=True)` stores a struct's name, `hyperstate/serde.py:194` -/
def NAME_KEY : String := "!__name__"

end HS
