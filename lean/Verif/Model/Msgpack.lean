import Verif.Model.Py
/-!
# `hyperstate/msgpack_torch.py`, and `msgpack.packb` / `msgpack.unpack` as `lazy.py` calls them

`lazy.py:137` packs what `serialize()` returns with `msgpack.packb(…, default=msgpack_torch.encode)`, and `lazy.py:59` reads it
back with `msgpack.unpack(…, object_hook=msgpack_torch.decode, strict_map_key=False)`.

The msgpack library is external: its output is modelled as a tree of msgpack items, not as bytes. What is modelled of it: which
Python values it can pack, that integers must fit into 64 bits, that `default` is called once for an object it cannot pack, that
tuples and lists are both arrays, that arrays are read as lists, that a map is read into a dict key by key and then given
to `object_hook`.

Simplifications: an array is its dtype, shape and the bytes of its elements in C order (strides and flags are not modelled);
`decode` is given a `dtype` entry that is not a str, a `shape` that is not a list of non-negative ints or a `data` entry that
is not bytes only by dicts that `encode` did not make: a TypeError (numpy accepts some of these).
-/
namespace HS

abbrev Bytes := List UInt8

/-- an ASCII bytes literal -/
def asc (s : String) : Bytes := s.toList.map (fun c => c.toNat.toUInt8)

/-- A numpy dtype. `str` is its attribute `str`; `extra` stands for what `str` does not show (field names of structured dtypes). -/
structure DType where
  str : String
  itemsize : Nat
  hasObject : Bool
  extra : String
deriving DecidableEq, Repr

/-- A numpy array. -/
structure Arr where
  dtype : DType
  shape : List Nat
  data : Bytes
deriving DecidableEq, Repr

/-- A torch tensor: what its `.cpu().numpy()` would be, whether its dtype has a numpy counterpart, and what is lost on the way. -/
structure Tens where
  arr : Arr
  numpyable : Bool
  requiresGrad : Bool
  device : String
deriving DecidableEq, Repr

/-- Python objects that `serialize()` may return. -/
inductive Obj where
  | none
  | bool (b : Bool)
  | int (i : Int)
  | flt (f : Flt)
  | str (s : String)
  | bytes (b : Bytes)
  | list (xs : List Obj)
  | tup (xs : List Obj)
  /-- `dict`; any keys -/
  | map (kvs : List (Obj × Obj))
  | nd (a : Arr)
  | tensor (t : Tens)
  /-- any other object -/
  | other (cls : String)

/-- msgpack items -/
inductive MP where
  | nil
  | bool (b : Bool)
  | int (i : Int)
  | flt (f : Flt)
  | str (s : String)
  | bin (b : Bytes)
  | arr (xs : List MP)
  | map (kvs : List (MP × MP))

/-- What numpy and torch do: `np.dtype(s)`, `torch.from_numpy` works for the dtype, `torch is not None`. -/
structure NP where
  dtype : String → Except Err DType
  torchOk : DType → Bool
  torch : Bool

/-- number of elements of an array -/
def shapeSize (shape : List Nat) : Nat := shape.foldr (· * ·) 1

/-- `b"__tensor__"` etc. -/
def kTensor : Bytes := asc "__tensor__"
def kDtype : Bytes := asc "dtype"
def kShape : Bytes := asc "shape"
def kData : Bytes := asc "data"

/-- `{b"__tensor__": kind, b"dtype": …, b"shape": …, b"data": …}` (msgpack_torch.py:17-22) -/
def encodeArr (kind : String) (a : Arr) : Obj :=
  .map [(.bytes kTensor, .str kind), (.bytes kDtype, .str a.dtype.str), (.bytes kShape, .tup (a.shape.map (fun (n : Nat) => Obj.int n))),
    (.bytes kData, .bytes a.data)]

/-- `encode` with `chain=None` (msgpack_torch.py:10-24). `.numpy()` is a RuntimeError for tensors that require grad and a
TypeError for dtypes that numpy does not have. -/
def encodeObj : Obj → Except Err Obj
  | .tensor t =>
    if t.requiresGrad then .error .runtimeError
    else if !t.numpyable then .error .typeError
    else .ok (encodeArr "torch" t.arr)
  | .nd a => .ok (encodeArr "numpy" a)
  | o => .ok o

/-- integers that msgpack can represent -/
def fitsInt (i : Int) : Bool := decide (-(2 ^ 63) ≤ i) && decide (i < 2 ^ 64)

/-- what `encode` returns for an array, packed (the shape is a tuple of ints) -/
def packShape : List Nat → Except Err (List MP)
  | [] => .ok []
  | n :: ns => do
    let m ← if fitsInt n then .ok (MP.int n) else .error .overflow
    let ms ← packShape ns
    return m :: ms

def packArr (kind : String) (a : Arr) : Except Err MP := do
  let sh ← packShape a.shape
  return .map [(.bin kTensor, .str kind), (.bin kDtype, .str a.dtype.str), (.bin kShape, .arr sh), (.bin kData, .bin a.data)]

mutual
/-- `msgpack.packb(o, default=msgpack_torch.encode)`. For an object that is not packable `encode` is called and its result
packed (`packArr`, see `pack_encode`); other objects are returned unchanged by `encode` and are then a TypeError. -/
def pack : Obj → Except Err MP
  | .none => .ok .nil
  | .bool b => .ok (.bool b)
  | .int i => if fitsInt i then .ok (.int i) else .error .overflow
  | .flt f => .ok (.flt f)
  | .str s => .ok (.str s)
  | .bytes b => .ok (.bin b)
  | .list xs => do return .arr (← packL xs)
  | .tup xs => do return .arr (← packL xs)
  | .map kvs => do return .map (← packM kvs)
  | .nd a => packArr "numpy" a
  | .tensor t =>
    if t.requiresGrad then .error .runtimeError
    else if !t.numpyable then .error .typeError
    else packArr "torch" t.arr
  | .other _ => .error .typeError
termination_by structural x => x
def packL : List Obj → Except Err (List MP)
  | [] => .ok []
  | x :: xs => do
    let x ← pack x
    let xs ← packL xs
    return x :: xs
termination_by structural x => x
def packM : List (Obj × Obj) → Except Err (List (MP × MP))
  | [] => .ok []
  | kv :: kvs => do
    let kv ← packP kv
    let kvs ← packM kvs
    return kv :: kvs
termination_by structural x => x
def packP : Obj × Obj → Except Err (MP × MP)
  | (k, v) => do
    let k ← pack k
    let v ← pack v
    return (k, v)
termination_by structural x => x
end

/-- the numbers `True == 1 == 1.0` -/
def Obj.num? : Obj → Option Flt
  | .bool b => some (.fin (if b then 1 else 0))
  | .int i => some (.fin i)
  | .flt f => some f
  | _ => .none

/-- equality of the objects that occur as keys (anything read from msgpack that can be hashed is a scalar) -/
def keyEq (a b : Obj) : Bool :=
  match a.num?, b.num? with
  | some x, some y => x.eqv y
  | .none, .none => match a, b with
    | .none, .none => true
    | .str s, .str t => s == t
    | .bytes s, .bytes t => s == t
    | _, _ => false
  | _, _ => false

/-- can it be a dict key? (arrays and tensors: `np.ndarray` is unhashable; a torch tensor is hashed by identity) -/
def Obj.hashable : Obj → Bool
  | .list _ | .map _ | .nd _ => false
  | .tup xs => hashAll xs
  | _ => true
where
  hashAll : List Obj → Bool
    | [] => true
    | x :: xs => x.hashable && hashAll xs

/-- `d[k] = v` -/
def oset : List (Obj × Obj) → Obj → Obj → List (Obj × Obj)
  | [], k, v => [(k, v)]
  | (k', v') :: d, k, v => if keyEq k' k then (k', v) :: d else (k', v') :: oset d k v

/-- `d.get(b)` for a bytes key -/
def bget : List (Obj × Obj) → Bytes → Option Obj
  | [], _ => .none
  | (k, v) :: d, b => match k with
    | .bytes b' => if b' = b then some v else bget d b
    | _ => bget d b

/-- the ints of a shape -/
def shapeOf : List Obj → Option (List Nat)
  | [] => some []
  | x :: xs => match x with
    | .int (.ofNat n) => (shapeOf xs).map (n :: ·)
    | _ => .none

/-- `np.ndarray(buffer=…, dtype=…, shape=…)`: TypeError if the buffer is too small, ValueError for object dtypes -/
def mkArr (dt : DType) (shape : List Nat) (data : Bytes) : Except Err Arr :=
  if dt.hasObject then .error .valueError
  else if data.length < dt.itemsize * shapeSize shape then .error .typeError
  else .ok ⟨dt, shape, data.take (dt.itemsize * shapeSize shape)⟩

/-- the end of `decode` (msgpack_torch.py:35-38) -/
def wrapTensor (np : NP) (kind : Obj) (a : Arr) : Except Err Obj :=
  match kind with
  | .str "torch" =>
    if np.torch then
      if np.torchOk a.dtype then .ok (.tensor ⟨a, true, false, "cpu"⟩) else .error .typeError
    else .ok (.nd a)
  | _ => .ok (.nd a)

/-- `decode` with `chain=None` (msgpack_torch.py:27-42) for a dict: a KeyError makes it return the dict itself. -/
def decodeMap (np : NP) (d : List (Obj × Obj)) : Except Err Obj :=
  match bget d kTensor with
  | .none => .ok (.map d)
  | some kind =>
    match bget d kData with
    | .none => .ok (.map d)
    | some data =>
      match bget d kDtype with
      | .none => .ok (.map d)
      | some dt => do
        let dt ← match dt with
          | .str s => np.dtype s
          | _ => .error .typeError
        match bget d kShape with
        | .none => return .map d
        | some shape =>
          match shape, data with
          | .list xs, .bytes b => match shapeOf xs with
            | some sh => do wrapTensor np kind (← mkArr dt sh b)
            | .none => throw .typeError
          | _, _ => throw .typeError

mutual
/-- `msgpack.unpack(f, object_hook=msgpack_torch.decode, strict_map_key=False)` -/
def unpack (np : NP) : MP → Except Err Obj
  | .nil => .ok .none
  | .bool b => .ok (.bool b)
  | .int i => .ok (.int i)
  | .flt f => .ok (.flt f)
  | .str s => .ok (.str s)
  | .bin b => .ok (.bytes b)
  | .arr xs => do return .list (← unpackL np xs)
  | .map kvs => do decodeMap np (← unpackM np kvs [])
termination_by structural x => x
def unpackL (np : NP) : List MP → Except Err (List Obj)
  | [] => .ok []
  | x :: xs => do
    let x ← unpack np x
    let xs ← unpackL np xs
    return x :: xs
termination_by structural x => x
/-- reads the entries into the dict `d`; an unhashable key is a TypeError -/
def unpackM (np : NP) : List (MP × MP) → List (Obj × Obj) → Except Err (List (Obj × Obj))
  | [], d => .ok d
  | kv :: kvs, d => do
    let kv ← unpackP np kv
    if kv.1.hashable then unpackM np kvs (oset d kv.1 kv.2) else throw .typeError
termination_by structural x => x
def unpackP (np : NP) : MP × MP → Except Err (Obj × Obj)
  | (k, v) => do
    let k ← unpack np k
    let v ← unpack np v
    return (k, v)
termination_by structural x => x
end

end HS
