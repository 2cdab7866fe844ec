import Verif.Model.Msgpack
/-!
# Specification: which objects survive packing, and as what
-/
namespace HS

/-- scalars that can be dict keys after unpacking -/
def Obj.isScalar : Obj → Bool
  | .none | .bool _ | .int _ | .flt _ | .str _ | .bytes _ => true
  | _ => false

/-- An array that numpy can hold (its buffer has the size given by dtype and shape), whose dtype is determined by its `str`
and does not contain objects. -/
structure GoodArr (np : NP) (a : Arr) : Prop where
  named : np.dtype a.dtype.str = .ok a.dtype
  plain : a.dtype.hasObject = false
  full : a.data.length = a.dtype.itemsize * shapeSize a.shape
  dims : ∀ n ∈ a.shape, n < 2 ^ 64

mutual
/-- Objects that can be packed and read back: nested lists, tuples and dicts (with scalar keys, different from each other
and from `b"__tensor__"`) of scalars, arrays and tensors. -/
def GoodObj (np : NP) : Obj → Prop
  | .none | .bool _ | .flt _ | .str _ | .bytes _ => True
  | .int i => -(2 ^ 63) ≤ i ∧ i < 2 ^ 64
  | .list xs => GoodObjL np xs
  | .tup xs => GoodObjL np xs
  | .map kvs => GoodObjM np kvs ∧ kvs.Pairwise (fun a b => keyEq a.1 b.1 = false)
  | .nd a => GoodArr np a
  | .tensor t => GoodArr np t.arr ∧ t.numpyable = true ∧ t.requiresGrad = false ∧ (np.torch = true → np.torchOk t.arr.dtype = true)
  | .other _ => False
termination_by structural x => x
def GoodObjL (np : NP) : List Obj → Prop
  | [] => True
  | x :: xs => GoodObj np x ∧ GoodObjL np xs
termination_by structural x => x
def GoodObjM (np : NP) : List (Obj × Obj) → Prop
  | [] => True
  | kv :: kvs => GoodObjP np kv ∧ GoodObjM np kvs
termination_by structural x => x
def GoodObjP (np : NP) : Obj × Obj → Prop
  | (k, v) => k.isScalar = true ∧ k ≠ .bytes kTensor ∧ GoodObj np k ∧ GoodObj np v
termination_by structural x => x
end

mutual
/-- What comes back: tuples as lists; tensors on the CPU, or as numpy arrays where torch is not installed. -/
def comesBack (torch : Bool) : Obj → Obj
  | .list xs => .list (comesBackL torch xs)
  | .tup xs => .list (comesBackL torch xs)
  | .map kvs => .map (comesBackM torch kvs)
  | .tensor t => if torch then .tensor ⟨t.arr, true, false, "cpu"⟩ else .nd t.arr
  | o => o
termination_by structural x => x
def comesBackL (torch : Bool) : List Obj → List Obj
  | [] => []
  | x :: xs => comesBack torch x :: comesBackL torch xs
termination_by structural x => x
def comesBackM (torch : Bool) : List (Obj × Obj) → List (Obj × Obj)
  | [] => []
  | kv :: kvs => comesBackP torch kv :: comesBackM torch kvs
termination_by structural x => x
def comesBackP (torch : Bool) : Obj × Obj → Obj × Obj
  | (k, v) => (k, comesBack torch v)
termination_by structural x => x
end

/-- a step into an object: `[n]` or `[key]` -/
inductive OStep where
  | idx (n : Nat)
  | key (k : Obj)

/-- `o[s1][s2]…` -/
def Obj.at? : Obj → List OStep → Option Obj
  | o, [] => some o
  | .list xs, .idx n :: p => xs[n]?.bind (fun x => x.at? p)
  | .tup xs, .idx n :: p => xs[n]?.bind (fun x => x.at? p)
  | .map kvs, .key k :: p => (kvs.find? (fun e => keyEq e.1 k)).bind (fun e => e.2.at? p)
  | _, _ => .none

mutual
/-- no tuples, and all tensors are on the CPU -/
def NoTuples : Obj → Prop
  | .list xs => NoTuplesL xs
  | .tup _ => False
  | .map kvs => NoTuplesM kvs
  | .tensor t => t.device = "cpu"
  | _ => True
termination_by structural x => x
def NoTuplesL : List Obj → Prop
  | [] => True
  | x :: xs => NoTuples x ∧ NoTuplesL xs
termination_by structural x => x
def NoTuplesM : List (Obj × Obj) → Prop
  | [] => True
  | kv :: kvs => NoTuplesP kv ∧ NoTuplesM kvs
termination_by structural x => x
def NoTuplesP : Obj × Obj → Prop
  | (_, v) => NoTuples v
termination_by structural x => x
end

mutual
/-- Nothing in the object is unpackable: ints fit into 64 bits, tensors have a numpy counterpart and do not require grad. -/
def CanPack : Obj → Prop
  | .none | .bool _ | .flt _ | .str _ | .bytes _ => True
  | .int i => -(2 ^ 63) ≤ i ∧ i < 2 ^ 64
  | .list xs => CanPackL xs
  | .tup xs => CanPackL xs
  | .map kvs => CanPackM kvs
  | .nd a => ∀ n ∈ a.shape, n < 2 ^ 64
  | .tensor t => t.requiresGrad = false ∧ t.numpyable = true ∧ ∀ n ∈ t.arr.shape, n < 2 ^ 64
  | .other _ => False
termination_by structural x => x
def CanPackL : List Obj → Prop
  | [] => True
  | x :: xs => CanPack x ∧ CanPackL xs
termination_by structural x => x
def CanPackM : List (Obj × Obj) → Prop
  | [] => True
  | kv :: kvs => CanPackP kv ∧ CanPackM kvs
termination_by structural x => x
def CanPackP : Obj × Obj → Prop
  | (k, v) => CanPack k ∧ CanPack v
termination_by structural x => x
end

end HS
