import Verif.Proofs.Msgpack
/-!
# C52: packing and unpacking objects with arrays

`pack` and `unpack` stand for the calls of msgpack in `lazy.py` (with `msgpack_torch.encode` / `decode` as hooks).
-/
namespace HS

/-- C52: every object made of lists, tuples, dicts, scalars, arrays and tensors (see `GoodObj` for the conditions on keys,
ints and dtypes) can be packed, and is read back with tuples turned into lists and tensors on the CPU (numpy arrays if torch is
missing where it is read). Missing from the full statement: tuples (`C52_tuple_false`), dicts with a key `b"__tensor__"`
(`C52_clash_false`) or a tuple key (`C52_tuple_key_false`), structured dtypes (`C52_structured_false`), arrays of objects
(`C52_object_false`), tensors that require grad (`C52_grad_false`). -/
theorem C52_trip_partial (np : NP) (o : Obj) (h : GoodObj np o) :
    ∃ m, pack o = .ok m ∧ unpack np m = .ok (comesBack np.torch o) := trip np o h

/-- C52: without tuples and with torch installed (if needed), exactly the same object is read back. -/
theorem C52_same_partial (np : NP) (o : Obj) (h : GoodObj np o) (hn : NoTuples o) (ht : np.torch = true) :
    ∃ m, pack o = .ok m ∧ unpack np m = .ok o := by
  obtain ⟨m, h1, h2⟩ := trip np o h
  rw [ht, comesBack_same o hn (pack_inv o m h1)] at h2
  exact ⟨m, h1, h2⟩

/-- C52: wherever there is an array in the object, what is read back has at the same place an array with the same dtype, shape
and contents; where there is a tensor, a tensor with the same dtype, shape and contents. -/
theorem C52_arrays_partial (np : NP) (o : Obj) (h : GoodObj np o) (p : List OStep) :
    ∃ m o', pack o = .ok m ∧ unpack np m = .ok o' ∧
      (∀ a, o.at? p = some (.nd a) → o'.at? p = some (.nd a)) ∧
      (∀ t, o.at? p = some (.tensor t) → np.torch = true → ∃ t', o'.at? p = some (.tensor t') ∧ t'.arr = t.arr) ∧
      (∀ t, o.at? p = some (.tensor t) → np.torch = false → o'.at? p = some (.nd t.arr)) := by
  obtain ⟨m, h1, h2⟩ := trip np o h
  refine ⟨m, _, h1, h2, ?_, ?_, ?_⟩
  · intro a ha; rw [comesBack_at, ha]; rfl
  · intro t ht hT
    refine ⟨⟨t.arr, true, false, "cpu"⟩, ?_, rfl⟩
    rw [comesBack_at, ht, hT]; rfl
  · intro t ht hT; rw [comesBack_at, ht, hT]; rfl

/-- C52: what can be packed: exactly the objects without ints beyond 64 bits, objects unknown to msgpack, tensors that
require grad, and tensors without a numpy dtype. -/
theorem C52_packs_iff (o : Obj) : (∃ m, pack o = .ok m) ↔ CanPack o :=
  ⟨fun ⟨m, h⟩ => pack_inv o m h, pack_ok o⟩

/-- `packb` of an array or tensor packs what `encode` returns for it. -/
theorem C52_hook (o : Obj) (h : (∃ a, o = .nd a) ∨ ∃ t, o = .tensor t) : pack o = (do pack (← encodeObj o)) := by
  rcases h with ⟨a, rfl⟩ | ⟨t, rfl⟩
  · exact pack_nd a
  · exact pack_tensor t

namespace Ex
/-- numpy knowing three dtypes -/
def np : NP where
  dtype s := if s = "<f4" then .ok ⟨"<f4", 4, false, ""⟩ else if s = "|V8" then .ok ⟨"|V8", 8, false, ""⟩
    else if s = "|O" then .ok ⟨"|O", 8, true, ""⟩ else .error .typeError
  torchOk d := d.str == "<f4"
  torch := true
def f4 : DType := ⟨"<f4", 4, false, ""⟩
def arr : Arr := ⟨f4, [2, 1], [0, 0, 128, 63, 0, 0, 0, 64]⟩
/-- `{"w": [arr, tensor], 0: (1, None)}` -/
def obj : Obj := .map [(.str "w", .list [.nd arr, .tensor ⟨arr, true, false, "cuda"⟩]), (.int 0, .tup [.int 1, .none])]
theorem arr_good : GoodArr np arr := ⟨rfl, rfl, rfl, by decide⟩
theorem obj_good : GoodObj np obj := by
  simp only [obj, GoodObj, GoodObjM, GoodObjP, GoodObjL]
  refine ⟨⟨⟨rfl, by simp, trivial, arr_good, ⟨arr_good, trivial, trivial, fun _ => rfl⟩, trivial⟩,
    ⟨rfl, by simp, by decide, by decide, trivial, trivial⟩, trivial⟩, ?_⟩
  simp [keyEq, Obj.num?]
end Ex

/-- The hypotheses of the theorems above are met by a dict with an array, a tensor on a GPU and a tuple. -/
example : GoodObj Ex.np Ex.obj := Ex.obj_good
/-- … and what is read back. -/
example : comesBack Ex.np.torch Ex.obj = .map [(.str "w", .list [.nd Ex.arr, .tensor ⟨Ex.arr, true, false, "cpu"⟩]),
    (.int 0, .list [.int 1, .none])] := rfl
/-- The hypotheses of `C52_same_partial`. -/
example : GoodObj Ex.np (.list [.nd Ex.arr, .str "x"]) ∧ NoTuples (.list [.nd Ex.arr, .str "x"]) ∧ Ex.np.torch = true := by
  refine ⟨?_, ?_, rfl⟩
  · simp only [GoodObj, GoodObjL]; exact ⟨Ex.arr_good, trivial, trivial⟩
  · simp [NoTuples, NoTuplesL]
/-- Paths as in `C52_arrays_partial`. -/
example : Ex.obj.at? [.key (.str "w"), .idx 0] = some (.nd Ex.arr) := rfl

/-- C52 is false for tuples: they are read back as lists, so two different objects are stored in the same way. -/
theorem C52_tuple_false (xs : List Obj) : pack (.tup xs) = pack (.list xs) ∧ Obj.tup xs ≠ .list xs :=
  ⟨rfl, fun h => nomatch h⟩

/-- C52 is false for dicts that look like an encoded array (even with a list for the shape): they are read back as arrays. -/
theorem C52_clash_false : ∃ (np : NP) (d : List (Obj × Obj)) (m : MP) (a : Arr), pack (.map d) = .ok m ∧
    pack (.nd a) = .ok m ∧ unpack np m = .ok (.nd a) := by
  refine ⟨Ex.np, [(.bytes kTensor, .str "numpy"), (.bytes kDtype, .str "<f4"), (.bytes kShape, .list [.int 2, .int 1]),
    (.bytes kData, .bytes Ex.arr.data)], _, Ex.arr, rfl, rfl, ?_⟩
  exact unpack_arr Ex.np "numpy" Ex.arr Ex.arr_good

/-- C52 is false for dicts with tuple keys: they can be packed, but reading them is a TypeError (the key is a list now). -/
theorem C52_tuple_key_false (np : NP) (v : Obj) (m : MP) (h : pack (.map [(.tup [], v)]) = .ok m) (w : Obj) :
    unpack np m ≠ .ok w := by
  simp only [pack, packM, packP, packL, bind, Except.bind, pure, Except.pure] at h
  cases h1 : pack v with
  | error e => rw [h1] at h; exact (nomatch h)
  | ok mv =>
    rw [h1] at h; cases h
    intro h2
    simp only [unpack, unpackM, unpackP, unpackL, bind, Except.bind, pure, Except.pure] at h2
    cases h3 : unpack np mv with
    | error e => rw [h3] at h2; exact (nomatch h2)
    | ok x => rw [h3] at h2; exact (nomatch h2)

/-- C52 is false for structured arrays: only `dtype.str` is stored, which does not mention the fields. -/
theorem C52_structured_false : ∃ (np : NP) (a a' : Arr) (m : MP), pack (.nd a) = .ok m ∧ unpack np m = .ok (.nd a') ∧
    a'.dtype ≠ a.dtype := by
  refine ⟨Ex.np, ⟨⟨"|V8", 8, false, "[('x', '<f4'), ('y', '<f4')]"⟩, [1], [0, 0, 0, 0, 0, 0, 0, 0]⟩,
    ⟨⟨"|V8", 8, false, ""⟩, [1], [0, 0, 0, 0, 0, 0, 0, 0]⟩, _, rfl, ?_, by decide⟩
  have := unpack_arr Ex.np "numpy" ⟨⟨"|V8", 8, false, ""⟩, [1], [0, 0, 0, 0, 0, 0, 0, 0]⟩ ⟨rfl, rfl, rfl, by decide⟩
  exact this

/-- C52 is false for arrays of objects: the pointers are packed, and reading is an error. -/
theorem C52_object_false : ∃ (np : NP) (a : Arr) (m : MP), pack (.nd a) = .ok m ∧ unpack np m = .error .valueError := by
  refine ⟨Ex.np, ⟨⟨"|O", 8, true, ""⟩, [1], [0, 0, 0, 0, 0, 0, 0, 0]⟩, _, rfl, ?_⟩
  rfl

/-- C52 is false for tensors that require grad (trained parameters): they cannot be packed. -/
theorem C52_grad_false (t : Tens) (h : t.requiresGrad = true) : pack (.tensor t) = .error .runtimeError := by
  simp [pack, h]

end HS
