import Verif.Props.Msgpack
/-!
# C52 for every structured array, every array of objects and every dict in the form of an array

The single cases in `Verif.Props.Msgpack` are not accidents: the property fails for all arrays of these kinds.
-/
namespace HS

/-- What reading does with any packed array: it looks up the stored name of the dtype. -/
theorem unpack_arr_any (np : NP) (kind : String) (a : Arr) :
    unpack np (.map [(.bin kTensor, .str kind), (.bin kDtype, .str a.dtype.str),
      (.bin kShape, .arr (a.shape.map (fun (n : Nat) => MP.int n))), (.bin kData, .bin a.data)]) =
    (do let dt ← np.dtype a.dtype.str
        wrapTensor np (.str kind) (← mkArr dt a.shape a.data)) := by
  have e : unpackM np [(.bin kTensor, .str kind), (.bin kDtype, .str a.dtype.str),
      (.bin kShape, .arr (a.shape.map (fun (n : Nat) => MP.int n))), (.bin kData, .bin a.data)] [] =
      .ok [(.bytes kTensor, .str kind), (.bytes kDtype, .str a.dtype.str),
        (.bytes kShape, .list (a.shape.map (fun (n : Nat) => Obj.int n))), (.bytes kData, .bytes a.data)] := by
    simp only [unpackM, unpackP, unpack, unpackL_shape, bind, Except.bind, pure, Except.pure]
    have n1 : (kTensor == kDtype) = false := by decide +kernel
    have n2 : (kTensor == kShape) = false := by decide +kernel
    have n3 : (kTensor == kData) = false := by decide +kernel
    have n4 : (kDtype == kShape) = false := by decide +kernel
    have n5 : (kDtype == kData) = false := by decide +kernel
    have n6 : (kShape == kData) = false := by decide +kernel
    simp [Obj.hashable, oset, keyEq, Obj.num?, n1, n2, n3, n4, n5, n6]
  have m1 : ¬ kTensor = kData := by decide +kernel
  have m2 : ¬ kDtype = kData := by decide +kernel
  have m3 : ¬ kShape = kData := by decide +kernel
  have m4 : ¬ kTensor = kDtype := by decide +kernel
  have m5 : ¬ kTensor = kShape := by decide +kernel
  have m6 : ¬ kDtype = kShape := by decide +kernel
  simp only [unpack, e, bind, Except.bind, decodeMap, bget, m1, m2, m3, m4, m5, m6, if_true, if_false, shapeOf_map]

/-- C52 is false for every array whose dtype is not the one that numpy makes from `dtype.str` (structured dtypes: the string has
only the size): the array that is read back has the same shape and bytes but the other dtype. -/
theorem C52_structureds_false (np : NP) (a : Arr) (d : DType) (hd : np.dtype a.dtype.str = .ok d) (hne : d ≠ a.dtype)
    (ho : d.hasObject = false) (hl : a.data.length = d.itemsize * shapeSize a.shape) (hs : ∀ n ∈ a.shape, n < 2 ^ 64) :
    ∃ m, pack (.nd a) = .ok m ∧ unpack np m = .ok (.nd ⟨d, a.shape, a.data⟩) ∧ unpack np m ≠ .ok (.nd a) := by
  refine ⟨_, by simp only [pack, packArr, packShape_ok a.shape hs, bind, Except.bind, pure, Except.pure]; rfl, ?_⟩
  have h : unpack np (.map [(.bin kTensor, .str "numpy"), (.bin kDtype, .str a.dtype.str),
      (.bin kShape, .arr (a.shape.map (fun (n : Nat) => MP.int n))), (.bin kData, .bin a.data)]) =
      .ok (.nd ⟨d, a.shape, a.data⟩) := by
    rw [unpack_arr_any]
    simp only [hd, bind, Except.bind, mkArr, ho, hl, Nat.lt_irrefl, if_false, Bool.false_eq_true]
    rw [List.take_of_length_le (Nat.le_of_eq hl)]
    rfl
  refine ⟨h, fun h' => hne ?_⟩
  rw [h] at h'
  injection h' with h'
  injection h' with h'
  exact congrArg Arr.dtype h'

/-- A structured array of one pair of floats. -/
example : ∃ m, pack (.nd ⟨⟨"|V8", 8, false, "[('x', '<f4'), ('y', '<f4')]"⟩, [1], [0, 0, 0, 0, 0, 0, 0, 0]⟩) = .ok m ∧
    unpack Ex.np m = .ok (.nd ⟨⟨"|V8", 8, false, ""⟩, [1], [0, 0, 0, 0, 0, 0, 0, 0]⟩) := by
  obtain ⟨m, h1, h2, _⟩ := C52_structureds_false Ex.np
    ⟨⟨"|V8", 8, false, "[('x', '<f4'), ('y', '<f4')]"⟩, [1], [0, 0, 0, 0, 0, 0, 0, 0]⟩ ⟨"|V8", 8, false, ""⟩ rfl
    (by decide) rfl rfl (by decide)
  exact ⟨m, h1, h2⟩

/-- C52 is false for every array of objects: it is packed without an error, and can never be read. -/
theorem C52_objects_false (np : NP) (a : Arr) (d : DType) (hd : np.dtype a.dtype.str = .ok d) (ho : d.hasObject = true)
    (hs : ∀ n ∈ a.shape, n < 2 ^ 64) :
    ∃ m, pack (.nd a) = .ok m ∧ unpack np m = .error .valueError := by
  refine ⟨_, by simp only [pack, packArr, packShape_ok a.shape hs, bind, Except.bind, pure, Except.pure]; rfl, ?_⟩
  have h := unpack_arr_any np "numpy" a
  simp only [hd, bind, Except.bind, mkArr, ho, if_true] at h
  exact h

/-- An array of one object. -/
example : Ex.np.dtype "|O" = .ok ⟨"|O", 8, true, ""⟩ := rfl

/-- C52: an array that has a dtype unknown where it is read (`bfloat16` of an extension, for example) is packed without an
error, and reading it fails as `np.dtype` does. -/
theorem C52_unknown_dtype_false (np : NP) (a : Arr) (e : Err) (hd : np.dtype a.dtype.str = .error e)
    (hs : ∀ n ∈ a.shape, n < 2 ^ 64) :
    ∃ m, pack (.nd a) = .ok m ∧ unpack np m = .error e := by
  refine ⟨_, by simp only [pack, packArr, packShape_ok a.shape hs, bind, Except.bind, pure, Except.pure]; rfl, ?_⟩
  have h := unpack_arr_any np "numpy" a
  simp only [hd, bind, Except.bind] at h
  exact h

/-- A dtype that numpy does not know. -/
example : Ex.np.dtype "<x2" = .error .typeError := rfl

/-- C52 is false for every dict in the form of a packed array: it is stored in the same way as the array, and read back as one. -/
theorem C52_clashes_false (np : NP) (a : Arr) (h : GoodArr np a) :
    ∃ m, pack (.map [(.bytes kTensor, .str "numpy"), (.bytes kDtype, .str a.dtype.str),
        (.bytes kShape, .list (a.shape.map (fun (n : Nat) => Obj.int n))), (.bytes kData, .bytes a.data)]) = .ok m ∧
      pack (.nd a) = .ok m ∧ unpack np m = .ok (.nd a) := by
  refine ⟨_, ?_, by simp only [pack, packArr, packShape_ok a.shape h.dims, bind, Except.bind, pure, Except.pure],
    unpack_arr np "numpy" a h⟩
  simp only [pack, packM, packP, packL_shape, packShape_ok a.shape h.dims, bind, Except.bind, pure, Except.pure]

/-- The float array of the other examples. -/
example : GoodArr Ex.np Ex.arr := Ex.arr_good

end HS
