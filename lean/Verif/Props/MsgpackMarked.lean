import Verif.Props.Msgpack
/-!
# C52 for dicts with a key `b"__tensor__"`

`decode` returns the dict itself if it cannot find the other keys of a packed array (it catches the KeyError), so a dict with the
key `b"__tensor__"` is misread only if it has all of `b"data"`, `b"dtype"` and `b"shape"`, or a dtype that numpy rejects.
-/
namespace HS

/-- A dict with scalar keys, `b"__tensor__"` among them or not, and values that come back. -/
def ScalarKeys (np : NP) (kvs : List (Obj × Obj)) : Prop :=
  (∀ kv ∈ kvs, kv.1.isScalar = true ∧ GoodObj np kv.1 ∧ GoodObj np kv.2) ∧ kvs.Pairwise (fun a b => keyEq a.1 b.1 = false)

/-- Packing the items of a dict and reading them, before `decode` is called. -/
theorem tripM_scalar (np : NP) : ∀ kvs : List (Obj × Obj),
    (∀ kv ∈ kvs, kv.1.isScalar = true ∧ GoodObj np kv.1 ∧ GoodObj np kv.2) → ∀ d : List (Obj × Obj),
    (d ++ kvs).Pairwise (fun a b => keyEq a.1 b.1 = false) →
    ∃ ms, packM kvs = .ok ms ∧ unpackM np ms d = .ok (d ++ comesBackM np.torch kvs)
  | [], _, d, _ => ⟨[], rfl, by simp [unpackM, comesBackM]⟩
  | (k, v) :: kvs, h, d, hp => by
    obtain ⟨hs, hk, hv⟩ := h (k, v) (by simp)
    obtain ⟨m1, h1, h2⟩ := trip np k hk
    obtain ⟨m2, h3, h4⟩ := trip np v hv
    rw [comesBack_scalar _ k hs] at h2
    have hd : ∀ e ∈ d, keyEq e.1 k = false := fun e he => (List.pairwise_append.1 hp).2.2 e he (k, v) (by simp)
    have hp' : ((d ++ [(k, comesBack np.torch v)]) ++ kvs).Pairwise (fun a b => keyEq a.1 b.1 = false) := by
      rw [List.append_assoc]
      rw [List.pairwise_append] at hp ⊢
      refine ⟨hp.1, ?_, ?_⟩
      · have := hp.2.1
        rw [List.pairwise_cons] at this
        show List.Pairwise _ ((k, comesBack np.torch v) :: kvs)
        rw [List.pairwise_cons]
        exact ⟨this.1, this.2⟩
      · intro a ha b hb
        rcases List.mem_cons.1 hb with rfl | hb
        · exact hd a ha
        · exact hp.2.2 a ha b (List.mem_cons_of_mem _ hb)
    obtain ⟨ms, h5, h6⟩ := tripM_scalar np kvs (fun e he => h e (by simp [he])) _ hp'
    refine ⟨(m1, m2) :: ms, by simp [packM, packP, h1, h3, h5, bind, Except.bind, pure, Except.pure], ?_⟩
    have h7 := oset_append d k (comesBack np.torch v) hd
    simp only [unpackM, unpackP, h2, h4, h7, h6, hashable_scalar k hs, bind, Except.bind, pure, Except.pure, if_true, comesBackM,
      comesBackP, List.append_assoc, List.cons_append, List.nil_append]

theorem bget_comesBackM_none (t : Bool) (kvs : List (Obj × Obj)) (b : Bytes) (h : ∀ kv ∈ kvs, kv.1 ≠ .bytes b) :
    bget (comesBackM t kvs) b = .none := by
  apply bget_none
  intro e he
  have : e.1 ∈ (comesBackM t kvs).map Prod.fst := List.mem_map_of_mem he
  rw [comesBackM_keys] at this
  obtain ⟨kv, h1, h2⟩ := List.mem_map.1 this
  rw [← h2]; exact h kv h1

/-- C52: a dict with the key `b"__tensor__"` comes back (with its tuples as lists, as other dicts) if it has no key `b"data"` or
no key `b"dtype"`. Missing from the full statement: dicts that have both (see `C52_clash_false`, `C52_marked_false`). -/
theorem C52_marked_partial (np : NP) (kvs : List (Obj × Obj)) (h : ScalarKeys np kvs)
    (hm : (∀ kv ∈ kvs, kv.1 ≠ .bytes kData) ∨ ∀ kv ∈ kvs, kv.1 ≠ .bytes kDtype) :
    ∃ m, pack (.map kvs) = .ok m ∧ unpack np m = .ok (comesBack np.torch (.map kvs)) := by
  obtain ⟨ms, h1, h2⟩ := tripM_scalar np kvs h.1 [] (by simpa using h.2)
  refine ⟨.map ms, by simp [pack, h1, bind, Except.bind, pure, Except.pure], ?_⟩
  simp only [unpack, h2, bind, Except.bind, List.nil_append, comesBack, decodeMap]
  cases bget (comesBackM np.torch kvs) kTensor with
  | none => rfl
  | some _ =>
    rcases hm with hm | hm
    · simp only [bget_comesBackM_none np.torch kvs _ hm]
    · simp only [bget_comesBackM_none np.torch kvs _ hm]
      cases bget (comesBackM np.torch kvs) kData <;> rfl

/-- `{b"__tensor__": "numpy", "x": (1,)}` comes back as `{b"__tensor__": "numpy", "x": [1]}`. -/
example : ∃ m, pack (.map [(.bytes kTensor, .str "numpy"), (.str "x", .tup [.int 1])]) = .ok m ∧
    unpack Ex.np m = .ok (.map [(.bytes kTensor, .str "numpy"), (.str "x", .list [.int 1])]) := by
  refine C52_marked_partial Ex.np _ ⟨?_, by simp [keyEq, Obj.num?]⟩ (.inl ?_)
  · intro kv hkv
    simp only [List.mem_cons, List.not_mem_nil, or_false] at hkv
    rcases hkv with rfl | rfl
    · exact ⟨rfl, by simp [GoodObj], by simp [GoodObj]⟩
    · exact ⟨rfl, by simp [GoodObj], by simp [GoodObj, GoodObjL]⟩
  · intro kv hkv
    simp only [List.mem_cons, List.not_mem_nil, or_false] at hkv
    rcases hkv with rfl | rfl
    · simp only [ne_eq, Obj.bytes.injEq]; decide +kernel
    · simp

/-- C52 is false for every dict with `b"__tensor__"`, `b"data"` and a `b"dtype"` that is a string unknown to numpy: it is packed
without an error, and the file with it cannot be read (only a KeyError is caught). -/
theorem C52_marked_false (np : NP) (x y : Obj) (s : String) (e : Err) (hx : GoodObj np x) (hy : GoodObj np y)
    (hs : np.dtype s = .error e) :
    ∃ m, pack (.map [(.bytes kTensor, x), (.bytes kDtype, .str s), (.bytes kData, y)]) = .ok m ∧ unpack np m = .error e := by
  have n1 : ¬ kTensor = kDtype := by decide +kernel
  have n2 : ¬ kTensor = kData := by decide +kernel
  have n3 : ¬ kDtype = kData := by decide +kernel
  obtain ⟨ms, h1, h2⟩ := tripM_scalar np [(.bytes kTensor, x), (.bytes kDtype, .str s), (.bytes kData, y)] (by
    intro kv hkv
    simp only [List.mem_cons, List.not_mem_nil, or_false] at hkv
    rcases hkv with rfl | rfl | rfl
    · exact ⟨rfl, by simp [GoodObj], hx⟩
    · exact ⟨rfl, by simp [GoodObj], by simp [GoodObj]⟩
    · exact ⟨rfl, by simp [GoodObj], hy⟩) [] (by simp [keyEq, Obj.num?, n1, n2, n3])
  refine ⟨.map ms, by simp [pack, h1, bind, Except.bind, pure, Except.pure], ?_⟩
  simp only [unpack, h2, bind, Except.bind, List.nil_append, decodeMap, comesBackM, comesBackP, bget, n1, n2, n3, if_true,
    if_false, comesBack, hs]

/-- The dict `{b"__tensor__": True, b"dtype": "half", b"data": [1]}`. -/
example : GoodObj Ex.np (.bool true) ∧ GoodObj Ex.np (.list [.int 1]) ∧ Ex.np.dtype "half" = .error .typeError :=
  ⟨by simp [GoodObj], by simp [GoodObj, GoodObjL], rfl⟩

end HS
