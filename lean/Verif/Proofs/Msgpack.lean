import Verif.Spec.Msgpack
/-! # Lemmas about packing and unpacking -/
namespace HS

theorem fitsInt_iff (i : Int) : fitsInt i = true ↔ -(2 ^ 63) ≤ i ∧ i < 2 ^ 64 := by
  simp [fitsInt]

theorem fitsInt_nat (n : Nat) (h : n < 2 ^ 64) : fitsInt (n : Int) = true := by
  rw [fitsInt_iff]; omega

theorem packShape_ok : ∀ ns : List Nat, (∀ n ∈ ns, n < 2 ^ 64) → packShape ns = .ok (ns.map (fun (n : Nat) => MP.int n))
  | [], _ => rfl
  | n :: ns, h => by
    have h1 := fitsInt_nat n (h n (by simp))
    have h2 := packShape_ok ns (fun m hm => h m (by simp [hm]))
    simp [packShape, h1, h2, bind, Except.bind, pure, Except.pure]

theorem packShape_inv (ns : List Nat) : ∀ ms : List MP, packShape ns = .ok ms → ∀ n ∈ ns, n < 2 ^ 64 := by
  induction ns with
  | nil => intro _ _ n hn; simp at hn
  | cons n ns ih =>
    intro ms h m hm
    cases hf : fitsInt (n : Int) with
    | false => simp [packShape, hf, bind, Except.bind] at h
    | true =>
      cases h2 : packShape ns with
      | error e => simp [packShape, hf, h2, bind, Except.bind] at h
      | ok r =>
        rcases List.mem_cons.1 hm with hm | hm
        · have := ((fitsInt_iff _).1 hf).2
          rw [hm]
          exact Int.ofNat_lt.1 (by simpa using this)
        · exact ih r h2 m hm

theorem packL_shape : ∀ ns : List Nat, packL (ns.map (fun (n : Nat) => Obj.int n)) = packShape ns
  | [] => rfl
  | n :: ns => by
    simp only [List.map_cons, packL, packShape, pack, packL_shape ns]
    by_cases h : fitsInt (n : Int) = true <;> simp only [h, if_true, if_false, Bool.false_eq_true] <;> rfl

/-- what `packb` does with the dict returned by `encode` -/
theorem pack_encodeArr (kind : String) (a : Arr) : pack (encodeArr kind a) = packArr kind a := by
  simp only [encodeArr, pack, packM, packP, packArr, packL_shape, bind, Except.bind, pure, Except.pure]
  cases packShape a.shape <;> rfl

/-- `packb` on arrays and tensors is `packb` on what `encode` returns -/
theorem pack_nd (a : Arr) : pack (.nd a) = (do pack (← encodeObj (.nd a))) := by
  simp [pack, encodeObj, bind, Except.bind, pack_encodeArr]

theorem pack_tensor (t : Tens) : pack (.tensor t) = (do pack (← encodeObj (.tensor t))) := by
  simp only [pack, encodeObj]
  split
  · rfl
  · split
    · rfl
    · simp [bind, Except.bind, pack_encodeArr]

theorem unpackL_shape (np : NP) : ∀ ns : List Nat,
    unpackL np (ns.map (fun (n : Nat) => MP.int n)) = .ok (ns.map (fun (n : Nat) => Obj.int n))
  | [] => rfl
  | n :: ns => by simp [unpackL, unpack, unpackL_shape np ns, bind, Except.bind, pure, Except.pure]

theorem shapeOf_map : ∀ ns : List Nat, shapeOf (ns.map (fun (n : Nat) => Obj.int n)) = some ns
  | [] => rfl
  | n :: ns => by
    have : shapeOf (Obj.int (Int.ofNat n) :: ns.map (fun (n : Nat) => Obj.int n)) = some (n :: ns) := by
      simp only [shapeOf, shapeOf_map ns, Option.map_some]
    exact this

theorem unpack_arr (np : NP) (kind : String) (a : Arr) (h : GoodArr np a) :
    unpack np (.map [(.bin kTensor, .str kind), (.bin kDtype, .str a.dtype.str),
      (.bin kShape, .arr (a.shape.map (fun (n : Nat) => MP.int n))), (.bin kData, .bin a.data)]) = wrapTensor np (.str kind) a := by
  have e : unpackM np [(.bin kTensor, .str kind), (.bin kDtype, .str a.dtype.str),
      (.bin kShape, .arr (a.shape.map (fun (n : Nat) => MP.int n))), (.bin kData, .bin a.data)] [] =
      .ok [(.bytes kTensor, .str kind), (.bytes kDtype, .str a.dtype.str),
        (.bytes kShape, .list (a.shape.map (fun (n : Nat) => Obj.int n))), (.bytes kData, .bytes a.data)] := by
    simp only [unpackM, unpackP, unpack, unpackL_shape, bind, Except.bind, pure, Except.pure]
    have n1 : (kTensor == kDtype) = false := by decide +kernel
    have n2 : (kTensor == kShape) = false := by decide +kernel
    have n3 : (kTensor == kData) = false := by decide +kernel
    have n4 : (kDtype == kShape) = false := by decide +kernel
    have n5 : (kDtype == kData) = false := by decide +kernel
    have n6 : (kShape == kData) = false := by decide +kernel
    simp [Obj.hashable, oset, keyEq, Obj.num?, n1, n2, n3, n4, n5, n6]
  have m1 : ¬ kTensor = kData := by decide +kernel
  have m2 : ¬ kDtype = kData := by decide +kernel
  have m3 : ¬ kShape = kData := by decide +kernel
  have m4 : ¬ kTensor = kDtype := by decide +kernel
  have m5 : ¬ kTensor = kShape := by decide +kernel
  have m6 : ¬ kDtype = kShape := by decide +kernel
  simp only [unpack, e, bind, Except.bind, decodeMap, bget, m1, m2, m3, m4, m5, m6, if_true, if_false, h.named, shapeOf_map,
    mkArr, h.plain, h.full, Nat.lt_irrefl]
  rw [List.take_of_length_le (Nat.le_of_eq h.full)]
  rfl

theorem comesBack_scalar (t : Bool) (k : Obj) (h : k.isScalar = true) : comesBack t k = k := by
  cases k <;> first | rfl | exact (nomatch h)

theorem hashable_scalar (k : Obj) (h : k.isScalar = true) : k.hashable = true := by
  cases k <;> first | rfl | exact (nomatch h)

theorem oset_append : ∀ (d : List (Obj × Obj)) (k v : Obj), (∀ e ∈ d, keyEq e.1 k = false) → oset d k v = d ++ [(k, v)]
  | [], _, _, _ => rfl
  | (k', v') :: d, k, v, h => by
    have h1 := h (k', v') (by simp)
    simp only [oset, h1, Bool.false_eq_true, if_false, List.cons_append]
    rw [oset_append d k v (fun e he => h e (by simp [he]))]

theorem bget_none : ∀ (d : List (Obj × Obj)) (b : Bytes), (∀ e ∈ d, e.1 ≠ .bytes b) → bget d b = .none
  | [], _, _ => rfl
  | (k, v) :: d, b, h => by
    have h1 := h (k, v) (by simp)
    have h2 := bget_none d b (fun e he => h e (by simp [he]))
    cases k with
    | bytes b' =>
      have : ¬ b' = b := fun hb => h1 (by rw [hb])
      simp only [bget, this, if_false, h2]
    | _ => simp only [bget, h2]

theorem comesBackM_keys (t : Bool) : ∀ kvs : List (Obj × Obj), (comesBackM t kvs).map Prod.fst = kvs.map Prod.fst
  | [] => rfl
  | (k, v) :: kvs => by simp [comesBackM, comesBackP, comesBackM_keys t kvs]

theorem good_keys (np : NP) : ∀ kvs : List (Obj × Obj), GoodObjM np kvs → ∀ k ∈ kvs.map Prod.fst, k ≠ .bytes kTensor
  | [], _, k, hk => by simp at hk
  | (k0, v) :: kvs, h, k, hk => by
    rw [GoodObjM] at h
    have h1 := h.1; rw [GoodObjP] at h1
    rcases List.mem_cons.1 hk with rfl | hk
    · exact h1.2.1
    · exact good_keys np kvs h.2 k hk

theorem wrap_numpy (np : NP) (a : Arr) : wrapTensor np (.str "numpy") a = .ok (.nd a) := by
  simp [wrapTensor]

theorem wrap_torch (np : NP) (a : Arr) (h : np.torch = true → np.torchOk a.dtype = true) :
    wrapTensor np (.str "torch") a = .ok (if np.torch then .tensor ⟨a, true, false, "cpu"⟩ else .nd a) := by
  cases ht : np.torch with
  | false => simp [wrapTensor, ht]
  | true => simp [wrapTensor, ht, h ht]

mutual
theorem trip (np : NP) : ∀ o : Obj, GoodObj np o → ∃ m, pack o = .ok m ∧ unpack np m = .ok (comesBack np.torch o)
  | .none, _ => ⟨_, rfl, rfl⟩
  | .bool _, _ => ⟨_, rfl, rfl⟩
  | .flt _, _ => ⟨_, rfl, rfl⟩
  | .str _, _ => ⟨_, rfl, rfl⟩
  | .bytes _, _ => ⟨_, rfl, rfl⟩
  | .int i, h => by
    rw [GoodObj] at h
    exact ⟨.int i, by simp [pack, (fitsInt_iff i).2 h], rfl⟩
  | .list xs, h => by
    rw [GoodObj] at h
    obtain ⟨ms, h1, h2⟩ := tripL np xs h
    exact ⟨.arr ms, by simp [pack, h1, bind, Except.bind, pure, Except.pure],
      by simp [unpack, h2, comesBack, bind, Except.bind, pure, Except.pure]⟩
  | .tup xs, h => by
    rw [GoodObj] at h
    obtain ⟨ms, h1, h2⟩ := tripL np xs h
    exact ⟨.arr ms, by simp [pack, h1, bind, Except.bind, pure, Except.pure],
      by simp [unpack, h2, comesBack, bind, Except.bind, pure, Except.pure]⟩
  | .map kvs, h => by
    rw [GoodObj] at h
    obtain ⟨ms, h1, h2⟩ := tripM np kvs h.1 [] (by simpa using h.2)
    refine ⟨.map ms, by simp [pack, h1, bind, Except.bind, pure, Except.pure], ?_⟩
    have h3 : bget (comesBackM np.torch kvs) kTensor = .none := by
      apply bget_none
      intro e he
      apply good_keys np kvs h.1
      rw [← comesBackM_keys np.torch kvs]
      exact List.mem_map_of_mem he
    simp [unpack, h2, bind, Except.bind, decodeMap, h3, comesBack]
  | .nd a, h => by
    rw [GoodObj] at h
    refine ⟨_, by simp only [pack, packArr, packShape_ok a.shape h.dims, bind, Except.bind, pure, Except.pure]; rfl, ?_⟩
    rw [unpack_arr np "numpy" a h, wrap_numpy]; rfl
  | .tensor t, h => by
    rw [GoodObj] at h
    obtain ⟨h1, h2, h3, h4⟩ := h
    refine ⟨_, by simp only [pack, h2, h3, packArr, packShape_ok t.arr.shape h1.dims, bind, Except.bind, pure, Except.pure,
      Bool.not_true, Bool.false_eq_true, if_false]; rfl, ?_⟩
    rw [unpack_arr np "torch" t.arr h1, wrap_torch np _ h4]; rfl
  | .other _, h => by rw [GoodObj] at h; exact h.elim
theorem tripL (np : NP) : ∀ xs : List Obj, GoodObjL np xs → ∃ ms, packL xs = .ok ms ∧ unpackL np ms = .ok (comesBackL np.torch xs)
  | [], _ => ⟨[], rfl, rfl⟩
  | x :: xs, h => by
    rw [GoodObjL] at h
    obtain ⟨m, h1, h2⟩ := trip np x h.1
    obtain ⟨ms, h3, h4⟩ := tripL np xs h.2
    exact ⟨m :: ms, by simp [packL, h1, h3, bind, Except.bind, pure, Except.pure],
      by simp [unpackL, h2, h4, comesBackL, bind, Except.bind, pure, Except.pure]⟩
theorem tripM (np : NP) : ∀ kvs : List (Obj × Obj), GoodObjM np kvs → ∀ d : List (Obj × Obj),
    (d ++ kvs).Pairwise (fun a b => keyEq a.1 b.1 = false) →
    ∃ ms, packM kvs = .ok ms ∧ unpackM np ms d = .ok (d ++ comesBackM np.torch kvs)
  | [], _, d, _ => ⟨[], rfl, by simp [unpackM, comesBackM]⟩
  | kv :: kvs, h, d, hp => by
    rw [GoodObjM] at h
    obtain ⟨m, h1, h2, h5, h6⟩ := tripP np kv h.1
    have hs : ∀ e ∈ d, keyEq e.1 kv.1 = false := fun e he =>
      (List.pairwise_append.1 hp).2.2 e he kv (by simp)
    have hp' : ((d ++ [comesBackP np.torch kv]) ++ kvs).Pairwise (fun a b => keyEq a.1 b.1 = false) := by
      rw [List.append_assoc]
      rw [List.pairwise_append] at hp ⊢
      refine ⟨hp.1, ?_, ?_⟩
      · have := hp.2.1
        rw [List.pairwise_cons] at this
        show List.Pairwise _ (comesBackP np.torch kv :: kvs)
        rw [List.pairwise_cons]
        exact ⟨fun a ha => by rw [h6]; exact this.1 a ha, this.2⟩
      · intro a ha b hb
        rcases List.mem_cons.1 hb with rfl | hb
        · rw [h6]; exact hs a ha
        · exact hp.2.2 a ha b (List.mem_cons_of_mem _ hb)
    obtain ⟨ms, h3, h4⟩ := tripM np kvs h.2 _ hp'
    refine ⟨m :: ms, by simp [packM, h1, h3, bind, Except.bind, pure, Except.pure], ?_⟩
    have h7 : oset d (comesBackP np.torch kv).1 (comesBackP np.torch kv).2 = d ++ [comesBackP np.torch kv] :=
      oset_append d _ _ (fun e he => by rw [h6]; exact hs e he)
    simp only [unpackM, h2, h5, h7, h4, bind, Except.bind, if_true, comesBackM, List.append_assoc, List.cons_append, List.nil_append]
theorem tripP (np : NP) : ∀ kv : Obj × Obj, GoodObjP np kv →
    ∃ m, packP kv = .ok m ∧ unpackP np m = .ok (comesBackP np.torch kv) ∧ (comesBackP np.torch kv).1.hashable = true ∧
      (comesBackP np.torch kv).1 = kv.1
  | (k, v), h => by
    rw [GoodObjP] at h
    obtain ⟨hs, _, hk, hv⟩ := h
    obtain ⟨m1, h1, h2⟩ := trip np k hk
    obtain ⟨m2, h3, h4⟩ := trip np v hv
    refine ⟨(m1, m2), by simp [packP, h1, h3, bind, Except.bind, pure, Except.pure], ?_, hashable_scalar k hs, rfl⟩
    rw [comesBack_scalar _ k hs] at h2
    simp [unpackP, h2, h4, comesBackP, bind, Except.bind, pure, Except.pure]
end

mutual
theorem comesBack_same : ∀ o : Obj, NoTuples o → CanPack o → comesBack true o = o
  | .none, _, _ | .bool _, _, _ | .int _, _, _ | .flt _, _, _ | .str _, _, _ | .bytes _, _, _ | .nd _, _, _ | .other _, _, _ => rfl
  | .tup _, h, _ => by rw [NoTuples] at h; exact h.elim
  | .list xs, h, c => by rw [NoTuples] at h; rw [CanPack] at c; rw [comesBack, comesBackL_same xs h c]
  | .map kvs, h, c => by rw [NoTuples] at h; rw [CanPack] at c; rw [comesBack, comesBackM_same kvs h c]
  | .tensor ⟨a, n, g, dev⟩, h, c => by
    rw [NoTuples] at h; rw [CanPack] at c
    have h1 : dev = "cpu" := h
    have h2 : g = false := c.1
    have h3 : n = true := c.2.1
    subst h1; subst h2; subst h3; rfl
theorem comesBackL_same : ∀ xs : List Obj, NoTuplesL xs → CanPackL xs → comesBackL true xs = xs
  | [], _, _ => rfl
  | x :: xs, h, c => by
    rw [NoTuplesL] at h; rw [CanPackL] at c
    rw [comesBackL, comesBackL_same xs h.2 c.2, comesBack_same x h.1 c.1]
theorem comesBackM_same : ∀ kvs : List (Obj × Obj), NoTuplesM kvs → CanPackM kvs → comesBackM true kvs = kvs
  | [], _, _ => rfl
  | kv :: kvs, h, c => by
    rw [NoTuplesM] at h; rw [CanPackM] at c
    rw [comesBackM, comesBackM_same kvs h.2 c.2, comesBackP_same kv h.1 c.1]
theorem comesBackP_same : ∀ kv : Obj × Obj, NoTuplesP kv → CanPackP kv → comesBackP true kv = kv
  | (k, v), h, c => by
    rw [NoTuplesP] at h; rw [CanPackP] at c
    rw [comesBackP, comesBack_same v h c.2]
end

mutual
theorem pack_ok : ∀ o : Obj, CanPack o → ∃ m, pack o = .ok m
  | .none, _ | .bool _, _ | .flt _, _ | .str _, _ | .bytes _, _ => ⟨_, rfl⟩
  | .int i, h => by rw [CanPack] at h; exact ⟨.int i, by simp [pack, (fitsInt_iff i).2 h]⟩
  | .list xs, h => by
    rw [CanPack] at h
    obtain ⟨ms, h1⟩ := packL_ok xs h
    exact ⟨.arr ms, by simp [pack, h1, bind, Except.bind, pure, Except.pure]⟩
  | .tup xs, h => by
    rw [CanPack] at h
    obtain ⟨ms, h1⟩ := packL_ok xs h
    exact ⟨.arr ms, by simp [pack, h1, bind, Except.bind, pure, Except.pure]⟩
  | .map kvs, h => by
    rw [CanPack] at h
    obtain ⟨ms, h1⟩ := packM_ok kvs h
    exact ⟨.map ms, by simp [pack, h1, bind, Except.bind, pure, Except.pure]⟩
  | .nd a, h => by
    rw [CanPack] at h
    exact ⟨_, by simp only [pack, packArr, packShape_ok a.shape h, bind, Except.bind, pure, Except.pure]; rfl⟩
  | .tensor t, h => by
    rw [CanPack] at h
    exact ⟨_, by simp only [pack, h.1, h.2.1, packArr, packShape_ok t.arr.shape h.2.2, bind, Except.bind, pure, Except.pure,
      Bool.not_true, Bool.false_eq_true, if_false]; rfl⟩
  | .other _, h => by rw [CanPack] at h; exact h.elim
theorem packL_ok : ∀ xs : List Obj, CanPackL xs → ∃ ms, packL xs = .ok ms
  | [], _ => ⟨[], rfl⟩
  | x :: xs, h => by
    rw [CanPackL] at h
    obtain ⟨m, h1⟩ := pack_ok x h.1
    obtain ⟨ms, h2⟩ := packL_ok xs h.2
    exact ⟨m :: ms, by simp [packL, h1, h2, bind, Except.bind, pure, Except.pure]⟩
theorem packM_ok : ∀ kvs : List (Obj × Obj), CanPackM kvs → ∃ ms, packM kvs = .ok ms
  | [], _ => ⟨[], rfl⟩
  | kv :: kvs, h => by
    rw [CanPackM] at h
    obtain ⟨m, h1⟩ := packP_ok kv h.1
    obtain ⟨ms, h2⟩ := packM_ok kvs h.2
    exact ⟨m :: ms, by simp [packM, h1, h2, bind, Except.bind, pure, Except.pure]⟩
theorem packP_ok : ∀ kv : Obj × Obj, CanPackP kv → ∃ m, packP kv = .ok m
  | (k, v), h => by
    rw [CanPackP] at h
    obtain ⟨m, h1⟩ := pack_ok k h.1
    obtain ⟨m', h2⟩ := pack_ok v h.2
    exact ⟨(m, m'), by simp [packP, h1, h2, bind, Except.bind, pure, Except.pure]⟩
end

mutual
theorem pack_inv : ∀ (o : Obj) (m : MP), pack o = .ok m → CanPack o
  | .none, _, _ | .bool _, _, _ | .flt _, _, _ | .str _, _, _ | .bytes _, _, _ => by rw [CanPack]; trivial
  | .int i, m, h => by
    rw [CanPack, ← fitsInt_iff]
    cases hf : fitsInt i with
    | true => rfl
    | false => simp [pack, hf] at h
  | .list xs, m, h => by
    rw [CanPack]
    simp only [pack, bind, Except.bind] at h
    cases h1 : packL xs with
    | error e => rw [h1] at h; exact (nomatch h)
    | ok ms => exact packL_inv xs ms h1
  | .tup xs, m, h => by
    rw [CanPack]
    simp only [pack, bind, Except.bind] at h
    cases h1 : packL xs with
    | error e => rw [h1] at h; exact (nomatch h)
    | ok ms => exact packL_inv xs ms h1
  | .map kvs, m, h => by
    rw [CanPack]
    simp only [pack, bind, Except.bind] at h
    cases h1 : packM kvs with
    | error e => rw [h1] at h; exact (nomatch h)
    | ok ms => exact packM_inv kvs ms h1
  | .nd a, m, h => by
    rw [CanPack]
    simp only [pack, packArr, bind, Except.bind] at h
    cases h1 : packShape a.shape with
    | error e => rw [h1] at h; exact (nomatch h)
    | ok ms => exact packShape_inv _ ms h1
  | .tensor t, m, h => by
    rw [CanPack]
    simp only [pack, packArr, bind, Except.bind] at h
    cases hg : t.requiresGrad with
    | true => simp [hg] at h
    | false =>
      cases hn : t.numpyable with
      | false => simp [hg, hn] at h
      | true =>
        cases h1 : packShape t.arr.shape with
        | error e => simp [hg, hn, h1] at h
        | ok ms => exact ⟨rfl, rfl, packShape_inv _ ms h1⟩
  | .other _, m, h => by simp [pack] at h
theorem packL_inv : ∀ (xs : List Obj) (ms : List MP), packL xs = .ok ms → CanPackL xs
  | [], _, _ => by rw [CanPackL]; trivial
  | x :: xs, ms, h => by
    rw [CanPackL]
    simp only [packL, bind, Except.bind] at h
    cases h1 : pack x with
    | error e => rw [h1] at h; exact (nomatch h)
    | ok m =>
      cases h2 : packL xs with
      | error e => rw [h1, h2] at h; exact (nomatch h)
      | ok ms => exact ⟨pack_inv x m h1, packL_inv xs ms h2⟩
theorem packM_inv : ∀ (kvs : List (Obj × Obj)) (ms : List (MP × MP)), packM kvs = .ok ms → CanPackM kvs
  | [], _, _ => by rw [CanPackM]; trivial
  | x :: xs, ms, h => by
    rw [CanPackM]
    simp only [packM, bind, Except.bind] at h
    cases h1 : packP x with
    | error e => rw [h1] at h; exact (nomatch h)
    | ok m =>
      cases h2 : packM xs with
      | error e => rw [h1, h2] at h; exact (nomatch h)
      | ok ms => exact ⟨packP_inv x m h1, packM_inv xs ms h2⟩
theorem packP_inv : ∀ (kv : Obj × Obj) (m : MP × MP), packP kv = .ok m → CanPackP kv
  | (k, v), m, h => by
    rw [CanPackP]
    simp only [packP, bind, Except.bind] at h
    cases h1 : pack k with
    | error e => rw [h1] at h; exact (nomatch h)
    | ok m1 =>
      cases h2 : pack v with
      | error e => rw [h1, h2] at h; exact (nomatch h)
      | ok m2 => exact ⟨pack_inv k m1 h1, pack_inv v m2 h2⟩
end

theorem comesBackL_get (t : Bool) : ∀ (xs : List Obj) (n : Nat), (comesBackL t xs)[n]? = xs[n]?.map (comesBack t)
  | [], n => by simp [comesBackL]
  | x :: xs, 0 => by simp [comesBackL]
  | x :: xs, n + 1 => by simp [comesBackL, comesBackL_get t xs n]

theorem comesBackM_get (t : Bool) (k : Obj) : ∀ kvs : List (Obj × Obj),
    (comesBackM t kvs).find? (fun e => keyEq e.1 k) = (kvs.find? (fun e => keyEq e.1 k)).map (comesBackP t)
  | [] => rfl
  | (k', v) :: kvs => by
    simp only [comesBackM, comesBackP, List.find?]
    cases keyEq k' k with
    | true => rfl
    | false => exact comesBackM_get t k kvs

theorem comesBack_at (t : Bool) : ∀ (p : List OStep) (o : Obj), (comesBack t o).at? p = (o.at? p).map (comesBack t)
  | [], o => by cases o <;> rfl
  | .idx n :: p, o => by
    cases o with
    | list xs | tup xs =>
      simp only [comesBack, Obj.at?, comesBackL_get]
      cases xs[n]? with
      | none => rfl
      | some x => exact comesBack_at t p x
    | tensor x => cases t <;> rfl
    | _ => rfl
  | .key k :: p, o => by
    cases o with
    | map kvs =>
      simp only [comesBack, Obj.at?, comesBackM_get]
      cases kvs.find? (fun e => keyEq e.1 k) with
      | none => rfl
      | some e => obtain ⟨k', v⟩ := e; exact comesBack_at t p v
    | tensor x => cases t <;> rfl
    | _ => rfl

end HS
