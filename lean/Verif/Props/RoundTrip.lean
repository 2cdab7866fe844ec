import Verif.Proofs.Serde
import Verif.Spec.Example
/-!
# Properties of dumping and loading: C01, C02, C24
-/
namespace HS

/-! ## C01: dump/load round trip -/

theorem schedFind_empty (env : String → ClsInfo) (sch : Option RegD) (h : sch = .none ∨ sch = some []) (elide : Bool)
    (file : String) : schedFind (dumpCfg env sch elide) file = .ok .none := by
  rcases h with rfl | rfl
  · rfl
  · simp only [schedFind, dumpCfg, Option.map]
    cases pySplit '.' file <;> simp [Reg.find]

theorem dumpCfg_ok (env : String → ClsInfo) (sch : Option RegD) (h : sch = .none ∨ sch = some []) (elide : Bool) :
    DumpCfg (dumpCfg env sch elide) := ⟨rfl, rfl, rfl, schedFind_empty env sch h elide⟩

/-- C01, more generally: for objects such as a load returns, where a tuple may be too short or a Literal hold a value that is
only `==` to a listed one. -/
theorem C01_storable_partial (w : World) (sch : Option RegD) (hs : sch = .none ∨ sch = some []) (ty : PyTy) (v : Val)
    (hty : TyOK w.ext ty) (henv : EnvOK w.env ty) (hv : Storable ty v) :
    ∃ doc, typedDump w.env sch false v = .ok (doc, []) ∧
      ∀ (allowMissing file ig : Bool) (ron : RonParse),
        typedLoad (w.dcfg allowMissing file) ron .none ig ty doc = .ok ⟨v, [], []⟩ := by
  have hd := dumpCfg_ok w.env sch hs false
  obtain ⟨d, hdump, _⟩ := rt (dc := w.dcfg false false) hd rfl ty hty henv v "" hv.1 hv.2.1
  refine ⟨ronTrip d, by simp [typedDump, hdump, bind, Except.bind, pure, Except.pure], ?_⟩
  intro am file ig ron
  obtain ⟨d', hdump', hload, _⟩ := rt (dc := w.dcfg am file) hd rfl ty hty henv v "" hv.1 hv.2.1
  rw [hdump] at hdump'
  cases hdump'
  simp [typedLoad, hload, regAll, lazyAll, lazyInto, bind, Except.bind, pure, Except.pure]

/-- C01. For every supported class and every well-typed object of it, the dump succeeds, writes no blob, and loading it
gives back that very object, with no schedule and no lazy field; whatever the loader's flags, and whether or not a
(schedule-free) registry is passed to the dump. Missing: the classes outside `TyOK`, among them those with a field whose name starts
with an underscore, for which it is false (`C01_underscore_false`). -/
theorem C01_round_trip_partial (w : World) (sch : Option RegD) (hs : sch = .none ∨ sch = some []) (ty : PyTy) (v : Val)
    (hty : TyOK w.ext ty) (henv : EnvOK w.env ty) (hv : HasType false ty v) :
    ∃ doc, typedDump w.env sch false v = .ok (doc, []) ∧
      ∀ (allowMissing file ig : Bool) (ron : RonParse),
        typedLoad (w.dcfg allowMissing file) ron .none ig ty doc = .ok ⟨v, [], []⟩ :=
  C01_storable_partial w sch hs ty v hty henv (strict_firm w.ext ty v hty hv)

/-- C01 for the API functions: `loads(T, dumps(v)) = v` and `load(T, file written by dump)= v`. -/
theorem C01_api_partial (w : World) (ty : PyTy) (v : Val)
    (hty : TyOK w.ext ty) (henv : EnvOK w.env ty) (hv : HasType false ty v) :
    ∃ doc, typedDump w.env .none false v = .ok (doc, []) ∧
      hsLoads w ty doc .none false = .ok v ∧ hsLoad w ty (some doc) .none = .ok v := by
  obtain ⟨doc, h1, h2⟩ := C01_round_trip_partial w .none (.inl rfl) ty v hty henv hv
  refine ⟨doc, h1, ?_, ?_⟩ <;> simp [hsLoads, hsLoad, h2, bind, Except.bind, pure, Except.pure]

/-- a class with every supported construct, versioned, and an object of it -/
example : TyOK Ex.world.ext Ex.cfgTy ∧ EnvOK Ex.world.env Ex.cfgTy ∧ HasType false Ex.cfgTy Ex.cfgVal :=
  ⟨Ex.cfgTy_ok, Ex.cfgEnv_ok, Ex.cfgVal_ok⟩

/-- C01: two different objects never have the same dump -/
theorem C01_dump_injective_partial (w : World) (ty : PyTy) (v v' : Val) (doc : Val)
    (hty : TyOK w.ext ty) (henv : EnvOK w.env ty) (hv : HasType false ty v) (hv' : HasType false ty v')
    (h : typedDump w.env .none false v = .ok (doc, [])) (h' : typedDump w.env .none false v' = .ok (doc, [])) : v = v' := by
  obtain ⟨d, h1, h2, _⟩ := C01_api_partial w ty v hty henv hv
  obtain ⟨d', h1', h2', _⟩ := C01_api_partial w ty v' hty henv hv'
  rw [h] at h1; rw [h'] at h1'
  cases h1; cases h1'
  rw [h2] at h2'
  exact Except.ok.inj h2'

/-! ## C02: enums -/

theorem enumByValue_iff (cls : String) (x : Val) (n : String) (w : Val) : ∀ ms : List (String × Val),
    enumByValue cls x ms = .ok (.enm cls n w) ↔
      ∃ pre post, ms = pre ++ (n, w) :: post ∧ pyEq x w = true ∧ ∀ m ∈ pre, pyEq x m.2 = false := by
  intro ms
  induction ms with
  | nil => simp [enumByValue]
  | cons m ms ih =>
    obtain ⟨n', w'⟩ := m
    simp only [enumByValue]
    cases h : pyEq x w' with
    | true =>
      simp only [if_true, Except.ok.injEq, Val.enm.injEq, true_and]
      constructor
      · rintro ⟨rfl, rfl⟩; exact ⟨[], ms, rfl, h, by simp⟩
      · rintro ⟨pre, post, he, _, hpre⟩
        cases pre with
        | nil => simp at he; exact he.1
        | cons p pre =>
          simp only [List.cons_append, List.cons.injEq] at he
          have := hpre p (by simp)
          rw [← he.1] at this
          simp [h] at this
    | false =>
      simp only [Bool.false_eq_true, if_false, ih]
      constructor
      · rintro ⟨pre, post, rfl, hx, hpre⟩
        refine ⟨(n', w') :: pre, post, rfl, hx, ?_⟩
        intro m hm
        rcases List.mem_cons.1 hm with rfl | hm
        · exact h
        · exact hpre m hm
      · rintro ⟨pre, post, he, hx, hpre⟩
        cases pre with
        | nil =>
          simp only [List.nil_append, List.cons.injEq, Prod.mk.injEq] at he
          obtain ⟨⟨_, rfl⟩, _⟩ := he
          simp [h] at hx
        | cons p pre =>
          simp only [List.cons_append, List.cons.injEq] at he
          exact ⟨pre, post, he.2, hx, fun m hm => hpre m (List.mem_cons_of_mem _ hm)⟩

/-- C02, exact characterisation: a member is restored after dump and load iff it is the first member whose *value* equals
its *name*. (The name is written, the value is looked up.) -/
theorem C02_enum_iff (w : World) (cls : String) (ms : List (String × Val)) (n : String) (x : Val) (am file ig : Bool) :
    (∃ doc, typedDump w.env .none false (.enm cls n x) = .ok (doc, []) ∧
      fromDict (w.dcfg am file) (.enum cls ms) ig "" doc = .ok (.enm cls n x, []))
    ↔ ∃ pre post, ms = pre ++ (n, x) :: post ∧ x = .str n ∧ ∀ m ∈ pre, m.2 ≠ .str n := by
  have hd : typedDump w.env .none false (.enm cls n x) = .ok (.str n, []) := by
    simp [typedDump, asdict, serHooks_id (dumpCfg_ok w.env .none (.inl rfl) false).sched, bind, Except.bind, pure,
      Except.pure, ronTrip]
  have hs : ∀ y : Val, pyEq (.str n) y = true ↔ y = .str n := by
    intro y
    cases y <;> simp [pyEq]
    exact eq_comm
  have hs' : ∀ y : Val, pyEq (.str n) y = false ↔ y ≠ .str n := by
    intro y
    rw [ne_eq, ← hs y]; simp
  have hl : fromDict (w.dcfg am file) (.enum cls ms) ig "" (.str n) = .ok (.enm cls n x, [])
      ↔ enumByValue cls (.str n) ms = .ok (.enm cls n x) := by
    simp only [fromDict, bind, Except.bind, pure, Except.pure]
    split <;> simp_all
  constructor
  · rintro ⟨doc, h1, h2⟩
    rw [hd] at h1
    cases h1
    rw [hl, enumByValue_iff] at h2
    simpa only [hs, hs'] using h2
  · intro h
    refine ⟨_, hd, ?_⟩
    rw [hl, enumByValue_iff]
    simpa only [hs, hs'] using h

/-- the two sides of C02: `class Opt(Enum): adam = "adam"` round-trips ... -/
example : ∃ pre post, [("adam", Val.str "adam"), ("sgd", .str "sgd")] = pre ++ ("sgd", .str "sgd") :: post ∧
    Val.str "sgd" = .str "sgd" ∧ ∀ m ∈ pre, m.2 ≠ .str "sgd" :=
  ⟨[("adam", .str "adam")], [], rfl, rfl, by simp⟩

/-- C02 is false of the code: `class Color(Enum): RED = 1` in a dataclass field cannot be loaded back ... -/
theorem C02_false (w : World) :
    let ty := PyTy.data "C" [.mk "c" (.enum "Color" [("RED", .int 1)]) .none] .none
    let v := Val.inst "C" [("c", .enm "Color" "RED" (.int 1))]
    let w : World := { w with env := fun _ => ⟨.none, [("c", .none)]⟩ }
    HasType false ty v ∧ EnvOK w.env ty ∧ ∃ doc, typedDump w.env .none false v = .ok (doc, []) ∧
      hsLoads w ty doc .none false = .error .valueError := by
  intro ty v w
  refine ⟨?_, ?_, .dict [("!__name__", .str "C"), ("c", .str "RED")], rfl, rfl⟩
  · simp only [ty, v, HasType, HasFields, HasField]
    exact ⟨_, rfl, _, _, rfl, ⟨rfl, _, _, List.mem_singleton.2 rfl, rfl⟩, rfl⟩
  · simp [ty, EnvOK, EnvOKf, EnvOKf1, w, Fld.name, Fld.dflt]

/-- ... and with `class E(Enum): A = "B"; B = "A"` the *other* member comes back, silently. -/
theorem C02_false_swapped (w : World) (am file ig : Bool) :
    let ms := [("A", Val.str "B"), ("B", Val.str "A")]
    ∃ doc, typedDump w.env .none false (.enm "E" "A" (.str "B")) = .ok (doc, []) ∧
      fromDict (w.dcfg am file) (.enum "E" ms) ig "" doc = .ok (.enm "E" "B" (.str "A"), []) :=
  ⟨.str "A", rfl, rfl⟩

/-! ## C24: the version is recorded -/

/-- one step into a value or document: attribute / dict key, or list index -/
inductive Step where
  | key (k : String)
  | idx (i : Nat)

/-- the part of an *object* that a step leads to -/
def Val.sub1 : Val → Step → Option Val
  | .inst _ kvs, .key k => dget kvs k
  | .dict d, .key k => dget d k
  | .list xs, .idx i => xs[i]?
  | .tup xs, .idx i => xs[i]?
  | _, _ => .none

def Val.sub (v : Val) : List Step → Option Val
  | [] => some v
  | s :: ss => (v.sub1 s).bind (fun x => x.sub ss)

theorem asdictD_spec {c : SerCfg} {file : String} : ∀ {kvs ws bs}, asdictD c file kvs = .ok (ws, bs) →
    dkeys ws = dkeys kvs ∧ ∀ k x, dget kvs k = some x → ∃ w bs', dget ws k = some w ∧
      asdict c (joinPath file k) x = .ok (w, bs') := by
  intro kvs
  induction kvs with
  | nil => intro ws bs h; simp [asdictD] at h; simp [h.1, dkeys]
  | cons kv kvs ih =>
    obtain ⟨k0, x0⟩ := kv
    intro ws bs h
    simp only [asdictD, asdictP, bind, Except.bind, pure, Except.pure] at h
    split at h
    · simp at h
    · rename_i a ha
      split at ha
      · simp at ha
      · rename_i y hy
        simp only [Except.ok.injEq] at ha
        subst ha
        split at h
        · simp at h
        · rename_i z hz
          obtain ⟨rest, bs'⟩ := z
          simp only [Except.ok.injEq, Prod.mk.injEq] at h
          obtain ⟨rfl, rfl⟩ := h
          obtain ⟨hk, hg⟩ := ih hz
          refine ⟨by simpa [dkeys] using hk, ?_⟩
          intro k x hx
          by_cases he : k0 = k
          · subst he
            simp only [dget, if_true, Option.some.injEq] at hx
            subst hx
            exact ⟨y.1, y.2, by simp [dget], hy⟩
          · simp only [dget, if_neg he] at hx ⊢
            exact hg k x hx

theorem asdictL_spec {c : SerCfg} {file : String} : ∀ {xs j ws bs}, asdictL c file j xs = .ok (ws, bs) →
    ∀ (i : Nat) (x : Val), xs[i]? = some x → ∃ w p bs', ws[i]? = some w ∧ asdict c p x = .ok (w, bs') := by
  intro xs
  induction xs with
  | nil => intro j ws bs h i x hx; simp at hx
  | cons x0 xs ih =>
    intro j ws bs h i x hx
    simp only [asdictL, bind, Except.bind, pure, Except.pure] at h
    split at h
    · simp at h
    · rename_i y hy
      split at h
      · simp at h
      · rename_i z hz
        simp only [Except.ok.injEq, Prod.mk.injEq] at h
        obtain ⟨rfl, rfl⟩ := h
        cases i with
        | zero =>
          simp only [List.getElem?_cons_zero, Option.some.injEq] at hx
          subst hx
          exact ⟨y.1, _, y.2, by simp, hy⟩
        | succ i =>
          simp only [List.getElem?_cons_succ] at hx ⊢
          exact ih hz i x hx

theorem dget_ronTripD : ∀ (d : List (String × Val)) (k : String), dget (ronTripD d) k = (dget d k).map ronTrip := by
  intro d k
  induction d with
  | nil => simp [ronTripD]
  | cons kv d ih =>
    obtain ⟨k', v⟩ := kv
    by_cases h : k' = k <;> simp [ronTripD, ronTripP, dget, h, ih]

theorem getElem?_ronTripL : ∀ (xs : List Val) (i : Nat), (ronTripL xs)[i]? = xs[i]?.map ronTrip := by
  intro xs
  induction xs with
  | nil => simp [ronTripL]
  | cons x xs ih => intro i; cases i <;> simp [ronTripL, ih]

/-- what the document of an instance of class `cls` with attributes `kvs` looks like -/
def VersionedHeader (env : String → ClsInfo) (cls : String) (attrs : List String) (doc : Val) : Prop :=
  ∃ d, doc = .dict d ∧ match (env cls).version with
    | some n => dkeys d = "!__name__" :: "version" :: attrs ∧ dget d "version" = some (.int n)
    | .none => dkeys d = "!__name__" :: attrs

/-- attribute names are distinct identifiers other than the reserved ones -/
def AttrsOK (v : Val) : Prop :=
  ∀ p cls kvs, v.sub p = some (.inst cls kvs) → (dkeys kvs).Nodup ∧ "version" ∉ dkeys kvs ∧ NAME_KEY ∉ dkeys kvs

theorem AttrsOK.sub {v x : Val} {s : Step} (h : AttrsOK v) (hx : v.sub1 s = some x) : AttrsOK x := by
  intro p cls kvs hp
  exact h (s :: p) cls kvs (by simp [Val.sub, hx, hp])

theorem C24_aux {c : SerCfg} (hc : DumpCfg c) (hel : c.elide = false) : ∀ (p : List Step) (v : Val) (file : String) (w : Val)
    (bs : List (String × Val)), AttrsOK v → asdict c file v = .ok (w, bs) → ∀ cls kvs, v.sub p = some (.inst cls kvs) →
    ∃ doc, (ronTrip w).sub p = some doc ∧ VersionedHeader c.env cls (dkeys kvs) doc := by
  -- the document of an instance
  have key : ∀ (n : String) (kvs : List (String × Val)) (file : String) (w : Val) (bs : List (String × Val)),
      AttrsOK (.inst n kvs) → asdict c file (.inst n kvs) = .ok (w, bs) →
      ∃ as bs', asdictD c file kvs = .ok (as, bs') ∧
        w = .ntup n (match (c.env n).version with | some m => ("version", .int m) :: as | .none => as) := by
    intro n kvs file w bs hok h
    simp only [asdict, serHooks_id hc.sched file (.inst n kvs) (by intro _ _; simp), bind, Except.bind, pure,
      Except.pure] at h
    split at h
    · simp at h
    · rename_i y hy
      obtain ⟨as, bs'⟩ := y
      refine ⟨as, bs', hy, ?_⟩
      obtain ⟨h1, h2, _⟩ := hok [] n kvs rfl
      rw [← (asdictD_spec hy).1] at h1 h2
      simp only [packAttrs, modifyAttrs, hel, hc.named, hc.versioned] at h
      cases hv : (c.env n).version with
      | none =>
        simp only [hv] at h ⊢
        cases hnt : ntNamesOk as <;> simp [hnt] at h
        exact h.1.symm
      | some m =>
        simp only [hv, foldl_dset_version _ _ h1 h2] at h ⊢
        cases hnt : ntNamesOk (("version", Val.int m) :: as) <;> simp [hnt] at h
        exact h.1.symm
  intro p
  induction p with
  | nil =>
    intro v file w bs hok h cls kvs hv
    simp only [Val.sub, Option.some.injEq] at hv
    subst hv
    obtain ⟨as, bs', has, rfl⟩ := key cls kvs file w bs hok h
    refine ⟨_, rfl, ?_⟩
    simp only [VersionedHeader, ronTrip]
    refine ⟨_, rfl, ?_⟩
    have hk := (asdictD_spec has).1
    cases (c.env cls).version with
    | none =>
      have := dkeys_ronTripD as
      simp only [dkeys, List.map_cons] at this hk ⊢
      rw [this, hk]; rfl
    | some m =>
      have := dkeys_ronTripD as
      simp only [dkeys, List.map_cons, ronTripD, ronTripP] at this hk ⊢
      rw [this, hk]
      exact ⟨rfl, by simp [dget, NAME_KEY, ronTrip]⟩
  | cons s p ih =>
    intro v file w bs hok h cls kvs hv
    simp only [Val.sub] at hv
    obtain ⟨x, hx, hvx⟩ := Option.bind_eq_some_iff.1 hv
    have hokx := hok.sub hx
    cases v with
    | inst n kvs0 =>
      obtain ⟨as, bs', has, rfl⟩ := key n kvs0 file w bs hok h
      cases s with
      | idx i => simp [Val.sub1] at hx
      | key k =>
        simp only [Val.sub1] at hx
        obtain ⟨w', bs'', hw', hd⟩ := (asdictD_spec has).2 k x hx
        obtain ⟨doc, h1, h2⟩ := ih x _ w' bs'' hokx hd cls kvs hvx
        refine ⟨doc, ?_, h2⟩
        obtain ⟨_, hnv, hnn⟩ := hok [] n kvs0 rfl
        have hkm : k ∈ dkeys kvs0 := by
          have := mt (dget_eq_none_iff kvs0 k).2 (by simp [hx] : ¬ dget kvs0 k = none)
          simpa using this
        have hk1 : NAME_KEY ≠ k := by rintro rfl; exact hnn hkm
        have hk2 : "version" ≠ k := by rintro rfl; exact hnv hkm
        simp only [Val.sub, ronTrip, Val.sub1, dget, if_neg hk1]
        cases (c.env n).version with
        | none => simp [dget_ronTripD, hw', h1]
        | some m => simp [ronTripD, ronTripP, dget, hk2, dget_ronTripD, hw', h1]
    | dict d =>
      cases s with
      | idx i => simp [Val.sub1] at hx
      | key k =>
        simp only [Val.sub1] at hx
        simp only [asdict, serHooks_id hc.sched file (.dict d) (by intro _ _; simp), bind, Except.bind, pure,
          Except.pure] at h
        split at h
        · simp at h
        · rename_i y hy
          simp only [Except.ok.injEq, Prod.mk.injEq] at h
          obtain ⟨rfl, rfl⟩ := h
          obtain ⟨w', bs'', hw', hd⟩ := (asdictD_spec hy).2 k x hx
          obtain ⟨doc, h1, h2⟩ := ih x _ w' bs'' hokx hd cls kvs hvx
          exact ⟨doc, by simp [Val.sub, ronTrip, Val.sub1, dget_ronTripD, hw', h1], h2⟩
    | list xs =>
      cases s with
      | key k => simp [Val.sub1] at hx
      | idx i =>
        simp only [Val.sub1] at hx
        simp only [asdict, serHooks_id hc.sched file (.list xs) (by intro _ _; simp), bind, Except.bind, pure,
          Except.pure] at h
        split at h
        · simp at h
        · rename_i y hy
          simp only [Except.ok.injEq, Prod.mk.injEq] at h
          obtain ⟨rfl, rfl⟩ := h
          obtain ⟨w', q, bs'', hw', hd⟩ := asdictL_spec hy i x hx
          obtain ⟨doc, h1, h2⟩ := ih x _ w' bs'' hokx hd cls kvs hvx
          exact ⟨doc, by simp [Val.sub, ronTrip, Val.sub1, getElem?_ronTripL, hw', h1], h2⟩
    | tup xs =>
      cases s with
      | key k => simp [Val.sub1] at hx
      | idx i =>
        simp only [Val.sub1] at hx
        simp only [asdict, serHooks_id hc.sched file (.tup xs) (by intro _ _; simp), bind, Except.bind, pure,
          Except.pure] at h
        split at h
        · simp at h
        · rename_i y hy
          simp only [Except.ok.injEq, Prod.mk.injEq] at h
          obtain ⟨rfl, rfl⟩ := h
          obtain ⟨w', q, bs'', hw', hd⟩ := asdictL_spec hy i x hx
          obtain ⟨doc, h1, h2⟩ := ih x _ w' bs'' hokx hd cls kvs hvx
          exact ⟨doc, by simp [Val.sub, ronTrip, Val.sub1, getElem?_ronTripL, hw', h1], h2⟩
    | _ => simp [Val.sub1] at hx

/-- C24. Wherever an object contains an instance (at any depth, through attributes, dicts, lists and tuples), the dump
contains at the corresponding place a struct whose entries are: the class name, the current version if the class is
versioned (and no version entry otherwise), then the attributes in declaration order. -/
theorem C24_version_recorded (w : World) (v doc : Val) (bs : List (String × Val)) (hok : AttrsOK v)
    (h : typedDump w.env .none false v = .ok (doc, bs)) (p : List Step) (cls : String) (kvs : List (String × Val))
    (hp : v.sub p = some (.inst cls kvs)) :
    ∃ d, doc.sub p = some d ∧ VersionedHeader w.env cls (dkeys kvs) d := by
  simp only [typedDump, bind, Except.bind, pure, Except.pure] at h
  split at h
  · simp at h
  · rename_i y hy
    simp only [Except.ok.injEq, Prod.mk.injEq] at h
    obtain ⟨rfl, _⟩ := h
    exact C24_aux (dumpCfg_ok w.env .none (.inl rfl) false) rfl p v "" y.1 y.2 hok (by simpa using hy) cls kvs hp

/-- a versioned class nested in a list inside an unversioned one -/
example :
    let v := Val.inst "A" [("xs", .list [.inst "V" [("y", .int 1)]])]
    let w : World := { Ex.world with env := fun n => if n = "V" then ⟨some 3, [("y", .none)]⟩ else ⟨.none, [("xs", .none)]⟩ }
    v.sub [.key "xs", .idx 0] = some (.inst "V" [("y", .int 1)]) ∧
    typedDump w.env .none false v = .ok (.dict [("!__name__", .str "A"), ("xs", .list [.dict
      [("!__name__", .str "V"), ("version", .int 3), ("y", .int 1)]])], []) := by
  exact ⟨rfl, rfl⟩

/-! ## C01: names with a leading underscore -/

theorem foldl_dset_hasKey (k : String) : ∀ (bs acc : List (String × Val)), (k ∈ dkeys bs ∨ k ∈ dkeys acc) →
    k ∈ dkeys (bs.foldl (fun a kv => dset a kv.1 kv.2) acc) := by
  have hd : ∀ (acc : List (String × Val)) (k k' : String) (v : Val), (k = k' ∨ k ∈ dkeys acc) → k ∈ dkeys (dset acc k' v) := by
    intro acc k k' v h
    induction acc with
    | nil =>
      rcases h with rfl | h
      · simp [dset, dkeys]
      · simp [dkeys] at h
    | cons e acc ih =>
      simp only [dset]
      split
      · rename_i he
        simp only [dkeys, List.map_cons, List.mem_cons] at h ⊢
        rcases h with h | h | h
        · left; simp_all
        · left; simp_all
        · exact .inr h
      · simp only [dkeys, List.map_cons, List.mem_cons] at h ih ⊢
        rcases h with h | h | h
        · exact .inr (ih (.inl h))
        · exact .inl h
        · exact .inr (ih (.inr h))
  intro bs
  induction bs with
  | nil => intro acc h; simpa [dkeys] using h
  | cons e bs ih =>
    intro acc h
    refine ih _ ?_
    simp only [dkeys, List.map_cons, List.mem_cons] at h
    rcases h with (h | h) | h
    · exact .inr (hd _ _ _ _ (.inl h))
    · exact .inl h
    · exact .inr (hd _ _ _ _ (.inr h))

/-- C01 is false of classes with a field whose name starts with an underscore: no object of such a class can be dumped, because
`namedtuple` does not accept the name. -/
theorem C01_underscore_false (env : String → ClsInfo) (cls : String) (kvs : List (String × Val)) (k : String) (cs : List Char)
    (hk : k ∈ dkeys kvs) (hu : k.toList = '_' :: cs) (r : Val × List (String × Val)) :
    typedDump env .none false (.inst cls kvs) ≠ .ok r := by
  intro h
  simp only [typedDump, asdict, serHooks, schedFind, dumpCfg, Option.map_none, bind, Except.bind, pure, Except.pure] at h
  split at h
  · simp at h
  · rename_i y hy
    split at hy
    · simp at hy
    · rename_i z hz
      have hks := (asdictD_spec hz).1
      have key : k ∈ dkeys (modifyAttrs (dumpCfg env .none false) cls z.1) := by
        have hz' : k ∈ dkeys z.1 := by rw [hks]; exact hk
        simp only [modifyAttrs, dumpCfg, Bool.false_eq_true, if_false]
        split
        · exact foldl_dset_hasKey k _ _ (.inl hz')
        · exact hz'
      have hno : ntNamesOk (modifyAttrs (dumpCfg env .none false) cls z.1) = false := by
        obtain ⟨e, he, rfl⟩ := List.mem_map.1 key
        rw [ntNamesOk, List.all_eq_false]
        exact ⟨e, he, by simp [hu, List.isPrefixOf]⟩
      have : packAttrs (dumpCfg env .none false) cls z.1 = .error .valueError := by
        simp only [packAttrs, hno]; rfl
      simp only [dumpCfg, Option.map_none] at this
      simp [this] at hy

/-- a class that would otherwise be dumped -/
example : "_seed" ∈ dkeys [("lr", Val.int 1), ("_seed", .int 2)] ∧ "_seed".toList = '_' :: "seed".toList := by decide +kernel
example : HasType false (.data "Main" [.mk "_seed" .int .none] .none) (.inst "Main" [("_seed", .int 2)]) := by
  simp only [HasType]
  exact ⟨_, rfl, _, _, rfl, ⟨rfl, .inl ⟨2, rfl⟩⟩, rfl⟩

end HS
