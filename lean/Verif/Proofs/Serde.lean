import Verif.Spec.Typing
import Verif.Proofs.Dict
/-!
# Lemmas about `asdict` and `from_dict`
-/
namespace HS

/-- the serializers of `hyperstate.dumps` / a checkpoint without schedules, writing all fields -/
structure DumpCfg (c : SerCfg) : Prop where
  lazy : c.lazy = true
  versioned : c.versioned = true
  named : c.named = true
  sched : ∀ file, schedFind c file = .ok .none

/-- serializers that record versions and have no schedules to write -/
structure WriteCfg (c : SerCfg) : Prop where
  versioned : c.versioned = true
  sched : ∀ file, schedFind c file = .ok .none

theorem DumpCfg.write {c : SerCfg} (h : DumpCfg c) : WriteCfg c := ⟨h.versioned, h.sched⟩

theorem serHooks_id {c : SerCfg} (h : ∀ file, schedFind c file = .ok .none) (file : String) (v : Val)
    (hv : ∀ n r, v ≠ .ser n r) : serHooks c file v = .ok (v, []) := by
  unfold serHooks
  cases v <;> cases c.lazy <;>
    simp_all [bind, Except.bind, pure, Except.pure]

theorem applyUpgrades_self (vi : VerInfo) (h : ∀ e ∈ vi.rules, e.1 < vi.version) (sd : Val) :
    vi.applyUpgrades sd vi.version = .ok sd := by
  have hall : (vi.rules.all fun e => decide (e.1 < vi.version)) = true := by simpa using h
  simp [VerInfo.applyUpgrades, hall, rangeI, upgradeLoop]

theorem foldl_dset_version (n : Val) (attrs : List (String × Val)) (hn : (dkeys attrs).Nodup)
    (hv : "version" ∉ dkeys attrs) :
    attrs.foldl (fun a kv => dset a kv.1 kv.2) [("version", n)] = ("version", n) :: attrs := by
  have dset_new : ∀ (d : List (String × Val)) k v, k ∉ dkeys d → dset d k v = d ++ [(k, v)] := by
    intro d k v h
    induction d with
    | nil => rfl
    | cons a d ih =>
      simp only [dkeys, List.map_cons, List.mem_cons, not_or] at h
      simp only [dset, if_neg (Ne.symm h.1), List.cons_append]
      rw [ih (by simpa [dkeys] using h.2)]
  have gen : ∀ (attrs acc : List (String × Val)), (dkeys attrs).Nodup → (∀ k ∈ dkeys attrs, k ∉ dkeys acc) →
      attrs.foldl (fun a kv => dset a kv.1 kv.2) acc = acc ++ attrs := by
    intro attrs
    induction attrs with
    | nil => intro acc _ _; simp
    | cons kv attrs ih =>
      intro acc hn hd
      simp only [dkeys, List.map_cons, List.nodup_cons] at hn
      simp only [List.foldl_cons]
      rw [dset_new acc _ _ (hd _ (by simp [dkeys])), ih _ (by simpa [dkeys] using hn.2)]
      · simp
      · intro k hk
        simp only [dkeys, List.map_append, List.map_cons, List.map_nil, List.mem_append, List.mem_singleton, not_or]
        refine ⟨hd k (by simp only [dkeys, List.map_cons, List.mem_cons]; exact Or.inr (by simpa [dkeys] using hk)), ?_⟩
        rintro rfl
        exact hn.1 (by simpa [dkeys] using hk)
  have := gen attrs [("version", n)] hn (by
    intro k hk hk'
    simp [dkeys] at hk'
    subst hk'
    exact hv hk)
  simpa using this

/-! ## fields -/

/-- position-wise relation between three lists -/
inductive Rel3 {α β γ : Type} (P : α → β → γ → Prop) : List α → List β → List γ → Prop
  | nil : Rel3 P [] [] []
  | cons {a b c as bs cs} : P a b c → Rel3 P as bs cs → Rel3 P (a :: as) (b :: bs) (c :: cs)

/-- field `f`, its serialized entry `a` and its attribute `kv` belong together -/
structure FieldRT (dc : DCfg) (f : Fld) (a kv : String × Val) : Prop where
  ha : a.1 = f.name
  hkv : kv.1 = f.name
  load : ∀ ig path, fromDict dc f.ty ig path (ronTrip a.2) = .ok (kv.2, [])
  weak : (ronTrip a.2).isWeak = false

theorem Rel3.keys {dc fs as kvs} (h : Rel3 (FieldRT dc) fs as kvs) :
    dkeys as = fs.map Fld.name ∧ dkeys kvs = fs.map Fld.name := by
  induction h with
  | nil => simp [dkeys]
  | cons h _ ih =>
    refine ⟨?_, ?_⟩
    · simp only [dkeys, List.map_cons, h.ha]; congr 1; exact ih.1
    · simp only [dkeys, List.map_cons, h.hkv]; congr 1; exact ih.2

theorem fdField_mem (dc : DCfg) (k path : String) (v : Val) : ∀ (fs : List Fld) (f : Fld),
    (fs.map Fld.name).Nodup → f ∈ fs → f.name = k → fdField dc fs k path v = some (fromDict dc f.ty false path v) := by
  intro fs
  induction fs with
  | nil => intro f _ h; simp at h
  | cons g fs ih =>
    intro f hn hf hk
    simp only [List.map_cons, List.nodup_cons] at hn
    cases g with
    | mk n t d =>
      rcases List.mem_cons.1 hf with rfl | hf
      · have hk' : n = k := by simpa [Fld.name] using hk
        simp [fdField, fdFld, hk', Fld.ty]
      · have hne : n ≠ k := by
          rintro rfl
          exact hn.1 (List.mem_map.2 ⟨f, hf, hk⟩)
        simp [fdField, fdFld, hne, ih f hn.2 hf hk]

theorem fdField_none (dc : DCfg) (k path : String) (v : Val) : ∀ (fs : List Fld),
    (∀ f ∈ fs, f.name ≠ k) → fdField dc fs k path v = none := by
  intro fs
  induction fs with
  | nil => intro _; simp [fdField]
  | cons g fs ih =>
    intro h
    cases g with
    | mk n t d =>
      have : n ≠ k := by simpa [Fld.name] using h (.mk n t d) (by simp)
      simp [fdField, fdFld, this, ih (fun f hf => h f (List.mem_cons_of_mem _ hf))]

theorem itemsLoop_rt (dc : DCfg) (fs0 : List Fld) (hn : (fs0.map Fld.name).Nodup) (path : String) (ig : Bool)
    {fs as kvs} (h : Rel3 (FieldRT dc) fs as kvs) (hsub : ∀ f ∈ fs, f ∈ fs0) (hnk : ∀ f ∈ fs, f.name ≠ NAME_KEY) :
    itemsLoop (fun k x => fdField dc fs0 k (fieldPath path k) x) ig (ronTripD as) = .ok (kvs, []) := by
  induction h with
  | nil => simp [ronTripD, itemsLoop]
  | @cons f a kv fs as kvs h _ ih =>
    obtain ⟨k, w⟩ := a
    have hk : k = f.name := h.ha
    have hne : k ≠ NAME_KEY := by rw [hk]; exact hnk f (by simp)
    have ihh := ih (fun g hg => hsub g (List.mem_cons_of_mem _ hg)) (fun g hg => hnk g (List.mem_cons_of_mem _ hg))
    simp only [ronTripD, ronTripP, itemsLoop]
    rw [if_neg hne, if_neg (by simpa using h.weak), fdField_mem dc k _ _ fs0 f hn (hsub f (by simp)) hk.symm]
    simp only [h.load, ihh, bind, Except.bind, pure, Except.pure]
    have : (k, kv.2) = kv := by
      rw [hk, ← h.hkv]
    simp [this]

theorem fillFields_rt (dc : DCfg) (kvs0 : List (String × Val)) (hn : (dkeys kvs0).Nodup)
    {fs as kvs} (h : Rel3 (FieldRT dc) fs as kvs) (hsub : ∀ kv ∈ kvs, kv ∈ kvs0) :
    fillFields kvs0 fs = .ok kvs := by
  induction h with
  | nil => simp [fillFields]
  | @cons f a kv fs as kvs h _ ih =>
    have hg : dget kvs0 f.name = some kv.2 := by
      rw [← h.hkv]
      exact dget_of_mem hn (hsub kv (by simp))
    simp only [fillFields, fieldValue, hg, ih (fun x hx => hsub x (List.mem_cons_of_mem _ hx)), bind, Except.bind, pure,
      Except.pure]
    rw [← h.hkv]

/-! ## the round trip, by induction on the class -/

/-- serialized form: not `None` unless the value is, and not taken for a weak object -/
structure RTOne (c : SerCfg) (dc : DCfg) (t : PyTy) (v : Val) (file : String) (w : Val) : Prop where
  dump : asdict c file v = .ok (w, [])
  load : ∀ ig path, fromDict dc t ig path (ronTrip w) = .ok (v, [])
  weak : v.isWeak = false → (ronTrip w).isWeak = false
  none : (ronTrip w).isNone = true → v = .none
  data : c.named = true → isData t = true → ∃ d, ronTrip w = .dict d ∧ dget d NAME_KEY = some (.str t.pyName)

def RT (c : SerCfg) (dc : DCfg) (t : PyTy) : Prop :=
  ∀ v file, HasType true t v → Firm v → ∃ w, RTOne c dc t v file w

theorem asdict_leaf {c : SerCfg} (hc : WriteCfg c) (file : String) (v : Val) (hv : LitOK v ∨ ∃ f, v = .flt f) :
    asdict c file v = .ok (v, []) := by
  have := serHooks_id hc.sched file v (by intro n r h; subst h; simp [LitOK] at hv)
  cases v <;> simp_all [asdict, LitOK, bind, Except.bind, pure, Except.pure]

theorem rt_list {c dc t} (h : RT c dc t) : ∀ (xs : List Val) (i : Nat) (file : String), (∀ x ∈ xs, HasType true t x ∧ Firm x) →
    ∃ ws, asdictL c file i xs = .ok (ws, []) ∧
      ∀ (f : Nat → Val → Res), (∀ i x, ∃ p, f i x = fromDict dc t false p x) → ∀ j, mapIdx f j (ronTripL ws) = .ok (xs, []) := by
  intro xs
  induction xs with
  | nil => intro i file _; exact ⟨[], by simp [asdictL], by intro f _ j; simp [ronTripL, mapIdx]⟩
  | cons x xs ih =>
    intro i file hx
    obtain ⟨w, hw⟩ := h x (joinPath file i.repr) (hx x (by simp)).1 (hx x (by simp)).2
    obtain ⟨ws, hws, hl⟩ := ih (i + 1) file (fun y hy => hx y (List.mem_cons_of_mem _ hy))
    refine ⟨w :: ws, by simp [asdictL, hw.dump, hws, bind, Except.bind, pure, Except.pure], ?_⟩
    intro f hf j
    obtain ⟨p, hp⟩ := hf j (ronTrip w)
    simp [ronTripL, mapIdx, hp, hw.load, hl f hf, bind, Except.bind, pure, Except.pure]

theorem rt_dict {c dc t} (h : RT c dc t) : ∀ (kvs : List (String × Val)) (file : String),
    (∀ kv ∈ kvs, HasType true t kv.2 ∧ Firm kv.2) →
    ∃ ws, asdictD c file kvs = .ok (ws, []) ∧ dkeys ws = dkeys kvs ∧
      ∀ (f : String → Val → Res), (∀ k x, ∃ p, f k x = fromDict dc t false p x) → mapItems f (ronTripD ws) = .ok (kvs, []) := by
  intro kvs
  induction kvs with
  | nil => intro file _; exact ⟨[], by simp [asdictD], rfl, by intro f _; simp [ronTripD, mapItems]⟩
  | cons kv kvs ih =>
    obtain ⟨k, x⟩ := kv
    intro file hx
    obtain ⟨w, hw⟩ := h x (joinPath file k) (hx (k, x) (by simp)).1 (hx (k, x) (by simp)).2
    obtain ⟨ws, hws, hk, hl⟩ := ih file (fun y hy => hx y (List.mem_cons_of_mem _ hy))
    refine ⟨(k, w) :: ws, by simp [asdictD, asdictP, hw.dump, hws, bind, Except.bind, pure, Except.pure],
      by simpa [dkeys] using hk, ?_⟩
    intro f hf
    obtain ⟨p, hp⟩ := hf k (ronTrip w)
    simp [ronTripD, ronTripP, mapItems, hp, hw.load, hl f hf, bind, Except.bind, pure, Except.pure]

theorem dkeys_ronTripD : ∀ d : List (String × Val), dkeys (ronTripD d) = dkeys d := by
  intro d
  induction d with
  | nil => simp [ronTripD, dkeys]
  | cons kv d ih => obtain ⟨k, v⟩ := kv; simpa [ronTripD, ronTripP, dkeys] using ih

theorem dget_none_of_not_mem {α : Type} {d : List (String × α)} {k : String} (h : k ∉ dkeys d) : dget d k = none := by
  cases hg : dget d k with
  | none => rfl
  | some v => exact absurd (List.mem_map.2 ⟨(k, v), dget_mem hg, rfl⟩) h

theorem fdNamed_mem (dc : DCfg) (ig : Bool) (path : String) (v : Val) : ∀ (as : List PyTy) (a : PyTy),
    (as.map PyTy.pyName).Nodup → a ∈ as →
    fdNamed dc as (.str a.pyName) ig path v = some (fromDict dc a ig path v) := by
  intro as
  induction as with
  | nil => intro a _ h; simp at h
  | cons b as ih =>
    intro a hn ha
    simp only [List.map_cons, List.nodup_cons] at hn
    rcases List.mem_cons.1 ha with rfl | ha
    · simp [fdNamed, pyEq]
    · have : (a.pyName == b.pyName) = false := by
        simp only [beq_eq_false_iff_ne, ne_eq]
        intro h
        exact hn.1 (List.mem_map.2 ⟨a, ha, h⟩)
      simp [fdNamed, pyEq, this, ih a hn.2 ha]

theorem hasTypeAny_iff (weak : Bool) (v : Val) : ∀ as : List PyTy,
    HasTypeAny weak as v ↔ ∃ a ∈ as, HasType weak a v := by
  intro as
  induction as with
  | nil => simp [HasTypeAny]
  | cons a as ih => simp [HasTypeAny, ih]

theorem enumByValue_named (cls : String) : ∀ (ms : List (String × Val)) (n : String) (w : Val),
    (ms.map Prod.fst).Nodup → (∀ m ∈ ms, m.2 = .str m.1) → (n, w) ∈ ms →
    enumByValue cls (.str n) ms = .ok (.enm cls n w) := by
  intro ms
  induction ms with
  | nil => intro n w _ _ h; simp at h
  | cons m ms ih =>
    intro n w hn hs hm
    obtain ⟨n', w'⟩ := m
    have hw' : w' = .str n' := hs (n', w') (by simp)
    simp only [List.map_cons, List.nodup_cons] at hn
    rcases List.mem_cons.1 hm with h | h
    · cases h
      simp [enumByValue, hw', pyEq]
    · have hne : (n == n') = false := by
        simp only [beq_eq_false_iff_ne, ne_eq]
        rintro rfl
        exact hn.1 (List.mem_map.2 ⟨(n, w), h, rfl⟩)
      simp [enumByValue, hw', pyEq, hne, ih n w hn.2 (fun m hm => hs m (List.mem_cons_of_mem _ hm)) h]

theorem pyEq_refl_lit : ∀ v : Val, LitOK v → pyEq v v = true := by
  intro v h
  cases v <;> simp_all [LitOK, pyEq, Val.num?, Flt.eqv]

theorem rt_data {c : SerCfg} {dc : DCfg} (hc : WriteCfg c) (hel : c.elide = false) (n : String) (fs : List Fld)
    (ver : Option VerInfo) (hty : TyOK dc.ext (.data n fs ver)) (henv : EnvOK c.env (.data n fs ver))
    (hrel : ∀ kvs file, HasFields true fs kvs → (∀ kv ∈ kvs, kv.2.isWeak = false ∧ Firm kv.2) → ∃ as, asdictD c file kvs = .ok (as, []) ∧ Rel3 (FieldRT dc) fs as kvs) :
    RT c dc (.data n fs ver) := by
  intro v file hv hfv
  simp only [HasType] at hv
  obtain ⟨kvs, rfl, hf⟩ := hv
  simp only [Firm, firmD_iff] at hfv
  obtain ⟨as, has, hr⟩ := hrel kvs file hf (fun kv h => ⟨hfv.1 kv h, hfv.2 kv h⟩)
  simp only [TyOK] at hty
  obtain ⟨hnd, hnames, hver, hvok, _⟩ := hty
  simp only [EnvOK] at henv
  obtain ⟨hka, hkk⟩ := hr.keys
  have hnda : (dkeys as).Nodup := by rw [hka]; exact hnd
  have hndk : (dkeys kvs).Nodup := by rw [hkk]; exact hnd
  have hnk : ∀ f ∈ fs, f.name ≠ NAME_KEY := fun f h => (hnames f h).1
  have hitems := fun path ig => itemsLoop_rt dc fs hnd path ig hr (fun f h => h) hnk
  have hfill := fillFields_rt dc kvs hndk hr (fun _ h => h)
  have huscore : ∀ a ∈ as, ['_'].isPrefixOf a.1.toList = false := by
    intro a ha
    have : a.1 ∈ fs.map Fld.name := by rw [← hka]; exact List.mem_map.2 ⟨a, ha, rfl⟩
    obtain ⟨f, hf, hfe⟩ := List.mem_map.1 this
    rw [← hfe]; exact (hnames f hf).2.2
  have hhook := serHooks_id hc.sched file (.inst n kvs) (by intro _ _; simp)
  have hwk : WEAK_REF ∉ dkeys as := by
    rw [hka]; intro h
    obtain ⟨f, hf, hfe⟩ := List.mem_map.1 h
    exact (hnames f hf).2.1 hfe
  have hwr : dget (ronTripD as) WEAK_REF = none := by
    apply dget_none_of_not_mem
    rw [dkeys_ronTripD]; exact hwk
  -- what the document looks like: `pre` is the class name, if names are written
  have hdoc : ∀ attrs, (ntNamesOk attrs = true) → ∃ w pre, (if c.named then (if ntNamesOk attrs then
      Except.ok (ε := Err) (Val.ntup n attrs) else .error .valueError) else .ok (.dict attrs)) = .ok w ∧
      ronTrip w = .dict (pre ++ ronTripD attrs) ∧ (pre = [] ∨ pre = [(NAME_KEY, .str n)]) ∧
      (c.named = true → pre = [(NAME_KEY, .str n)]) := by
    intro attrs hok
    cases hn : c.named with
    | true => exact ⟨.ntup n attrs, [(NAME_KEY, .str n)], by simp [hok], by simp [ronTrip], Or.inr rfl, fun _ => rfl⟩
    | false => exact ⟨.dict attrs, [], by simp, by simp [ronTrip], Or.inl rfl, by simp⟩
  cases ver with
  | none =>
    have hok : ntNamesOk as = true := by
      simp only [ntNamesOk, List.all_eq_true]; intro a ha; simp [huscore a ha]
    obtain ⟨w, pre, hw, hron, hpre, hnm⟩ := hdoc as hok
    have hpack : packAttrs c n as = .ok w := by
      simpa [packAttrs, modifyAttrs, henv.1, hel] using hw
    refine ⟨w, ?_, ?_, ?_, ?_, ?_⟩
    · simp [asdict, hhook, has, hpack, bind, Except.bind, pure, Except.pure]
    · intro ig path
      rw [hron]
      rcases hpre with rfl | rfl <;>
        simp [fromDict, asRawDict, itemsLoop, hitems, hfill, bind, Except.bind, pure, Except.pure]
    · intro _; rw [hron]
      rcases hpre with rfl | rfl <;> simp [Val.isWeak, dhas, dget, NAME_KEY, WEAK_REF]
      all_goals simpa [WEAK_REF] using hwr
    · intro h; simp [hron, Val.isNone] at h
    · intro h _
      exact ⟨_, hron, by simp [hnm h, dget, PyTy.pyName]⟩
  | some vi =>
    have hnv : "version" ∉ dkeys as := by
      rw [hka]; intro h
      obtain ⟨f, hf, hfe⟩ := List.mem_map.1 h
      exact hver rfl f hf hfe
    have hok : ntNamesOk (("version", Val.int vi.version) :: as) = true := by
      simp only [ntNamesOk, List.all_eq_true]; intro a ha
      rcases List.mem_cons.1 ha with rfl | ha
      · have : (!['_'].isPrefixOf "version".toList) = true := by decide
        exact this
      · simp [huscore a ha]
    obtain ⟨w, pre, hw, hron, hpre, hnm⟩ := hdoc _ hok
    have hpack : packAttrs c n as = .ok w := by
      simpa [packAttrs, modifyAttrs, henv.1, hel, hc.versioned, foldl_dset_version _ _ hnda hnv] using hw
    refine ⟨w, ?_, ?_, ?_, ?_, ?_⟩
    · simp [asdict, hhook, has, hpack, bind, Except.bind, pure, Except.pure]
    · intro ig path
      have hvi : ∀ e ∈ vi.rules, e.1 < vi.version := hvok vi rfl
      have hall : (vi.rules.all fun e => decide (e.1 < vi.version)) = true := by simpa using hvi
      have hdel : ddel (ronTripD as) "version" = ronTripD as := by
        apply ddel_not_mem
        apply dget_none_of_not_mem
        rw [dkeys_ronTripD]; exact hnv
      have h1 : dget (pre ++ ("version", Val.int vi.version) :: ronTripD as) "version"
          = some (.int vi.version) := by rcases hpre with rfl | rfl <;> simp [dget, NAME_KEY]
      have h2 : ddel (pre ++ ("version", Val.int vi.version) :: ronTripD as) "version"
          = pre ++ ronTripD as := by rcases hpre with rfl | rfl <;> simp [ddel, NAME_KEY, hdel]
      rw [hron]
      simp only [ronTrip, ronTripD, ronTripP, fromDict, versionHook, h1, h2, VerInfo.upgradeAny, hall, if_true,
        Val.asRangeInt, bind, Except.bind, applyUpgrades_self vi hvi, asRawDict, pure, Except.pure]
      rcases hpre with rfl | rfl <;> simp [itemsLoop, hitems, hfill]
    · intro _; rw [hron]
      rcases hpre with rfl | rfl <;> simp [Val.isWeak, dhas, dget, ronTripD, ronTripP, NAME_KEY, WEAK_REF]
      all_goals simpa [WEAK_REF] using hwr
    · intro h; simp [hron, Val.isNone] at h
    · intro h _
      exact ⟨_, hron, by simp [hnm h, dget, PyTy.pyName]⟩

theorem isOptionalArgs_iff {as : List PyTy} : isOptionalArgs as = true ↔ ∃ t, as = [t, .noneT] := by
  constructor
  · intro h
    match as, h with
    | [t, u], h => cases u <;> simp_all [isOptionalArgs, PyTy.isNoneT]
  · rintro ⟨t, rfl⟩; rfl

theorem dhas_eq_keys {α : Type} (d : List (String × α)) (k : String) : dhas d k = decide (k ∈ dkeys d) := by
  induction d with
  | nil => simp [dhas, dget, dkeys]
  | cons a d ih =>
    simp only [dhas, dkeys] at ih ⊢
    by_cases h : a.1 = k
    · simp [dget, h]
    · simp only [dget, h, if_false, ih]
      exact decide_eq_decide.2 (by simp [Ne.symm h])

/-- what is `==` to a value of a Literal can be written as it is -/
theorem pyEq_lit (v x : Val) (hx : LitOK x) (h : pyEq v x = true) : LitOK v ∨ ∃ f, v = .flt f := by
  cases x <;> simp [LitOK] at hx <;> cases v <;> simp_all [pyEq, Val.num?, LitOK]

mutual
theorem rtG {c : SerCfg} {dc : DCfg} (hc : WriteCfg c) (hel : c.elide = false) : ∀ t : PyTy,
    TyOK dc.ext t → EnvOK c.env t → (c.named = true ∨ Untagged t) → RT c dc t
  | .int, _, _, _ => by
    intro v file hv hfv
    simp only [HasType] at hv
    rcases hv with ⟨i, rfl⟩ | ⟨b, rfl⟩
    · exact ⟨_, asdict_leaf hc file _ (by simp [LitOK]), by intro ig p; simp [ronTrip, fromDict, schedHook],
        fun _ => rfl, by simp [ronTrip, Val.isNone], by simp [isData]⟩
    · exact ⟨_, asdict_leaf hc file _ (by simp [LitOK]), by intro ig p; simp [ronTrip, fromDict, schedHook],
        fun _ => rfl, by simp [ronTrip, Val.isNone], by simp [isData]⟩
  | .float, _, _, _ => by
    intro v file hv hfv
    simp only [HasType] at hv
    obtain ⟨f, rfl⟩ := hv
    exact ⟨_, asdict_leaf hc file _ (by simp), by intro ig p; simp [ronTrip, fromDict, schedHook],
        fun _ => rfl, by simp [ronTrip, Val.isNone], by simp [isData]⟩
  | .str, _, _, _ => by
    intro v file hv hfv
    simp only [HasType] at hv
    obtain ⟨f, rfl⟩ := hv
    exact ⟨_, asdict_leaf hc file _ (by simp [LitOK]), by intro ig p; simp [ronTrip, fromDict],
        fun _ => rfl, by simp [ronTrip, Val.isNone], by simp [isData]⟩
  | .bool, _, _, _ => by
    intro v file hv hfv
    simp only [HasType] at hv
    obtain ⟨f, rfl⟩ := hv
    exact ⟨_, asdict_leaf hc file _ (by simp [LitOK]), by intro ig p; simp [ronTrip, fromDict],
        fun _ => rfl, by simp [ronTrip, Val.isNone], by simp [isData]⟩
  | .noneT, _, _, _ => by
    intro v file hv hfv
    simp only [HasType] at hv
    subst hv
    exact ⟨_, asdict_leaf hc file _ (by simp [LitOK]), by intro ig p; simp [ronTrip, fromDict],
        fun _ => rfl, by simp, by simp [isData]⟩
  | .list a, ht, he, hn => by
    have ih := rtG hc hel a (by simpa [TyOK] using ht) (by simpa [EnvOK] using he)
      (hn.imp id (by simp [Untagged]))
    intro v file hv hfv
    simp only [HasType] at hv
    obtain ⟨xs, rfl, hx⟩ := hv
    obtain ⟨ws, hws, hl⟩ := rt_list ih xs 0 file (fun x h => ⟨hx x h, (firmL_iff xs).1 (by simpa only [Firm] using hfv) x h⟩)
    refine ⟨.list ws, ?_, ?_, fun _ => rfl, by simp [ronTrip, Val.isNone], by simp [isData]⟩
    · simp [asdict, serHooks_id hc.sched, hws, bind, Except.bind, pure, Except.pure]
    · intro ig p
      simp only [ronTrip, fromDict]
      rw [hl _ (fun i x => ⟨_, rfl⟩) 0]
      rfl
  | .tuple as, ht, he, hn => by
    have ih := rtGs hc hel as (by simpa [TyOK] using ht) (by simpa [EnvOK] using he)
      (hn.imp id (by simp [Untagged]))
    intro v file hv hfv
    simp only [HasType] at hv
    obtain ⟨xs, rfl, hx⟩ := hv
    obtain ⟨ws, hws, hl⟩ := ih xs 0 file hx ((firmL_iff xs).1 (by simpa only [Firm] using hfv))
    refine ⟨.tup ws, ?_, ?_, fun _ => rfl, by simp [ronTrip, Val.isNone], by simp [isData]⟩
    · simp [asdict, serHooks_id hc.sched, hws, bind, Except.bind, pure, Except.pure]
    · intro ig p
      simp only [ronTrip, fromDict]
      rw [hl _ 0 (fun i x => ⟨p ++ "[" ++ i.repr ++ "]", by simp only [Nat.zero_add]⟩)]
      rfl
  | .dict k b, ht, he, hn => by
    have ih := rtG hc hel b (by simp only [TyOK] at ht; exact ht.2) (by simpa [EnvOK] using he)
      (hn.imp id (by simp [Untagged]))
    intro v file hv hfv
    simp only [HasType] at hv
    obtain ⟨kvs, rfl, hk, hx⟩ := hv
    obtain ⟨ws, hws, hkeys, hl⟩ := rt_dict ih kvs file (fun x h => ⟨hx x h, (firmD_iff kvs).1 (by simp only [Firm] at hfv; exact hfv.2) x h⟩)
    refine ⟨.dict ws, ?_, ?_, ?_, by simp [ronTrip, Val.isNone], by simp [isData]⟩
    · simp [asdict, serHooks_id hc.sched, hws, bind, Except.bind, pure, Except.pure]
    · intro ig p
      simp only [ronTrip, fromDict]
      rw [hl _ (fun i x => ⟨_, rfl⟩)]
      rfl
    · intro hnw
      simp only [Val.isWeak, dhas_eq_keys] at hnw
      simp only [ronTrip, Val.isWeak, dhas_eq_keys, dkeys_ronTripD, hkeys, hnw]
  | .union as, ht, he, hn => by
    simp only [TyOK] at ht
    have ih := rtGAny hc hel as ht.1 (by simpa [EnvOK] using he)
      (hn.imp id (by simp [Untagged]))
    intro v file hv hfv
    simp only [HasType, hasTypeAny_iff] at hv
    obtain ⟨a, ha, hva⟩ := hv
    obtain ⟨w, hw⟩ := ih a ha v file hva hfv
    refine ⟨w, hw.dump, ?_, hw.weak, hw.none, by simp [isData]⟩
    intro ig path
    simp only [fromDict]
    have hcase : isOptionalArgs as = true ∨ ((∀ a ∈ as, isData a = true) ∧ (as.map PyTy.pyName).Nodup ∧ c.named = true) := by
      rcases hn with hn | hn
      · exact ht.2.imp id (fun h => ⟨h.1, h.2, hn⟩)
      · simp only [Untagged] at hn; exact Or.inl hn.1
    rcases hcase with hopt | ⟨hdata, hnd, hnm⟩
    · rw [if_pos hopt]
      cases hn : (ronTrip w).isNone with
      | true => simp [hw.none hn]
      | false =>
        simp only [Bool.false_eq_true, if_false]
        obtain ⟨t, rfl⟩ := isOptionalArgs_iff.1 hopt
        rcases List.mem_cons.1 ha with rfl | ha
        · simp [fdHead, hw.load]
        · simp at ha
          subst ha
          simp only [HasType] at hva
          have := asdict_leaf (c := c) hc file v (by rw [hva]; simp [LitOK])
          rw [hw.dump] at this
          cases this
          subst hva
          simp [ronTrip, Val.isNone] at hn
    · have hopt : isOptionalArgs as = false := by
        match as, hdata with
        | [], _ => rfl
        | [_], _ => rfl
        | [x, y], hdata =>
          have := hdata y (by simp)
          cases y <;> simp_all [isData, isOptionalArgs, PyTy.isNoneT]
        | _ :: _ :: _ :: _, _ => rfl
      rw [if_neg (by simp [hopt])]
      obtain ⟨d, hd, hg⟩ := hw.data hnm (hdata a ha)
      have hl := hw.load ig path
      rw [hd] at hl ⊢
      simp only [primBranches, bind, Except.bind, hg, Option.bind, fdNamed_mem dc ig path _ as a hnd ha, hl]
  | .data n fs ver, ht, he, hn => by
    apply rt_data hc hel n fs ver ht he
    simp only [TyOK] at ht
    simp only [EnvOK] at he
    exact rtGf hc hel fs ht.2.2.2.2 he.2 (hn.imp id (by simp [Untagged]))
  | .enum cls ms, ht, _, _ => by
    simp only [TyOK] at ht
    intro v file hv hfv
    simp only [HasType] at hv
    obtain ⟨n, w, hm, rfl⟩ := hv
    refine ⟨.str n, ?_, ?_, fun _ => rfl, by simp [ronTrip, Val.isNone], by simp [isData]⟩
    · simp [asdict, serHooks_id hc.sched, bind, Except.bind, pure, Except.pure]
    · intro ig p
      simp [ronTrip, fromDict, enumByValue_named cls ms n w ht.1 ht.2 hm, bind, Except.bind, pure, Except.pure]
  | .literal vs, ht, _, _ => by
    simp only [TyOK] at ht
    intro v file hv hfv
    simp only [HasType] at hv
    have hv : ∃ x ∈ vs, pyEq v x = true := by
      rcases hv with hv | hv
      · exact ⟨v, hv, pyEq_refl_lit v (ht v hv).2⟩
      · exact hv.2
    obtain ⟨x, hx, hxe⟩ := hv
    have hl := pyEq_lit v x (ht x hx).2 hxe
    have hron : ronTrip v = v := by
      rcases hl with hl | ⟨f, rfl⟩
      · cases v <;> simp_all [ronTrip, LitOK]
      · rfl
    refine ⟨v, asdict_leaf hc file v hl, ?_, ?_, ?_, by simp [isData]⟩
    · intro ig p
      have hall : vs.all dc.ext.typeArgOk = true := by
        rw [List.all_eq_true]; intro x hx; exact (ht x hx).1
      have hmem : pyMem v vs = true := by
        simp only [pyMem, List.any_eq_true]; exact ⟨x, hx, hxe⟩
      rw [hron]
      rcases hl with hl | ⟨f, rfl⟩
      · cases v <;> simp_all [fromDict, LitOK]
      · simp_all [fromDict]
    · rw [hron]; exact id
    · rw [hron]; cases v <;> simp [Val.isNone]
  | .blob _, ht, _, _ => by simp [TyOK] at ht
theorem rtGs {c : SerCfg} {dc : DCfg} (hc : WriteCfg c) (hel : c.elide = false) : ∀ ts : List PyTy,
    TyOKs dc.ext ts → EnvOKs c.env ts → (c.named = true ∨ Untaggeds ts) → ∀ (xs : List Val) (i : Nat) (file : String), HasTypes true ts xs → (∀ x ∈ xs, Firm x) →
    ∃ ws, asdictL c file i xs = .ok (ws, []) ∧
      ∀ (f : Nat → Val → Res) (j : Nat), (∀ i x, ∃ p, f (j + i) x = fdNth dc ts i p x) → mapIdx f j (ronTripL ws) = .ok (xs, [])
  | [], _, _, _ => by
    intro xs i file hx hfx
    simp only [HasTypes] at hx
    subst hx
    exact ⟨[], by simp [asdictL], by intro f j _; simp [ronTripL, mapIdx]⟩
  | t :: ts, ht, he, hn => by
    simp only [TyOKs] at ht
    simp only [EnvOKs] at he
    have ih1 := rtG hc hel t ht.1 he.1 (hn.imp id And.left)
    have ih2 := rtGs hc hel ts ht.2 he.2 (hn.imp id And.right)
    intro xs i file hx hfx
    simp only [HasTypes] at hx
    rcases hx with hx | ⟨y, ys, rfl, hy, hys⟩
    · obtain ⟨_, rfl⟩ := hx
      exact ⟨[], by simp [asdictL], by intro f j _; simp [ronTripL, mapIdx]⟩
    obtain ⟨w, hw⟩ := ih1 y (joinPath file i.repr) hy (hfx y (by simp))
    obtain ⟨ws, hws, hl⟩ := ih2 ys (i + 1) file hys (fun z hz => hfx z (List.mem_cons_of_mem _ hz))
    refine ⟨w :: ws, by simp [asdictL, hw.dump, hws, bind, Except.bind, pure, Except.pure], ?_⟩
    intro f j hf
    obtain ⟨p, hp⟩ := hf 0 (ronTrip w)
    simp only [Nat.add_zero, fdNth] at hp
    have := hl f (j + 1) (by
      intro i x
      obtain ⟨p, hp⟩ := hf (i + 1) x
      simp only [fdNth] at hp
      exact ⟨p, by rw [← hp]; congr 1; omega⟩)
    simp [ronTripL, mapIdx, hp, hw.load, this, bind, Except.bind, pure, Except.pure]
theorem rtGAny {c : SerCfg} {dc : DCfg} (hc : WriteCfg c) (hel : c.elide = false) : ∀ ts : List PyTy,
    TyOKs dc.ext ts → EnvOKs c.env ts → (c.named = true ∨ Untaggeds ts) → ∀ t ∈ ts, RT c dc t
  | [], _, _, _ => by simp
  | t :: ts, ht, he, hn => by
    simp only [TyOKs] at ht
    simp only [EnvOKs] at he
    have ih1 := rtG hc hel t ht.1 he.1 (hn.imp id And.left)
    have ih2 := rtGAny hc hel ts ht.2 he.2 (hn.imp id And.right)
    intro t' h
    rcases List.mem_cons.1 h with rfl | h
    · exact ih1
    · exact ih2 t' h
theorem rtGf {c : SerCfg} {dc : DCfg} (hc : WriteCfg c) (hel : c.elide = false) : ∀ fs : List Fld,
    FldsOK dc.ext fs → EnvOKf c.env fs → (c.named = true ∨ Untaggedf fs) → ∀ kvs file, HasFields true fs kvs → (∀ kv ∈ kvs, kv.2.isWeak = false ∧ Firm kv.2) →
    ∃ as, asdictD c file kvs = .ok (as, []) ∧ Rel3 (FieldRT dc) fs as kvs
  | [], _, _, _ => by
    intro kvs file h hk0
    simp only [HasFields] at h
    subst h
    exact ⟨[], by simp [asdictD], .nil⟩
  | .mk n t d :: fs, ht, he, hn => by
    simp only [FldsOK, FldOK] at ht
    simp only [EnvOKf, EnvOKf1] at he
    have ih1 := rtG hc hel t ht.1 he.1 (hn.imp id And.left)
    have ih2 := rtGf hc hel fs ht.2 he.2 (hn.imp id And.right)
    intro kvs file h hk0
    simp only [HasFields, HasField] at h
    obtain ⟨⟨k, v⟩, rest, rfl, ⟨hk, hv⟩, hrest⟩ := h
    simp only at hk hv
    subst hk
    obtain ⟨w, hw⟩ := ih1 v (joinPath file k) hv (hk0 (k, v) (by simp)).2
    obtain ⟨as, has, hr⟩ := ih2 rest file hrest (fun kv h => hk0 kv (List.mem_cons_of_mem _ h))
    refine ⟨(k, w) :: as, by simp [asdictD, asdictP, hw.dump, has, bind, Except.bind, pure, Except.pure], ?_⟩
    exact .cons ⟨rfl, rfl, hw.load, hw.weak (hk0 (k, v) (by simp)).1⟩ hr
end

mutual
/-- well-typed values in the strict sense are covered -/
theorem strict_firm (e : Ext) : ∀ (t : PyTy) (v : Val), TyOK e t → HasType false t v →
    HasType true t v ∧ Firm v ∧ v.isWeak = false
  | .int, v, _, h => by
    refine ⟨by simpa only [HasType] using h, ?_⟩
    simp only [HasType] at h
    rcases h with ⟨_, rfl⟩ | ⟨_, rfl⟩ <;> exact ⟨trivial, rfl⟩
  | .float, v, _, h => by
    refine ⟨by simpa only [HasType] using h, ?_⟩
    simp only [HasType] at h
    obtain ⟨_, rfl⟩ := h; exact ⟨trivial, rfl⟩
  | .str, v, _, h => by
    refine ⟨by simpa only [HasType] using h, ?_⟩
    simp only [HasType] at h
    obtain ⟨_, rfl⟩ := h; exact ⟨trivial, rfl⟩
  | .bool, v, _, h => by
    refine ⟨by simpa only [HasType] using h, ?_⟩
    simp only [HasType] at h
    obtain ⟨_, rfl⟩ := h; exact ⟨trivial, rfl⟩
  | .noneT, v, _, h => by
    refine ⟨by simpa only [HasType] using h, ?_⟩
    simp only [HasType] at h
    subst h; exact ⟨trivial, rfl⟩
  | .list a, v, ht, h => by
    simp only [HasType] at h ⊢
    obtain ⟨xs, rfl, hx⟩ := h
    have ih := fun x hm => strict_firm e a x (by simpa only [TyOK] using ht) (hx x hm)
    exact ⟨⟨xs, rfl, fun x hm => (ih x hm).1⟩, by simp only [Firm, firmL_iff]; exact fun x hm => (ih x hm).2.1, rfl⟩
  | .tuple as, v, ht, h => by
    simp only [HasType] at h ⊢
    obtain ⟨xs, rfl, hx⟩ := h
    have ih := strict_firms e as xs (by simpa only [TyOK] using ht) hx
    exact ⟨⟨xs, rfl, ih.1⟩, by simp only [Firm, firmL_iff]; exact ih.2, rfl⟩
  | .dict k b, v, ht, h => by
    simp only [HasType] at h ⊢
    simp only [TyOK] at ht
    obtain ⟨kvs, rfl, hk, hx⟩ := h
    have ih := fun x hm => strict_firm e b (Prod.snd x) ht.2 (hx x hm)
    refine ⟨⟨kvs, rfl, by simp, fun x hm => (ih x hm).1⟩, by simp only [Firm, firmD_iff]; exact ⟨(hk trivial).1, fun x hm => (ih x hm).2.1⟩, ?_⟩
    simp only [Val.isWeak, dhas_eq_keys, decide_eq_false_iff_not]
    exact (hk trivial).2
  | .union as, v, ht, h => by
    simp only [HasType] at h ⊢
    simp only [TyOK] at ht
    exact strict_firmAny e as v ht.1 h
  | .data _ fs _, v, ht, h => by
    simp only [HasType] at h ⊢
    simp only [TyOK] at ht
    obtain ⟨kvs, rfl, hf⟩ := h
    obtain ⟨h1, h2⟩ := strict_firmf e fs kvs ht.2.2.2.2 hf
    exact ⟨⟨kvs, rfl, h1⟩, by simp only [Firm, firmD_iff]; exact ⟨fun kv hm => (h2 kv hm).1, fun kv hm => (h2 kv hm).2⟩, rfl⟩
  | .enum _ _, v, _, h => by
    refine ⟨by simpa only [HasType] using h, ?_⟩
    simp only [HasType] at h
    obtain ⟨_, _, _, rfl⟩ := h; exact ⟨trivial, rfl⟩
  | .literal vs, v, ht, h => by
    simp only [HasType] at h ⊢
    simp only [TyOK] at ht
    have hv : v ∈ vs := by simpa using h
    refine ⟨.inl hv, ?_⟩
    have := (ht v hv).2
    cases v <;> simp_all [LitOK, Firm, Val.isWeak]
  | .blob _, _, ht, _ => by simp [TyOK] at ht
theorem strict_firms (e : Ext) : ∀ (ts : List PyTy) (xs : List Val), TyOKs e ts → HasTypes false ts xs →
    HasTypes true ts xs ∧ ∀ x ∈ xs, Firm x
  | [], xs, _, h => by simp only [HasTypes] at h ⊢; subst h; simp
  | t :: ts, xs, ht, h => by
    simp only [HasTypes] at h ⊢
    simp only [TyOKs] at ht
    rcases h with h | ⟨y, ys, rfl, hy, hys⟩
    · simp at h
    · have h1 := strict_firm e t y ht.1 hy
      have h2 := strict_firms e ts ys ht.2 hys
      exact ⟨.inr ⟨y, ys, rfl, h1.1, h2.1⟩, by simpa using ⟨h1.2.1, h2.2⟩⟩
theorem strict_firmAny (e : Ext) : ∀ (ts : List PyTy) (v : Val), TyOKs e ts → HasTypeAny false ts v →
    HasTypeAny true ts v ∧ Firm v ∧ v.isWeak = false
  | [], _, _, h => by simp [HasTypeAny] at h
  | t :: ts, v, ht, h => by
    simp only [HasTypeAny] at h ⊢
    simp only [TyOKs] at ht
    rcases h with h | h
    · have := strict_firm e t v ht.1 h; exact ⟨.inl this.1, this.2⟩
    · have := strict_firmAny e ts v ht.2 h; exact ⟨.inr this.1, this.2⟩
theorem strict_firmf (e : Ext) : ∀ (fs : List Fld) (kvs : List (String × Val)), FldsOK e fs → HasFields false fs kvs →
    HasFields true fs kvs ∧ ∀ kv ∈ kvs, kv.2.isWeak = false ∧ Firm kv.2
  | [], kvs, _, h => by simp only [HasFields] at h ⊢; subst h; simp
  | .mk n t d :: fs, kvs, ht, h => by
    simp only [HasFields, HasField] at h ⊢
    simp only [FldsOK, FldOK] at ht
    obtain ⟨kv, rest, rfl, ⟨h1, h2⟩, h3⟩ := h
    have i1 := strict_firm e t kv.2 ht.1 h2
    have i2 := strict_firmf e fs rest ht.2 h3
    exact ⟨⟨kv, rest, rfl, ⟨h1, i1.1⟩, i2.1⟩, by
      intro kv' hm
      rcases List.mem_cons.1 hm with rfl | hm
      · exact ⟨i1.2.2, i1.2.1⟩
      · exact i2.2 kv' hm⟩
end

/-- the round trip through the text format -/
theorem rt {c : SerCfg} {dc : DCfg} (hc : DumpCfg c) (hel : c.elide = false) (t : PyTy) (ht : TyOK dc.ext t)
    (he : EnvOK c.env t) : RT c dc t := rtG hc.write hel t ht he (Or.inl hc.named)

theorem rt_strict {c : SerCfg} {dc : DCfg} (hc : DumpCfg c) (hel : c.elide = false) (t : PyTy) (ht : TyOK dc.ext t)
    (he : EnvOK c.env t) (v : Val) (file : String) (hv : HasType false t v) : ∃ w, RTOne c dc t v file w :=
  have h := strict_firm dc.ext t v ht hv
  rt hc hel t ht he v file h.1 h.2.1

end HS
