import Verif.Proofs.Serde
import Verif.Proofs.PyEq
import Mathlib.Data.List.Perm.Subperm
import Verif.Props.RoundTrip
import Verif.Spec.Example
/-!
# C03: leaving out fields that have their default value loses nothing
-/
namespace HS

mutual
/-- no `nan` anywhere in the value (`nan` is not equal to itself, so no statement with `==` can hold for it) -/
def NoNan : Val → Prop
  | .flt f => f ≠ .nan
  | .list xs => NoNanL xs
  | .tup xs => NoNanL xs
  | .dict d => NoNanD d
  | .ntup _ d => NoNanD d
  | .inst _ d => NoNanD d
  | .ser _ r => NoNan r
  | _ => True
termination_by structural x => x
def NoNanL : List Val → Prop
  | [] => True
  | x :: xs => NoNan x ∧ NoNanL xs
termination_by structural x => x
def NoNanD : List (String × Val) → Prop
  | [] => True
  | x :: xs => NoNanP x ∧ NoNanD xs
termination_by structural x => x
def NoNanP : String × Val → Prop
  | (_, v) => NoNan v
termination_by structural x => x
end

theorem noNanL_iff (xs : List Val) : NoNanL xs ↔ ∀ x ∈ xs, NoNan x := by
  induction xs with
  | nil => simp [NoNanL]
  | cons x xs ih => simp [NoNanL, ih]

theorem noNanD_iff (d : List (String × Val)) : NoNanD d ↔ ∀ kv ∈ d, NoNan kv.2 := by
  induction d with
  | nil => simp [NoNanD]
  | cons x xs ih => obtain ⟨k, v⟩ := x; simp [NoNanD, NoNanP, ih]

mutual
/-- `d` is not the serialized form of a value of a different kind: no string where an enum member is expected, no (named)
tuple where an instance is expected. Every value of the declared type has this shape (`dfltShape_of_hasType`), and so have
most sloppy defaults, e.g. `x: float = 1` or `x: int = None`. -/
def DfltShape : PyTy → Val → Prop
  | .int, _ | .float, _ | .str, _ | .bool, _ | .noneT, _ | .literal _, _ | .blob _, _ => True
  | .list a, d => ∀ xs, d = .list xs → ∀ x ∈ xs, DfltShape a x
  | .tuple as, d => (∀ m kvs, d ≠ .ntup m kvs) ∧ ∀ xs, d = .tup xs → DfltShapes as xs
  | .dict _ b, d => ∀ kvs, d = .dict kvs → ∀ kv ∈ kvs, DfltShape b kv.2
  | .union as, d => DfltShapeAll as d
  | .data _ _ _, d => (∀ xs, d ≠ .tup xs) ∧ ∀ m kvs, d ≠ .ntup m kvs
  | .enum _ _, d => ∀ s, d ≠ .str s
termination_by structural x => x
def DfltShapes : List PyTy → List Val → Prop
  | [], _ => True
  | t :: ts, xs => ∀ y ys, xs = y :: ys → DfltShape t y ∧ DfltShapes ts ys
termination_by structural x => x
def DfltShapeAll : List PyTy → Val → Prop
  | [], _ => True
  | t :: ts, v => DfltShape t v ∧ DfltShapeAll ts v
termination_by structural x => x
end

theorem dfltShapeAll_iff (v : Val) : ∀ as, DfltShapeAll as v ↔ ∀ a ∈ as, DfltShape a v := by
  intro as
  induction as with
  | nil => simp [DfltShapeAll]
  | cons a as ih => simp [DfltShapeAll, ih]

mutual
/-- the declared defaults have the right shape -/
def DfltOK : PyTy → Prop
  | .int | .float | .str | .bool | .noneT | .enum _ _ | .literal _ | .blob _ => True
  | .list a => DfltOK a
  | .tuple as => DfltOKs as
  | .dict _ b => DfltOK b
  | .union as => DfltOKs as
  | .data _ fs _ => DfltOKf fs
termination_by structural x => x
def DfltOKs : List PyTy → Prop
  | [] => True
  | t :: ts => DfltOK t ∧ DfltOKs ts
termination_by structural x => x
def DfltOKf : List Fld → Prop
  | [] => True
  | f :: fs => DfltOK1 f ∧ DfltOKf fs
termination_by structural x => x
def DfltOK1 : Fld → Prop
  | .mk _ t d => DfltOK t ∧ ∀ v, d = some v → DfltShape t v
termination_by structural x => x
end

/-! ## `ElideDefaults` is a filter -/

/-- is this attribute left out? -/
def elidable (ds : List (String × Option Val)) (a : String × Val) : Bool :=
  ds.any (fun e => e.1 == a.1 && match e.2 with | some d => pyEq a.2 d | .none => false)

theorem ddel_eq_filter {α : Type} (d : List (String × α)) (k : String) : ddel d k = d.filter (fun a => !(k == a.1)) := by
  induction d with
  | nil => rfl
  | cons a d ih =>
    obtain ⟨k', v⟩ := a
    simp only [ddel]
    by_cases h : k' = k
    · simp [h, ih]
    · have : ¬ k = k' := fun e => h e.symm
      simp [h, this, ih]

theorem elidable_cons (n : String) (d : Option Val) (ds : List (String × Option Val)) (a : String × Val) :
    elidable ((n, d) :: ds) a
      = ((n == a.1 && match d with | some d => pyEq a.2 d | .none => false) || elidable ds a) := by
  simp [elidable]

theorem elideAttrs_filter : ∀ (ds : List (String × Option Val)) (attrs : List (String × Val)), (dkeys attrs).Nodup →
    elideAttrs ds attrs = attrs.filter (fun a => !elidable ds a) := by
  intro ds
  induction ds with
  | nil =>
    intro attrs _
    have : (fun a : String × Val => !elidable [] a) = fun _ => true := by funext a; simp [elidable]
    rw [this, List.filter_eq_self.2 (by simp)]
    rfl
  | cons e ds ih =>
    obtain ⟨n, d⟩ := e
    intro attrs hn
    simp only [elideAttrs]
    have hcong : ∀ attrs' : List (String × Val), (∀ a ∈ attrs', elidable ((n, d) :: ds) a = elidable ds a) →
        attrs'.filter (fun a => !elidable ds a) = attrs'.filter (fun a => !elidable ((n, d) :: ds) a) := by
      intro attrs' h
      apply List.filter_congr
      intro a ha
      rw [h a ha]
    have hcons := elidable_cons n d ds
    cases d with
    | none =>
      rw [ih attrs hn]
      apply hcong
      intro a _; rw [hcons]; simp
    | some d =>
      cases hg : dget attrs n with
      | none =>
        simp only
        rw [ih attrs hn]
        apply hcong
        intro a ha
        rw [hcons]
        have : ¬ n = a.1 := by
          intro e
          have := dget_of_mem (d := attrs) (k := a.1) (v := a.2) hn ha
          rw [← e, hg] at this; cases this
        simp [this]
      | some x =>
        simp only
        have huniq : ∀ a ∈ attrs, n = a.1 → a.2 = x := by
          intro a ha e
          have := dget_of_mem (d := attrs) (k := a.1) (v := a.2) hn ha
          rw [← e, hg] at this; cases this; rfl
        cases hp : pyEq x d with
        | true =>
          simp only [if_true]
          have hnd : (dkeys (ddel attrs n)).Nodup := by
            rw [ddel_eq_filter]
            exact hn.sublist (List.filter_sublist.map _)
          rw [ih _ hnd, ddel_eq_filter, List.filter_filter]
          apply List.filter_congr
          intro a ha
          rw [hcons]
          by_cases e : n = a.1
          · simp [e, huniq a ha e, hp]
          · have : (n == a.1) = false := by simpa using e
            simp [this]
        | false =>
          simp only [Bool.false_eq_true, if_false]
          rw [ih attrs hn]
          apply hcong
          intro a ha
          rw [hcons]
          by_cases e : n = a.1
          · simp [e, huniq a ha e, hp]
          · simp [e]

mutual
/-- a value for which `==` to itself holds and that can be stored: no `nan`, the keys of a dict are distinct (as in every Python
dict), and no attribute of an object is a dict with the key that marks objects created by upgrade rules -/
def Sound : Val → Prop
  | .flt f => f ≠ .nan
  | .list xs => SoundL xs
  | .tup xs => SoundL xs
  | .dict d => (dkeys d).Nodup ∧ SoundD d
  | .ntup _ d => SoundD d
  | .inst _ d => (∀ kv ∈ d, kv.2.isWeak = false) ∧ SoundD d
  | _ => True
termination_by structural x => x
def SoundL : List Val → Prop
  | [] => True
  | x :: xs => Sound x ∧ SoundL xs
termination_by structural x => x
def SoundD : List (String × Val) → Prop
  | [] => True
  | x :: xs => SoundP x ∧ SoundD xs
termination_by structural x => x
def SoundP : String × Val → Prop
  | (_, v) => Sound v
termination_by structural x => x
end

theorem soundL_iff (xs : List Val) : SoundL xs ↔ ∀ x ∈ xs, Sound x := by
  induction xs with
  | nil => simp [SoundL]
  | cons x xs ih => simp [SoundL, ih]

theorem soundD_iff (d : List (String × Val)) : SoundD d ↔ ∀ kv ∈ d, Sound kv.2 := by
  induction d with
  | nil => simp [SoundD]
  | cons x xs ih => obtain ⟨k, v⟩ := x; simp [SoundD, SoundP, ih]

/-! ## one value -/

mutual
theorem sound_of : ∀ v : Val, Firm v → NoNan v → Sound v
  | .none, _, _ | .bool _, _, _ | .int _, _, _ | .str _, _, _ | .enm _ _ _, _, _ | .ser _ _, _, _ => by simp [Sound]
  | .flt f, _, hn => by simpa only [NoNan, Sound] using hn
  | .list xs, hf, hn => by
    simp only [Firm] at hf; simp only [NoNan] at hn; simp only [Sound]; exact sound_ofL xs hf hn
  | .tup xs, hf, hn => by
    simp only [Firm] at hf; simp only [NoNan] at hn; simp only [Sound]; exact sound_ofL xs hf hn
  | .dict d, hf, hn => by
    simp only [Firm] at hf; simp only [NoNan] at hn; simp only [Sound]; exact ⟨hf.1, sound_ofD d hf.2 hn⟩
  | .ntup _ d, hf, hn => by
    simp only [Firm] at hf; simp only [NoNan] at hn; simp only [Sound]; exact sound_ofD d hf hn
  | .inst _ d, hf, hn => by
    simp only [Firm] at hf; simp only [NoNan] at hn; simp only [Sound]; exact ⟨hf.1, sound_ofD d hf.2 hn⟩
theorem sound_ofL : ∀ xs : List Val, FirmL xs → NoNanL xs → SoundL xs
  | [], _, _ => trivial
  | x :: xs, hf, hn => by
    simp only [FirmL] at hf; simp only [NoNanL] at hn; exact ⟨sound_of x hf.1 hn.1, sound_ofL xs hf.2 hn.2⟩
theorem sound_ofD : ∀ xs : List (String × Val), FirmD xs → NoNanD xs → SoundD xs
  | [], _, _ => trivial
  | x :: xs, hf, hn => by
    simp only [FirmD] at hf; simp only [NoNanD] at hn; exact ⟨sound_ofP x hf.1 hn.1, sound_ofD xs hf.2 hn.2⟩
theorem sound_ofP : ∀ x : String × Val, FirmP x → NoNanP x → SoundP x
  | (_, v), hf, hn => by
    simp only [FirmP] at hf; simp only [NoNanP] at hn; simp only [SoundP]; exact sound_of v hf hn
end

structure ElOne (c : SerCfg) (dc : DCfg) (t : PyTy) (v : Val) (file : String) (w v' : Val) : Prop where
  dump : asdict c file v = .ok (w, [])
  load : ∀ ig path, fromDict dc t ig path (ronTrip w) = .ok (v', [])
  eq : pyEq v v' = true
  weak : v.isWeak = false → (ronTrip w).isWeak = false
  none : (ronTrip w).isNone = true → v = .none
  data : isData t = true → ∃ d, ronTrip w = .dict d ∧ dget d NAME_KEY = some (.str t.pyName)
  /-- comparing the serialized form with a default value of the class decides the same as comparing the value itself -/
  dflt : ∀ d, DfltShape t d → pyEq w d = true → pyEq v d = true
  /-- dumping what was loaded gives the same again -/
  again : asdict c file v' = .ok (w, [])
  /-- a default that is equal to the serialized form is its own serialized form -/
  dself : ∀ d, DfltShape t d → pyEq w d = true → (∀ f, asdict c f d = .ok (d, [])) ∧ pyEq d d = true

def EL (c : SerCfg) (dc : DCfg) (t : PyTy) : Prop :=
  ∀ v file, HasType true t v → Sound v → ∃ w v', ElOne c dc t v file w v'

theorem el_list {c dc t} (h : EL c dc t) : ∀ (xs : List Val) (i : Nat) (file : String), (∀ x ∈ xs, HasType true t x) →
    (∀ x ∈ xs, Sound x) →
    ∃ ws ys, asdictL c file i xs = .ok (ws, []) ∧ pyEqL xs ys = true ∧
      (∀ (f : Nat → Val → Res), (∀ i x, ∃ p, f i x = fromDict dc t false p x) → ∀ j, mapIdx f j (ronTripL ws) = .ok (ys, [])) ∧
      (∀ ds, (∀ d ∈ ds, DfltShape t d) → pyEqL ws ds = true → pyEqL xs ds = true) ∧
      asdictL c file i ys = .ok (ws, []) ∧
      ∀ ds, (∀ d ∈ ds, DfltShape t d) → pyEqL ws ds = true → (∀ f j, asdictL c f j ds = .ok (ds, [])) ∧ pyEqL ds ds = true := by
  intro xs
  induction xs with
  | nil =>
    intro i file _ _
    refine ⟨[], [], by simp [asdictL], rfl, by intro f _ j; simp [ronTripL, mapIdx], fun ds _ h => h, by simp [asdictL], ?_⟩
    intro ds _ h
    cases ds with
    | nil => exact ⟨fun _ _ => by simp [asdictL], rfl⟩
    | cons _ _ => simp [pyEqL] at h
  | cons x xs ih =>
    intro i file hx hnn
    obtain ⟨w, y, hw⟩ := h x (joinPath file i.repr) (hx x (by simp)) (hnn x (by simp))
    obtain ⟨ws, ys, hws, heq, hl, hd, hag, hds⟩ := ih (i + 1) file (fun y hy => hx y (List.mem_cons_of_mem _ hy))
      (fun y hy => hnn y (List.mem_cons_of_mem _ hy))
    refine ⟨w :: ws, y :: ys, by simp [asdictL, hw.dump, hws, bind, Except.bind, pure, Except.pure], ?_, ?_, ?_,
      by simp [asdictL, hw.again, hag, bind, Except.bind, pure, Except.pure], ?_⟩
    · simp [pyEqL, hw.eq, heq]
    · intro f hf j
      obtain ⟨p, hp⟩ := hf j (ronTrip w)
      simp [ronTripL, mapIdx, hp, hw.load, hl f hf, bind, Except.bind, pure, Except.pure]
    · intro ds hds he
      cases ds with
      | nil => simp [pyEqL] at he
      | cons d ds =>
        simp only [pyEqL, Bool.and_eq_true] at he ⊢
        exact ⟨hw.dflt d (hds d (by simp)) he.1, hd ds (fun d' h' => hds d' (List.mem_cons_of_mem _ h')) he.2⟩
    · intro ds hds' he
      cases ds with
      | nil => simp [pyEqL] at he
      | cons d ds =>
        simp only [pyEqL, Bool.and_eq_true] at he ⊢
        obtain ⟨a1, a2⟩ := hw.dself d (hds' d (by simp)) he.1
        obtain ⟨b1, b2⟩ := hds ds (fun d' h' => hds' d' (List.mem_cons_of_mem _ h')) he.2
        exact ⟨fun f j => by simp [asdictL, a1, b1, bind, Except.bind, pure, Except.pure], a2, b2⟩

theorem el_dict {c dc t} (h : EL c dc t) : ∀ (kvs : List (String × Val)) (file : String),
    (∀ kv ∈ kvs, HasType true t kv.2) → (∀ kv ∈ kvs, Sound kv.2) →
    ∃ ws ys, asdictD c file kvs = .ok (ws, []) ∧ dkeys ws = dkeys kvs ∧ dkeys ys = dkeys kvs ∧
      (∀ (f : String → Val → Res), (∀ k x, ∃ p, f k x = fromDict dc t false p x) → mapItems f (ronTripD ws) = .ok (ys, [])) ∧
      ((dkeys kvs).Nodup → pyEqD kvs ys = true) ∧
      (∀ d, (∀ kv ∈ d, DfltShape t kv.2) → pyEqD ws d = true → pyEqD kvs d = true) ∧
      asdictD c file ys = .ok (ws, []) ∧
      (∀ d, (∀ kv ∈ d, DfltShape t kv.2) → pyEqD ws d = true → ∀ k x, k ∈ dkeys ws → dget d k = some x →
        (∀ f, asdict c f x = .ok (x, [])) ∧ pyEq x x = true) := by
  intro kvs
  induction kvs with
  | nil =>
    intro file _ _
    exact ⟨[], [], by simp [asdictD], rfl, rfl, by intro f _; simp [ronTripD, mapItems], fun _ => rfl, fun _ _ _ => rfl,
      by simp [asdictD], fun _ _ _ _ _ h => nomatch h⟩
  | cons kv kvs ih =>
    obtain ⟨k, x⟩ := kv
    intro file hx hnn
    obtain ⟨w, y, hw⟩ := h x (joinPath file k) (hx (k, x) (by simp)) (hnn (k, x) (by simp))
    obtain ⟨ws, ys, hws, hk, hky, hl, he, hd, hag, hdse⟩ := ih file (fun y hy => hx y (List.mem_cons_of_mem _ hy))
      (fun y hy => hnn y (List.mem_cons_of_mem _ hy))
    refine ⟨(k, w) :: ws, (k, y) :: ys, by simp [asdictD, asdictP, hw.dump, hws, bind, Except.bind, pure, Except.pure],
      by simpa [dkeys] using hk, by simpa [dkeys] using hky, ?_, ?_, ?_,
      by simp [asdictD, asdictP, hw.again, hag, bind, Except.bind, pure, Except.pure], ?_⟩
    · intro f hf
      obtain ⟨p, hp⟩ := hf k (ronTrip w)
      simp [ronTripD, ronTripP, mapItems, hp, hw.load, hl f hf, bind, Except.bind, pure, Except.pure]
    · intro hn
      simp only [dkeys, List.map_cons, List.nodup_cons] at hn
      simp only [pyEqD, pyEqK, dget, if_true, hw.eq, Bool.true_and]
      have := he hn.2
      -- entries of the tail are not affected by the new head
      have gen : ∀ d : List (String × Val), (∀ kv ∈ d, kv.1 ≠ k) → pyEqD d ((k, y) :: ys) = pyEqD d ys := by
        intro d
        induction d with
        | nil => intro _; rfl
        | cons a d ih =>
          obtain ⟨k', v'⟩ := a
          intro hne
          have h1 : k ≠ k' := fun e => hne (k', v') (by simp) e.symm
          simp only [pyEqD, pyEqK, dget, if_neg h1]
          rw [ih (fun kv hkv => hne kv (List.mem_cons_of_mem _ hkv))]
      rw [gen kvs]
      · exact this
      · intro kv hkv e
        exact hn.1 (List.mem_map.2 ⟨kv, hkv, e⟩)
    · intro d hds hed
      simp only [pyEqD, pyEqK, Bool.and_eq_true] at hed ⊢
      refine ⟨?_, hd d hds hed.2⟩
      cases hg : dget d k with
      | none => simp [hg] at hed
      | some z =>
        simp only [hg] at hed ⊢
        exact hw.dflt z (hds _ (dget_mem hg)) hed.1
    · intro d hds hed k' z hk' hz
      simp only [pyEqD, pyEqK, Bool.and_eq_true] at hed
      by_cases hmem : k' ∈ dkeys ws
      · exact hdse d hds hed.2 k' z hmem hz
      · have : k' = k := by
          simp only [dkeys, List.map_cons, List.mem_cons] at hk' hmem
          tauto
        subst this
        rw [hz] at hed
        exact hw.dself z (hds _ (dget_mem hz)) hed.1

/-- a dict that is `==` to one with distinct keys has the same keys -/
theorem keys_of_pyEq {ws d : List (String × Val)} (hn : (dkeys ws).Nodup) (hlen : ws.length = d.length)
    (h : pyEqD ws d = true) : (dkeys d).Nodup ∧ ∀ k ∈ dkeys d, k ∈ dkeys ws := by
  have hsub : dkeys ws ⊆ dkeys d := by
    intro k hk
    obtain ⟨kv, hkv, rfl⟩ := List.mem_map.1 hk
    obtain ⟨w, hw, _⟩ := (pyEqD_iff ws d).1 h kv.1 kv.2 hkv
    exact List.mem_map.2 ⟨_, dget_mem hw, rfl⟩
  have hp : (dkeys ws).Perm (dkeys d) :=
    (List.subperm_of_subset hn hsub).perm_of_length_le (by simp [dkeys, hlen])
  exact ⟨hp.nodup_iff.1 hn, fun k hk => hp.mem_iff.2 hk⟩

theorem asdictD_self {c : SerCfg} {d : List (String × Val)} (h : ∀ kv ∈ d, ∀ f, asdict c f kv.2 = .ok (kv.2, [])) (f : String) :
    asdictD c f d = .ok (d, []) := by
  induction d with
  | nil => simp [asdictD]
  | cons kv d ih =>
    obtain ⟨k, x⟩ := kv
    simp [asdictD, asdictP, h (k, x) (by simp), ih (fun kv' h' => h kv' (List.mem_cons_of_mem _ h')), bind, Except.bind,
      pure, Except.pure]

/-! ## dataclasses -/

/-- a field, its serialized attribute, its attribute, and the attribute its serialized form loads as -/
structure Quad where
  f : Fld
  a : String × Val
  kv : String × Val
  l : String × Val

structure QuadOK (q : Quad) : Prop where
  ha : q.a.1 = q.f.name
  hkv : q.kv.1 = q.f.name
  hl : q.l.1 = q.f.name
  weak : (ronTrip q.a.2).isWeak = false
  eq : pyEq q.kv.2 q.l.2 = true
  dflt : ∀ d, q.f.dflt = some d → pyEq q.a.2 d = true → pyEq q.kv.2 d = true

/-- the serialized attribute loads as `l`, at every path -/
def QuadLoad (dc : DCfg) (q : Quad) : Prop :=
  ∀ ig path, fromDict dc q.f.ty ig path (ronTrip q.a.2) = .ok (q.l.2, [])

/-- is the attribute written? -/
def Quad.kept (q : Quad) : Bool := match q.f.dflt with
  | some d => !pyEq q.a.2 d
  | .none => true

/-- the attribute after the round trip -/
def Quad.final (q : Quad) : String × Val :=
  if q.kept then q.l else (q.f.name, q.f.dflt.getD .none)

theorem Quad.name_inj {qs : List Quad} (h : (qs.map (fun q => q.f.name)).Nodup) {q q' : Quad} (hq : q ∈ qs) (hq' : q' ∈ qs)
    (he : q.f.name = q'.f.name) : q = q' := by
  induction qs with
  | nil => simp at hq
  | cons x qs ih =>
    simp only [List.map_cons, List.nodup_cons] at h
    rcases List.mem_cons.1 hq with rfl | hq1 <;> rcases List.mem_cons.1 hq' with rfl | hq2
    · rfl
    · exact absurd (List.mem_map.2 ⟨q', hq2, he.symm⟩) h.1
    · exact absurd (List.mem_map.2 ⟨q, hq1, he⟩) h.1
    · exact ih h.2 hq1 hq2

theorem el_items (dc : DCfg) (fs0 : List Fld) (hn : (fs0.map Fld.name).Nodup) (path : String) (ig : Bool) :
    ∀ (qs : List Quad), (∀ q ∈ qs, QuadOK q ∧ QuadLoad dc q ∧ q.f ∈ fs0 ∧ q.f.name ≠ NAME_KEY) →
    itemsLoop (fun k x => fdField dc fs0 k (fieldPath path k) x) ig (ronTripD ((qs.filter Quad.kept).map Quad.a))
      = .ok ((qs.filter Quad.kept).map Quad.l, []) := by
  intro qs
  induction qs with
  | nil => intro _; simp [ronTripD, itemsLoop]
  | cons q qs ih =>
    intro h
    have ihh := ih (fun q' hq' => h q' (List.mem_cons_of_mem _ hq'))
    obtain ⟨hq, hql, hf, hnk⟩ := h q (by simp)
    cases hk : q.kept with
    | false => simp only [List.filter_cons, hk]; exact ihh
    | true =>
      simp only [List.filter_cons, hk, if_true, List.map_cons]
      obtain ⟨f, ⟨k, w⟩, kv, l⟩ := q
      have ha : k = f.name := hq.ha
      have hw := hq.weak
      have hld := hql
      simp only [QuadLoad] at hw hld hf hnk
      subst ha
      simp only [ronTripD, ronTripP, itemsLoop]
      rw [if_neg hnk, if_neg (by simpa using hw), fdField_mem dc f.name _ _ fs0 f hn hf rfl]
      simp only [hld, ihh, bind, Except.bind, pure, Except.pure]
      have hl := hq.hl
      simp only at hl
      have : (f.name, l.2) = l := by rw [← hl]
      rw [this]
      rfl

theorem el_fill (kw : List (String × Val)) : ∀ (qs : List Quad), (∀ q ∈ qs, QuadOK q ∧
      dget kw q.f.name = if q.kept then some q.l.2 else .none) →
    fillFields kw (qs.map Quad.f) = .ok (qs.map Quad.final) := by
  intro qs
  induction qs with
  | nil => intro _; rfl
  | cons q qs ih =>
    intro h
    have ihh := ih (fun q' hq' => h q' (List.mem_cons_of_mem _ hq'))
    obtain ⟨hq, hg⟩ := h q (by simp)
    have hv : fieldValue kw q.f = .ok q.final.2 := by
      simp only [fieldValue, hg, Quad.final]
      cases hk : q.kept with
      | true => simp
      | false =>
        simp only [Bool.false_eq_true, if_false]
        simp only [Quad.kept] at hk
        cases hd : q.f.dflt with
        | none => rw [hd] at hk; simp at hk
        | some d => simp
    have hn : q.final.1 = q.f.name := by
      simp only [Quad.final]; split
      · exact hq.hl
      · rfl
    simp only [List.map_cons, fillFields, hv, ihh, bind, Except.bind, pure, Except.pure]
    rw [← hn]

theorem el_eq : ∀ (qs : List Quad), (∀ q ∈ qs, QuadOK q) →
    pyEqV (qs.map Quad.kv) ((qs.map Quad.final).map Prod.snd) = true := by
  intro qs
  induction qs with
  | nil => intro _; rfl
  | cons q qs ih =>
    intro h
    have hq := h q (by simp)
    simp only [List.map_cons, pyEqV, Bool.and_eq_true]
    refine ⟨?_, ih (fun q' hq' => h q' (List.mem_cons_of_mem _ hq'))⟩
    obtain ⟨f, a, ⟨k, x⟩, l⟩ := q
    simp only [pyEqS, Quad.final]
    cases hk : Quad.kept ⟨f, a, (k, x), l⟩ with
    | true => simp only [if_true]; exact hq.eq
    | false =>
      simp only [Bool.false_eq_true, if_false]
      simp only [Quad.kept] at hk
      cases hd : f.dflt with
      | none => rw [hd] at hk; simp at hk
      | some d =>
        rw [hd] at hk
        simp only [Option.getD]
        exact hq.dflt d hd (by simpa using hk)

/-- what is written for an object: exactly the kept attributes, and the version -/
theorem el_pack {c : SerCfg} (hnamed : c.named = true) (hversioned : c.versioned = true) (hel : c.elide = true) (n : String) (fs : List Fld)
    (ver : Option VerInfo) (hnd : (fs.map Fld.name).Nodup) (hnames : ∀ f ∈ fs, NameOK f.name)
    (hver : ver.isSome = true → ∀ f ∈ fs, f.name ≠ "version") (henv : EnvOK c.env (.data n fs ver)) (qs : List Quad)
    (hfs : fs = qs.map Quad.f) (hq : ∀ q ∈ qs, q.a.1 = q.f.name) :
    packAttrs c n (qs.map Quad.a) = .ok (.ntup n (match ver with
      | some vi => ("version", .int vi.version) :: (qs.filter Quad.kept).map Quad.a
      | .none => (qs.filter Quad.kept).map Quad.a)) := by
  simp only [EnvOK] at henv
  have hqn : (qs.map (fun q => q.f.name)).Nodup := by
    have : fs.map Fld.name = qs.map (fun q => q.f.name) := by rw [hfs]; simp
    rw [← this]; exact hnd
  have hqf : ∀ q ∈ qs, q.f ∈ fs := by intro q hqm; rw [hfs]; exact List.mem_map.2 ⟨q, hqm, rfl⟩
  have hkeysa : dkeys (qs.map Quad.a) = qs.map (fun q => q.f.name) := by
    simp only [dkeys, List.map_map]
    apply List.map_congr_left
    intro q hqm; simp [hq q hqm]
  -- the filter of ElideDefaults keeps exactly the kept attributes
  have hfilter : (qs.map Quad.a).filter (fun a => !elidable (fs.map (fun f => (f.name, f.dflt))) a)
      = (qs.filter Quad.kept).map Quad.a := by
    rw [List.filter_map]
    congr 1
    apply List.filter_congr
    intro q hqm
    simp only [Function.comp, elidable, Quad.kept]
    have hqa := hq q hqm
    cases hd : q.f.dflt with
    | none =>
      simp only [Bool.not_eq_true', List.any_eq_false, hfs, List.map_map, List.mem_map]
      rintro e ⟨q', hq', rfl⟩
      simp only [Function.comp]
      by_cases hne : q'.f.name = q.a.1
      · have : q' = q := Quad.name_inj hqn hq' hqm (by rw [hne, hqa])
        subst this; simp [hd]
      · simp [hne]
    | some d =>
      congr 1
      cases hp : pyEq q.a.2 d with
      | true =>
        rw [List.any_eq_true]
        refine ⟨(q.f.name, q.f.dflt), List.mem_map.2 ⟨q.f, hqf q hqm, rfl⟩, ?_⟩
        simp [hqa, hd, hp]
      | false =>
        simp only [List.any_eq_false, hfs, List.map_map, List.mem_map]
        rintro e ⟨q', hq', rfl⟩
        simp only [Function.comp]
        by_cases hne : q'.f.name = q.a.1
        · have : q' = q := Quad.name_inj hqn hq' hqm (by rw [hne, hqa])
          subst this; simp [hd, hp]
        · simp [hne]
  have huscore : ∀ a ∈ (qs.filter Quad.kept).map Quad.a, ['_'].isPrefixOf a.1.toList = false := by
    intro a ha
    obtain ⟨q, hqm, rfl⟩ := List.mem_map.1 ha
    have hqm := (List.mem_filter.1 hqm).1
    rw [hq q hqm]; exact (hnames q.f (hqf q hqm)).2.2
  have hnda : (dkeys (qs.map Quad.a)).Nodup := by rw [hkeysa]; exact hqn
  cases ver with
  | none =>
    have hok : ntNamesOk ((qs.filter Quad.kept).map Quad.a) = true := by
      simp only [ntNamesOk, List.all_eq_true]; intro a ha; simp [huscore a ha]
    simp only [packAttrs, modifyAttrs, henv.1, hel, hnamed, hversioned, if_true, Option.map_none,
      elideAttrs_filter _ _ hnda, hfilter, hok]
  | some vi =>
    have hnv : "version" ∉ dkeys (qs.map Quad.a) := by
      rw [hkeysa]; intro h
      obtain ⟨q, hqm, hfe⟩ := List.mem_map.1 h
      exact hver rfl q.f (hqf q hqm) hfe
    have hok : ntNamesOk (("version", Val.int vi.version) :: (qs.filter Quad.kept).map Quad.a) = true := by
      simp only [ntNamesOk, List.all_eq_true]; intro a ha
      rcases List.mem_cons.1 ha with rfl | ha
      · have : (!['_'].isPrefixOf "version".toList) = true := by decide
        exact this
      · simp [huscore a ha]
    have hnd2 : (dkeys (("version", Val.int vi.version) :: qs.map Quad.a)).Nodup := by
      have h1 : dkeys (("version", Val.int vi.version) :: qs.map Quad.a) = "version" :: dkeys (qs.map Quad.a) := rfl
      rw [h1, List.nodup_cons]
      exact ⟨hnv, hnda⟩
    have hev : elidable (fs.map (fun f => (f.name, f.dflt))) ("version", Val.int vi.version) = false := by
      simp only [elidable, List.any_eq_false, List.mem_map]
      rintro e ⟨f, hf, rfl⟩
      simp [hver rfl f hf]
    simp only [packAttrs, modifyAttrs, henv.1, hel, hnamed, hversioned, if_true, Option.map_some,
      foldl_dset_version _ _ hnda hnv, elideAttrs_filter _ _ hnd2, List.filter_cons, hev, Bool.not_false, hfilter, hok]

/-- dumping again: the loaded attribute, or the default that stands for it, in its serialized form -/
structure QuadAgain (c : SerCfg) (file : String) (q : Quad) : Prop where
  again : asdict c (joinPath file q.f.name) q.l.2 = .ok (q.a.2, [])
  dself : ∀ d, q.f.dflt = some d → pyEq q.a.2 d = true →
    asdict c (joinPath file q.f.name) d = .ok (d, []) ∧ pyEq d d = true

/-- the field in the second dump -/
def Quad.second (q : Quad) : Quad :=
  if q.kept then q else { q with a := (q.f.name, q.f.dflt.getD .none) }

theorem Quad.second_f (q : Quad) : q.second.f = q.f := by
  simp only [Quad.second]; split <;> rfl

theorem Quad.second_a1 (q : Quad) (h : q.a.1 = q.f.name) : q.second.a.1 = q.f.name := by
  simp only [Quad.second]; split
  · exact h
  · rfl

theorem Quad.second_kept {c : SerCfg} {file : String} {q : Quad} (h : QuadAgain c file q) : q.second.kept = q.kept := by
  simp only [Quad.second]
  cases hk : q.kept with
  | true => simp [hk]
  | false =>
    simp only [Bool.false_eq_true, if_false]
    simp only [Quad.kept] at hk ⊢
    cases hd : q.f.dflt with
    | none => rw [hd] at hk; simp at hk
    | some d =>
      rw [hd] at hk
      have := (h.dself d hd (by simpa using hk)).2
      simp [this]

theorem el_again {c : SerCfg} {file : String} : ∀ qs : List Quad, (∀ q ∈ qs, QuadAgain c file q ∧ q.l.1 = q.f.name ∧ q.a.1 = q.f.name) →
    asdictD c file (qs.map Quad.final) = .ok ((qs.map Quad.second).map Quad.a, []) ∧
      ((qs.map Quad.second).filter Quad.kept).map Quad.a = (qs.filter Quad.kept).map Quad.a := by
  intro qs
  induction qs with
  | nil => intro _; exact ⟨by simp [asdictD], rfl⟩
  | cons q qs ih =>
    intro h
    obtain ⟨h1, h2⟩ := ih (fun q' hq' => h q' (List.mem_cons_of_mem _ hq'))
    obtain ⟨hq, hl, ha⟩ := h q (by simp)
    have hp : asdictP c file q.final = .ok (q.second.a, []) := by
      simp only [Quad.final, Quad.second]
      cases hk : q.kept with
      | true =>
        obtain ⟨f, ⟨ka, a⟩, kv, ⟨kl, l⟩⟩ := q
        simp only at hl ha
        subst hl ha
        have := hq.again
        simp only at this
        simp [asdictP, this, bind, Except.bind, pure, Except.pure]
      | false =>
        simp only [Quad.kept] at hk
        cases hd : q.f.dflt with
        | none => rw [hd] at hk; simp at hk
        | some d =>
          rw [hd] at hk
          have := (hq.dself d hd (by simpa using hk)).1
          simp [asdictP, this, bind, Except.bind, pure, Except.pure]
    refine ⟨by simp only [List.map_cons, asdictD, hp, h1, bind, Except.bind, pure, Except.pure]; rfl, ?_⟩
    simp only [List.map_cons, List.filter_cons, Quad.second_kept hq]
    cases hk : q.kept with
    | true =>
      have : q.second = q := by simp [Quad.second, hk]
      simp only [if_true, List.map_cons, this, h2]
    | false => simpa using h2

/-- An object: what is written, and what loading it gives (`es` are the events of the load, at the paths in `Pp`). -/
theorem el_obj {c : SerCfg} {dc : DCfg} (hnamed : c.named = true) (hversioned : c.versioned = true) (hel : c.elide = true) (n : String)
    (fs : List Fld) (ver : Option VerInfo) (hnd : (fs.map Fld.name).Nodup) (hnames : ∀ f ∈ fs, NameOK f.name)
    (hver : ver.isSome = true → ∀ f ∈ fs, f.name ≠ "version") (hvok : VerOK ver) (henv : EnvOK c.env (.data n fs ver))
    (file : String) (hhook : ∀ kvs, serHooks c file (.inst n kvs) = .ok (.inst n kvs, [])) (kvs : List (String × Val)) (qs : List Quad)
    (has : asdictD c file kvs = .ok (qs.map Quad.a, [])) (hfs : fs = qs.map Quad.f) (hkvs : kvs = qs.map Quad.kv)
    (hq : ∀ q ∈ qs, QuadOK q) (hqa : ∀ q ∈ qs, QuadAgain c file q) (Pp : String → Prop) (es : List Ev)
    (hitems : ∀ path, Pp path → ∀ ig, itemsLoop (fun k x => fdField dc fs k (fieldPath path k) x) ig
      (ronTripD ((qs.filter Quad.kept).map Quad.a)) = .ok ((qs.filter Quad.kept).map Quad.l, es)) :
    ∃ as v', asdict c file (.inst n kvs) = .ok (.ntup n as, []) ∧
      (∀ ig path, Pp path → fromDict dc (.data n fs ver) ig path (ronTrip (.ntup n as)) = .ok (v', es)) ∧
      pyEq (.inst n kvs) v' = true ∧ (ronTrip (.ntup n as)).isWeak = false ∧
      (∃ d, ronTrip (.ntup n as) = .dict d ∧ dget d NAME_KEY = some (.str n)) ∧
      asdict c file v' = .ok (.ntup n as, []) := by
  have hpack := el_pack hnamed hversioned hel n fs ver hnd hnames hver henv qs hfs (fun q hqm => (hq q hqm).ha)
  obtain ⟨hag1, hag2⟩ := el_again (c := c) (file := file) qs (fun q hqm => ⟨hqa q hqm, (hq q hqm).hl, (hq q hqm).ha⟩)
  have hpack2 := el_pack hnamed hversioned hel n fs ver hnd hnames hver henv (qs.map Quad.second)
    (by rw [hfs]; simp only [List.map_map]; exact List.map_congr_left (fun q _ => q.second_f.symm))
    (by
      intro q hqm
      obtain ⟨q', hq', rfl⟩ := List.mem_map.1 hqm
      rw [q'.second_a1 (hq q' hq').ha, q'.second_f])
  rw [hag2, ← hpack] at hpack2
  simp only [EnvOK] at henv
  have hqn : (qs.map (fun q => q.f.name)).Nodup := by
    have : fs.map Fld.name = qs.map (fun q => q.f.name) := by rw [hfs]; simp
    rw [← this]; exact hnd
  have hqf : ∀ q ∈ qs, q.f ∈ fs := by intro q hqm; rw [hfs]; exact List.mem_map.2 ⟨q, hqm, rfl⟩
  have hkeysa : dkeys (qs.map Quad.a) = qs.map (fun q => q.f.name) := by
    simp only [dkeys, List.map_map]
    apply List.map_congr_left
    intro q hqm; simp [(hq q hqm).ha]
  have hnk : ∀ f ∈ fs, f.name ≠ NAME_KEY := fun f h => (hnames f h).1
  have hkw : ∀ q ∈ qs, dget ((qs.filter Quad.kept).map Quad.l) q.f.name = if q.kept then some q.l.2 else .none := by
    intro q hqm
    have hndl : (dkeys ((qs.filter Quad.kept).map Quad.l)).Nodup := by
      have : dkeys ((qs.filter Quad.kept).map Quad.l) = (qs.filter Quad.kept).map (fun q => q.f.name) := by
        simp only [dkeys, List.map_map]
        apply List.map_congr_left
        intro q' hq'; simp [(hq q' (List.mem_filter.1 hq').1).hl]
      rw [this]
      exact hqn.sublist (List.filter_sublist.map _)
    cases hk : q.kept with
    | true =>
      simp only [if_true]
      apply dget_of_mem hndl
      have : (q.f.name, q.l.2) = q.l := by rw [← (hq q hqm).hl]
      rw [this]
      exact List.mem_map.2 ⟨q, List.mem_filter.2 ⟨hqm, hk⟩, rfl⟩
    | false =>
      simp only [Bool.false_eq_true, if_false]
      apply dget_none_of_not_mem
      intro hm
      simp only [dkeys, List.map_map, List.mem_map] at hm
      obtain ⟨q', hq', he⟩ := hm
      obtain ⟨hq'm, hk'⟩ := List.mem_filter.1 hq'
      simp only [Function.comp, (hq q' hq'm).hl] at he
      have : q' = q := Quad.name_inj hqn hq'm hqm he
      subst this; rw [hk] at hk'; cases hk'
  have hfill : fillFields ((qs.filter Quad.kept).map Quad.l) fs = .ok (qs.map Quad.final) := by
    rw [hfs]
    exact el_fill _ qs (fun q hqm => ⟨hq q hqm, hkw q hqm⟩)
  have heq : pyEq (.inst n kvs) (.inst n (qs.map Quad.final)) = true := by
    simp only [pyEq, beq_self_eq_true, Bool.true_and]
    rw [hkvs]
    exact el_eq qs (fun q hqm => hq q hqm)
  have hmemname : ∀ a ∈ (qs.filter Quad.kept).map Quad.a, ∃ f ∈ fs, a.1 = f.name := by
    intro a ha
    obtain ⟨q, hqm, rfl⟩ := List.mem_map.1 ha
    have hqm := (List.mem_filter.1 hqm).1
    exact ⟨q.f, hqf q hqm, (hq q hqm).ha⟩
  have hwk : WEAK_REF ∉ dkeys ((qs.filter Quad.kept).map Quad.a) := by
    intro h
    obtain ⟨a, ha, he⟩ := List.mem_map.1 h
    obtain ⟨f, hf, he'⟩ := hmemname a ha
    exact (hnames f hf).2.1 (he' ▸ he)
  cases ver with
  | none =>
    refine ⟨(qs.filter Quad.kept).map Quad.a, _, ?_, ?_, heq, ?_, ?_,
      by simp only [asdict, hhook, hag1, hpack2, hpack, bind, Except.bind, pure, Except.pure]⟩
    · simp only [asdict, hhook, has, hpack, bind, Except.bind, pure, Except.pure]
    · intro ig path hpp
      simp only [ronTrip, fromDict, asRawDict, itemsLoop, if_true, hitems path hpp, hfill, bind, Except.bind, pure, Except.pure]
    · simp only [ronTrip, Val.isWeak, dhas]
      have : dget ((NAME_KEY, Val.str n) :: ronTripD ((qs.filter Quad.kept).map Quad.a)) WEAK_REF = none := by
        apply dget_none_of_not_mem
        simp only [dkeys, List.map_cons, List.mem_cons, not_or]
        refine ⟨by decide, ?_⟩
        have := dkeys_ronTripD ((qs.filter Quad.kept).map Quad.a)
        simp only [dkeys] at this hwk
        rw [this]; exact hwk
      simp [this]
    · exact ⟨_, rfl, by simp [dget]⟩
  | some vi =>
    have hnv : "version" ∉ dkeys (qs.map Quad.a) := by
      rw [hkeysa]; intro h
      obtain ⟨q, hqm, hfe⟩ := List.mem_map.1 h
      exact hver rfl q.f (hqf q hqm) hfe
    have hnv' : "version" ∉ dkeys ((qs.filter Quad.kept).map Quad.a) := by
      intro h
      obtain ⟨a, ha, he⟩ := List.mem_map.1 h
      obtain ⟨f, hf, he'⟩ := hmemname a ha
      exact hver rfl f hf (he' ▸ he)
    refine ⟨("version", .int vi.version) :: (qs.filter Quad.kept).map Quad.a, _, ?_, ?_, heq, ?_, ?_,
      by simp only [asdict, hhook, hag1, hpack2, hpack, bind, Except.bind, pure, Except.pure]⟩
    · simp only [asdict, hhook, has, hpack, bind, Except.bind, pure, Except.pure]
    · intro ig path hpp
      have hvi : ∀ e ∈ vi.rules, e.1 < vi.version := hvok vi rfl
      have hall : (vi.rules.all fun e => decide (e.1 < vi.version)) = true := by simpa using hvi
      have hdel : ddel (ronTripD ((qs.filter Quad.kept).map Quad.a)) "version" = ronTripD ((qs.filter Quad.kept).map Quad.a) := by
        apply ddel_not_mem
        apply dget_none_of_not_mem
        rw [dkeys_ronTripD]; exact hnv'
      have h1 : dget ((NAME_KEY, Val.str n) :: ("version", Val.int vi.version) :: ronTripD ((qs.filter Quad.kept).map Quad.a)) "version"
          = some (.int vi.version) := by simp [dget, NAME_KEY]
      have h2 : ddel ((NAME_KEY, Val.str n) :: ("version", Val.int vi.version) :: ronTripD ((qs.filter Quad.kept).map Quad.a)) "version"
          = (NAME_KEY, Val.str n) :: ronTripD ((qs.filter Quad.kept).map Quad.a) := by simp [ddel, NAME_KEY, hdel]
      simp only [ronTrip, ronTripD, ronTripP, fromDict, versionHook, h1, h2, VerInfo.upgradeAny, hall, if_true,
        Val.asRangeInt, bind, Except.bind, applyUpgrades_self vi hvi, asRawDict, pure, Except.pure, itemsLoop, hitems path hpp,
        hfill]
    · simp only [ronTrip, Val.isWeak, dhas, ronTripD, ronTripP]
      have : dget ((NAME_KEY, Val.str n) :: ("version", Val.int vi.version) :: ronTripD ((qs.filter Quad.kept).map Quad.a)) WEAK_REF = none := by
        apply dget_none_of_not_mem
        simp only [dkeys, List.map_cons, List.mem_cons, not_or]
        refine ⟨by decide, by decide, ?_⟩
        have := dkeys_ronTripD ((qs.filter Quad.kept).map Quad.a)
        simp only [dkeys] at this hwk
        rw [this]; exact hwk
      simp [this]
    · exact ⟨_, rfl, by simp [dget]⟩

theorem el_data {c : SerCfg} {dc : DCfg} (hc : DumpCfg c) (hel : c.elide = true) (n : String) (fs : List Fld)
    (ver : Option VerInfo) (hty : TyOK dc.ext (.data n fs ver)) (henv : EnvOK c.env (.data n fs ver))
    (hrel : ∀ kvs file, HasFields true fs kvs → (∀ kv ∈ kvs, kv.2.isWeak = false) → SoundD kvs → ∃ qs : List Quad, asdictD c file kvs = .ok (qs.map Quad.a, []) ∧
      fs = qs.map Quad.f ∧ kvs = qs.map Quad.kv ∧ (∀ q ∈ qs, QuadOK q ∧ QuadLoad dc q) ∧ ∀ q ∈ qs, QuadAgain c file q) :
    EL c dc (.data n fs ver) := by
  intro v file hv hnn
  simp only [HasType] at hv
  obtain ⟨kvs, rfl, hf⟩ := hv
  simp only [Sound] at hnn
  obtain ⟨qs, has, hfs, hkvs, hq, hqa⟩ := hrel kvs file hf hnn.1 hnn.2
  simp only [TyOK] at hty
  obtain ⟨hnd, hnames, hver, hvok, _⟩ := hty
  have hqf : ∀ q ∈ qs, q.f ∈ fs := by intro q hqm; rw [hfs]; exact List.mem_map.2 ⟨q, hqm, rfl⟩
  obtain ⟨as, v', h1, h2, h3, h4, h5, h6⟩ := el_obj (dc := dc) hc.named hc.versioned hel n fs ver hnd hnames hver hvok henv file
    (fun kvs => serHooks_id hc.sched file (.inst n kvs) (by intro _ _; simp)) kvs qs has hfs hkvs (fun q h => (hq q h).1) hqa (fun _ => True) []
    (fun path _ ig => el_items dc fs hnd path ig qs (fun q hqm => ⟨(hq q hqm).1, (hq q hqm).2, hqf q hqm, (hnames _ (hqf q hqm)).1⟩))
  refine ⟨.ntup n as, v', h1, fun ig path => h2 ig path trivial, h3, fun _ => h4, by simp [ronTrip, Val.isNone], fun _ => h5, ?_, h6, ?_⟩
  · intro d hd he
    simp only [DfltShape] at hd
    cases d <;> simp_all [pyEq]
  · intro d hd he
    simp only [DfltShape] at hd
    cases d <;> simp_all [pyEq]

theorem pyEq_refl_leaf : ∀ v : Val, (LitOK v ∨ ∃ f, v = .flt f) → Sound v → pyEq v v = true := by
  intro v h hn
  rcases h with h | ⟨f, rfl⟩
  · exact pyEq_refl_lit v h
  · cases f <;> simp_all [pyEq, Val.num?, Flt.eqv, Sound]

theorem el_leaf {c : SerCfg} {dc : DCfg} (hc : DumpCfg c) (t : PyTy) (v : Val) (file : String) (hl : LitOK v ∨ ∃ f, v = .flt f)
    (hn : Sound v) (hload : ∀ ig p, fromDict dc t ig p v = .ok (v, [])) (ht : isData t = false) : ElOne c dc t v file v v := by
  have hr : ronTrip v = v := by
    rcases hl with h | ⟨f, rfl⟩
    · cases v <;> simp_all [LitOK, ronTrip]
    · simp [ronTrip]
  refine ⟨asdict_leaf hc.write file v hl, by intro ig p; rw [hr]; exact hload ig p, pyEq_refl_leaf v hl hn, ?_, ?_, by simp [ht],
    fun _ _ h => h, asdict_leaf hc.write file v hl, ?_⟩
  · rw [hr]
    rcases hl with h | ⟨f, rfl⟩
    · cases v <;> simp_all [LitOK, Val.isWeak]
    · exact id
  · rw [hr]; intro h; cases v <;> simp_all [Val.isNone]
  · intro d _ he
    have hd : (LitOK d ∨ ∃ f, d = .flt f) ∧ Sound d := by
      rcases hl with h | ⟨f, rfl⟩
      · cases v <;> simp only [LitOK] at h <;> cases d <;> simp_all [pyEq, Val.num?, LitOK, Sound]
        all_goals (intro h0; subst h0; simp [Flt.eqv] at he)
      · cases d <;> simp_all [pyEq, Val.num?, LitOK, Sound]
        intro h0; subst h0; cases f <;> simp [Flt.eqv] at he
    exact ⟨fun f => asdict_leaf hc.write f d hd.1, pyEq_refl_leaf d hd.1 hd.2⟩

mutual
theorem el {c : SerCfg} {dc : DCfg} (hc : DumpCfg c) (hel : c.elide = true) : ∀ t : PyTy,
    TyOK dc.ext t → EnvOK c.env t → DfltOK t → EL c dc t
  | .int, _, _, _ => by
    intro v file hv hn
    simp only [HasType] at hv
    rcases hv with ⟨i, rfl⟩ | ⟨b, rfl⟩
    · exact ⟨_, _, el_leaf hc _ _ _ (.inl trivial) hn (by intro ig p; simp [fromDict, schedHook]) rfl⟩
    · exact ⟨_, _, el_leaf hc _ _ _ (.inl trivial) hn (by intro ig p; simp [fromDict, schedHook]) rfl⟩
  | .float, _, _, _ => by
    intro v file hv hn
    simp only [HasType] at hv
    obtain ⟨f, rfl⟩ := hv
    exact ⟨_, _, el_leaf hc _ _ _ (.inr ⟨f, rfl⟩) hn (by intro ig p; simp [fromDict, schedHook]) rfl⟩
  | .str, _, _, _ => by
    intro v file hv hn
    simp only [HasType] at hv
    obtain ⟨f, rfl⟩ := hv
    exact ⟨_, _, el_leaf hc _ _ _ (.inl trivial) hn (by intro ig p; simp [fromDict]) rfl⟩
  | .bool, _, _, _ => by
    intro v file hv hn
    simp only [HasType] at hv
    obtain ⟨f, rfl⟩ := hv
    exact ⟨_, _, el_leaf hc _ _ _ (.inl trivial) hn (by intro ig p; simp [fromDict]) rfl⟩
  | .noneT, _, _, _ => by
    intro v file hv hn
    simp only [HasType] at hv
    subst hv
    exact ⟨_, _, el_leaf hc _ _ _ (.inl trivial) hn (by intro ig p; simp [fromDict]) rfl⟩
  | .list a, ht, he, hd => by
    have ih := el hc hel a (by simpa [TyOK] using ht) (by simpa [EnvOK] using he) (by simpa [DfltOK] using hd)
    intro v file hv hn
    simp only [HasType] at hv
    obtain ⟨xs, rfl, hx⟩ := hv
    simp only [Sound, soundL_iff] at hn
    obtain ⟨ws, ys, hws, heq, hl, hdf, hag, hds⟩ := el_list ih xs 0 file hx hn
    refine ⟨.list ws, .list ys, ?_, ?_, by simpa [pyEq] using heq, fun _ => rfl, by simp [ronTrip, Val.isNone], by simp [isData], ?_,
      by simp [asdict, serHooks_id hc.sched, hag, bind, Except.bind, pure, Except.pure], ?_⟩
    · simp [asdict, serHooks_id hc.sched, hws, bind, Except.bind, pure, Except.pure]
    · intro ig p
      simp only [ronTrip, fromDict]
      rw [hl _ (fun i x => ⟨_, rfl⟩) 0]
      rfl
    · intro d hd he
      simp only [DfltShape] at hd
      cases d <;> simp [pyEq] at he
      simp only [pyEq]
      exact hdf _ (hd _ rfl) he
    · intro d hd he
      simp only [DfltShape] at hd
      cases d <;> simp [pyEq] at he
      obtain ⟨h1, h2⟩ := hds _ (hd _ rfl) he
      exact ⟨fun f => by simp [asdict, serHooks_id hc.sched, h1, bind, Except.bind, pure, Except.pure], by simpa only [pyEq] using h2⟩
  | .tuple as, ht, he, hd => by
    have ih := els hc hel as (by simpa [TyOK] using ht) (by simpa [EnvOK] using he) (by simpa [DfltOK] using hd)
    intro v file hv hn
    simp only [HasType] at hv
    obtain ⟨xs, rfl, hx⟩ := hv
    simp only [Sound] at hn
    obtain ⟨ws, ys, hws, heq, hl, hdf, hag, hds⟩ := ih xs 0 file hx hn
    refine ⟨.tup ws, .tup ys, ?_, ?_, by simpa [pyEq] using heq, fun _ => rfl, by simp [ronTrip, Val.isNone], by simp [isData], ?_,
      by simp [asdict, serHooks_id hc.sched, hag, bind, Except.bind, pure, Except.pure], ?_⟩
    · simp [asdict, serHooks_id hc.sched, hws, bind, Except.bind, pure, Except.pure]
    · intro ig p
      simp only [ronTrip, fromDict]
      rw [hl _ 0 (fun i x => ⟨p ++ "[" ++ i.repr ++ "]", by simp only [Nat.zero_add]⟩)]
      rfl
    · intro d hd he
      simp only [DfltShape] at hd
      cases d <;> simp [pyEq] at he
      · simp only [pyEq]
        exact hdf _ (hd.2 _ rfl) he
      · exact absurd rfl (hd.1 _ _)
    · intro d hd he
      simp only [DfltShape] at hd
      cases d <;> simp [pyEq] at he
      · obtain ⟨h1, h2⟩ := hds _ (hd.2 _ rfl) he
        exact ⟨fun f => by simp [asdict, serHooks_id hc.sched, h1, bind, Except.bind, pure, Except.pure], by simpa only [pyEq] using h2⟩
      · exact absurd rfl (hd.1 _ _)
  | .dict k b, ht, he, hd => by
    have ih := el hc hel b (by simp only [TyOK] at ht; exact ht.2) (by simpa [EnvOK] using he) (by simpa [DfltOK] using hd)
    intro v file hv hn
    simp only [HasType] at hv
    obtain ⟨kvs, rfl, hk, hx⟩ := hv
    simp only [Sound, soundD_iff] at hn
    obtain ⟨ws, ys, hws, hkeys, hky, hl, heq, hdf, hag, hds⟩ := el_dict ih kvs file hx hn.2
    refine ⟨.dict ws, .dict ys, ?_, ?_, ?_, ?_, by simp [ronTrip, Val.isNone], by simp [isData], ?_,
      by simp [asdict, serHooks_id hc.sched, hag, bind, Except.bind, pure, Except.pure], ?_⟩
    · simp [asdict, serHooks_id hc.sched, hws, bind, Except.bind, pure, Except.pure]
    · intro ig p
      simp only [ronTrip, fromDict]
      rw [hl _ (fun i x => ⟨_, rfl⟩)]
      rfl
    · have hlen : kvs.length = ys.length := by
        have := congrArg List.length hky
        simpa [dkeys] using this.symm
      simp [pyEq, hlen, heq hn.1]
    · intro hnw
      simp only [Val.isWeak, dhas_eq_keys] at hnw
      simp only [ronTrip, Val.isWeak, dhas_eq_keys, dkeys_ronTripD, hkeys, hnw]
    · intro d hd he
      simp only [DfltShape] at hd
      have hlen : ws.length = kvs.length := by
        have := congrArg List.length hkeys
        simpa [dkeys] using this
      cases d <;> simp [pyEq] at he
      simp only [pyEq, Bool.and_eq_true, beq_iff_eq]
      exact ⟨by omega, hdf _ (hd _ rfl) he.2⟩
    · intro d hd he
      simp only [DfltShape] at hd
      cases d <;> simp [pyEq] at he
      rename_i d
      obtain ⟨k1, k2⟩ := keys_of_pyEq (by rw [hkeys]; exact hn.1) he.1 he.2
      have hall : ∀ kv ∈ d, (∀ f, asdict c f kv.2 = .ok (kv.2, [])) ∧ pyEq kv.2 kv.2 = true := by
        intro kv hkv
        exact hds d (hd _ rfl) he.2 kv.1 kv.2 (k2 _ (List.mem_map.2 ⟨kv, hkv, rfl⟩)) (dget_of_mem k1 hkv)
      refine ⟨fun f => by simp [asdict, serHooks_id hc.sched, asdictD_self (fun kv h => (hall kv h).1), bind, Except.bind, pure, Except.pure], ?_⟩
      simp only [pyEq, beq_self_eq_true, Bool.true_and]
      rw [pyEqD_iff]
      exact fun k v hkv => ⟨v, dget_of_mem k1 hkv, (hall _ hkv).2⟩
  | .union as, ht, he, hd => by
    simp only [TyOK] at ht
    have ih := elAny hc hel as ht.1 (by simpa [EnvOK] using he) (by simpa [DfltOK] using hd)
    intro v file hv hn
    simp only [HasType, hasTypeAny_iff] at hv
    obtain ⟨a, ha, hva⟩ := hv
    obtain ⟨w, v', hw⟩ := ih a ha v file hva hn
    refine ⟨w, v', hw.dump, ?_, hw.eq, hw.weak, hw.none, by simp [isData], ?_, hw.again, ?_⟩
    · intro ig path
      simp only [fromDict]
      rcases ht.2 with hopt | ⟨hdata, hnd⟩
      · rw [if_pos hopt]
        cases hnn : (ronTrip w).isNone with
        | true =>
          have hv0 := hw.none hnn
          subst hv0
          have : v' = .none := by
            have := hw.eq
            cases v' <;> simp [pyEq] at this
            rfl
          simp [this]
        | false =>
          simp only [Bool.false_eq_true, if_false]
          obtain ⟨t, rfl⟩ := isOptionalArgs_iff.1 hopt
          rcases List.mem_cons.1 ha with rfl | ha
          · simp [fdHead, hw.load]
          · simp at ha
            subst ha
            simp only [HasType] at hva
            have := asdict_leaf (c := c) hc.write file v (by rw [hva]; simp [LitOK])
            rw [hw.dump] at this
            cases this
            subst hva
            simp [ronTrip, Val.isNone] at hnn
      · have hopt : isOptionalArgs as = false := by
          match as, hdata with
          | [], _ => rfl
          | [_], _ => rfl
          | [x, y], hdata =>
            have := hdata y (by simp)
            cases y <;> simp_all [isData, isOptionalArgs, PyTy.isNoneT]
          | _ :: _ :: _ :: _, _ => rfl
        rw [if_neg (by simp [hopt])]
        obtain ⟨d, hd, hg⟩ := hw.data (hdata a ha)
        have hl := hw.load ig path
        rw [hd] at hl ⊢
        simp only [primBranches, bind, Except.bind, hg, Option.bind, fdNamed_mem dc ig path _ as a hnd ha, hl]
    · intro d hd he
      simp only [DfltShape, dfltShapeAll_iff] at hd
      exact hw.dflt d (hd a ha) he
    · intro d hd he
      simp only [DfltShape, dfltShapeAll_iff] at hd
      exact hw.dself d (hd a ha) he
  | .data n fs ver, ht, he, hd => by
    apply el_data hc hel n fs ver ht he
    simp only [TyOK] at ht
    simp only [EnvOK] at he
    simp only [DfltOK] at hd
    exact elf hc hel fs ht.2.2.2.2 he.2 hd
  | .enum cls ms, ht, _, _ => by
    simp only [TyOK] at ht
    intro v file hv hn
    simp only [HasType] at hv
    obtain ⟨n, w, hm, rfl⟩ := hv
    refine ⟨.str n, .enm cls n w, ?_, ?_, by simp [pyEq], fun _ => rfl, by simp [ronTrip, Val.isNone], by simp [isData], ?_,
      by simp [asdict, serHooks_id hc.sched, bind, Except.bind, pure, Except.pure], ?_⟩
    · simp [asdict, serHooks_id hc.sched, bind, Except.bind, pure, Except.pure]
    · intro ig p
      simp [ronTrip, fromDict, enumByValue_named cls ms n w ht.1 ht.2 hm, bind, Except.bind, pure, Except.pure]
    · intro d hd he
      simp only [DfltShape] at hd
      cases d <;> simp_all [pyEq]
    · intro d hd he
      simp only [DfltShape] at hd
      cases d <;> simp_all [pyEq]
  | .literal vs, ht, _, _ => by
    simp only [TyOK] at ht
    intro v file hv hn
    simp only [HasType] at hv
    have hv : ∃ x ∈ vs, pyEq v x = true := by
      rcases hv with hv | hv
      · exact ⟨v, hv, pyEq_refl_lit v (ht v hv).2⟩
      · exact hv.2
    obtain ⟨x, hx, hxe⟩ := hv
    have hl := pyEq_lit v x (ht x hx).2 hxe
    refine ⟨v, v, el_leaf hc _ v file hl hn ?_ rfl⟩
    intro ig p
    have hall : vs.all dc.ext.typeArgOk = true := by
      rw [List.all_eq_true]; intro x hx; exact (ht x hx).1
    have hmem : pyMem v vs = true := by
      simp only [pyMem, List.any_eq_true]; exact ⟨x, hx, hxe⟩
    rcases hl with hl | ⟨f, rfl⟩
    · cases v <;> simp_all [fromDict, LitOK]
    · simp_all [fromDict]
  | .blob _, ht, _, _ => by simp [TyOK] at ht
theorem els {c : SerCfg} {dc : DCfg} (hc : DumpCfg c) (hel : c.elide = true) : ∀ ts : List PyTy,
    TyOKs dc.ext ts → EnvOKs c.env ts → DfltOKs ts → ∀ (xs : List Val) (i : Nat) (file : String), HasTypes true ts xs →
    SoundL xs →
    ∃ ws ys, asdictL c file i xs = .ok (ws, []) ∧ pyEqL xs ys = true ∧
      (∀ (f : Nat → Val → Res) (j : Nat), (∀ i x, ∃ p, f (j + i) x = fdNth dc ts i p x) →
        mapIdx f j (ronTripL ws) = .ok (ys, [])) ∧
      (∀ ds, DfltShapes ts ds → pyEqL ws ds = true → pyEqL xs ds = true) ∧
      asdictL c file i ys = .ok (ws, []) ∧
      ∀ ds, DfltShapes ts ds → pyEqL ws ds = true → (∀ f j, asdictL c f j ds = .ok (ds, [])) ∧ pyEqL ds ds = true
  | [], _, _, _ => by
    intro xs i file hx _
    simp only [HasTypes] at hx
    subst hx
    refine ⟨[], [], by simp [asdictL], rfl, by intro f j _; simp [ronTripL, mapIdx], fun _ _ h => h, by simp [asdictL], ?_⟩
    intro ds _ h
    cases ds with
    | nil => exact ⟨fun _ _ => by simp [asdictL], rfl⟩
    | cons _ _ => simp [pyEqL] at h
  | t :: ts, ht, he, hd => by
    simp only [TyOKs] at ht
    simp only [EnvOKs] at he
    simp only [DfltOKs] at hd
    have ih1 := el hc hel t ht.1 he.1 hd.1
    have ih2 := els hc hel ts ht.2 he.2 hd.2
    intro xs i file hx hn
    simp only [HasTypes] at hx
    rcases hx with ⟨_, rfl⟩ | ⟨y, ys, rfl, hy, hys⟩
    · refine ⟨[], [], by simp [asdictL], rfl, by intro f j _; simp [ronTripL, mapIdx], fun _ _ h => ?_, by simp [asdictL], ?_⟩
      · exact h
      · intro ds _ h
        cases ds with
        | nil => exact ⟨fun _ _ => by simp [asdictL], rfl⟩
        | cons _ _ => simp [pyEqL] at h
    simp only [SoundL] at hn
    obtain ⟨w, y', hw⟩ := ih1 y (joinPath file i.repr) hy hn.1
    obtain ⟨ws, ys', hws, heq, hl, hdf, hag, hdse⟩ := ih2 ys (i + 1) file hys hn.2
    refine ⟨w :: ws, y' :: ys', by simp [asdictL, hw.dump, hws, bind, Except.bind, pure, Except.pure],
      by simp [pyEqL, hw.eq, heq], ?_, ?_, by simp [asdictL, hw.again, hag, bind, Except.bind, pure, Except.pure], ?_⟩
    · intro f j hf
      obtain ⟨p, hp⟩ := hf 0 (ronTrip w)
      simp only [Nat.add_zero, fdNth] at hp
      have := hl f (j + 1) (by
        intro i x
        obtain ⟨p, hp⟩ := hf (i + 1) x
        simp only [fdNth] at hp
        exact ⟨p, by rw [← hp]; congr 1; omega⟩)
      simp [ronTripL, mapIdx, hp, hw.load, this, bind, Except.bind, pure, Except.pure]
    · intro ds hds he
      simp only [DfltShapes] at hds
      cases ds with
      | nil => simp [pyEqL] at he
      | cons d ds =>
        simp only [pyEqL, Bool.and_eq_true] at he ⊢
        exact ⟨hw.dflt d (hds d ds rfl).1 he.1, hdf ds (hds d ds rfl).2 he.2⟩
    · intro ds hds he
      simp only [DfltShapes] at hds
      cases ds with
      | nil => simp [pyEqL] at he
      | cons d ds =>
        simp only [pyEqL, Bool.and_eq_true] at he ⊢
        obtain ⟨a1, a2⟩ := hw.dself d (hds d ds rfl).1 he.1
        obtain ⟨b1, b2⟩ := hdse ds (hds d ds rfl).2 he.2
        exact ⟨fun f j => by simp [asdictL, a1, b1, bind, Except.bind, pure, Except.pure], a2, b2⟩
theorem elAny {c : SerCfg} {dc : DCfg} (hc : DumpCfg c) (hel : c.elide = true) : ∀ ts : List PyTy,
    TyOKs dc.ext ts → EnvOKs c.env ts → DfltOKs ts → ∀ t ∈ ts, EL c dc t
  | [], _, _, _ => by simp
  | t :: ts, ht, he, hd => by
    simp only [TyOKs] at ht
    simp only [EnvOKs] at he
    simp only [DfltOKs] at hd
    have ih1 := el hc hel t ht.1 he.1 hd.1
    have ih2 := elAny hc hel ts ht.2 he.2 hd.2
    intro t' h
    rcases List.mem_cons.1 h with rfl | h
    · exact ih1
    · exact ih2 t' h
theorem elf {c : SerCfg} {dc : DCfg} (hc : DumpCfg c) (hel : c.elide = true) : ∀ fs : List Fld,
    FldsOK dc.ext fs → EnvOKf c.env fs → DfltOKf fs → ∀ kvs file, HasFields true fs kvs → (∀ kv ∈ kvs, kv.2.isWeak = false) → SoundD kvs →
    ∃ qs : List Quad, asdictD c file kvs = .ok (qs.map Quad.a, []) ∧
      fs = qs.map Quad.f ∧ kvs = qs.map Quad.kv ∧ (∀ q ∈ qs, QuadOK q ∧ QuadLoad dc q) ∧ ∀ q ∈ qs, QuadAgain c file q
  | [], _, _, _ => by
    intro kvs file h _ _
    simp only [HasFields] at h
    subst h
    exact ⟨[], by simp [asdictD], rfl, rfl, by simp, by simp⟩
  | .mk n t d :: fs, ht, he, hd => by
    simp only [FldsOK, FldOK] at ht
    simp only [EnvOKf, EnvOKf1] at he
    simp only [DfltOKf, DfltOK1] at hd
    have ih1 := el hc hel t ht.1 he.1 hd.1.1
    have ih2 := elf hc hel fs ht.2 he.2 hd.2
    intro kvs file h hwk hn
    simp only [HasFields, HasField] at h
    obtain ⟨⟨k, v⟩, rest, rfl, ⟨hk, hv⟩, hrest⟩ := h
    simp only at hk hv
    subst hk
    simp only [SoundD, SoundP] at hn
    obtain ⟨w, v', hw⟩ := ih1 v (joinPath file k) hv hn.1
    obtain ⟨qs, has, hf, hkv, hq, hqg⟩ := ih2 rest file hrest (fun kv h => hwk kv (List.mem_cons_of_mem _ h)) hn.2
    refine ⟨⟨.mk k t d, (k, w), (k, v), (k, v')⟩ :: qs,
      by simp [asdictD, asdictP, hw.dump, has, bind, Except.bind, pure, Except.pure], by simp [hf], by simp [hkv], ?_, ?_⟩
    · intro q hqm
      rcases List.mem_cons.1 hqm with rfl | hqm
      · exact ⟨⟨rfl, rfl, rfl, hw.weak (hwk (k, v) (by simp)), hw.eq, fun d' hd' he' => hw.dflt d' (hd.1.2 d' hd') he'⟩, hw.load⟩
      · exact hq q hqm
    · intro q hqm
      rcases List.mem_cons.1 hqm with rfl | hqm
      · exact ⟨hw.again, fun d' hd' he' => ⟨(hw.dself d' (hd.1.2 d' hd') he').1 _, (hw.dself d' (hd.1.2 d' hd') he').2⟩⟩
      · exact hqg q hqm
end

mutual
/-- a default of the declared type has the right shape -/
theorem dfltShape_of_hasType {e : Ext} : ∀ (t : PyTy), TyOK e t → ∀ (d : Val), HasType false t d → DfltShape t d
  | .int, _, _, _ | .float, _, _, _ | .str, _, _, _ | .bool, _, _, _ | .noneT, _, _, _ | .literal _, _, _, _
  | .blob _, _, _, _ => by simp [DfltShape]
  | .list a, ht, d, h => by
    simp only [HasType] at h
    obtain ⟨xs, rfl, hx⟩ := h
    simp only [DfltShape]
    intro ys hy x hx'
    cases hy
    exact dfltShape_of_hasType a (by simpa [TyOK] using ht) x (hx x hx')
  | .tuple as, ht, d, h => by
    simp only [HasType] at h
    obtain ⟨xs, rfl, hx⟩ := h
    simp only [DfltShape]
    refine ⟨by simp, ?_⟩
    intro ys hy
    cases hy
    exact dfltShapes_of_hasTypes as (by simpa [TyOK] using ht) xs hx
  | .dict k b, ht, d, h => by
    simp only [HasType] at h
    obtain ⟨kvs, rfl, _, hx⟩ := h
    simp only [DfltShape]
    intro ys hy kv hkv
    cases hy
    exact dfltShape_of_hasType b (by simp only [TyOK] at ht; exact ht.2) kv.2 (hx kv hkv)
  | .union as, ht, d, h => by
    simp only [TyOK] at ht
    simp only [HasType, hasTypeAny_iff] at h
    obtain ⟨a, ha, had⟩ := h
    have ih := dfltShapeAny_of_hasType as ht.1
    simp only [DfltShape, dfltShapeAll_iff]
    intro b hb
    rcases ht.2 with hopt | ⟨hdata, _⟩
    · obtain ⟨t, rfl⟩ := isOptionalArgs_iff.1 hopt
      simp only [List.mem_cons, List.not_mem_nil, or_false] at ha hb
      rcases hb with rfl | rfl
      · rcases ha with rfl | rfl
        · exact ih _ (by simp) d had
        · simp only [HasType] at had
          subst had
          exact dfltShape_none b
      · simp [DfltShape]
    · have hb' := hdata b hb
      have ha' := hdata a ha
      cases b <;> simp [isData] at hb'
      cases a <;> simp [isData] at ha'
      simp only [HasType] at had
      obtain ⟨kvs, rfl, _⟩ := had
      simp [DfltShape]
  | .data _ _ _, _, d, h => by
    simp only [HasType] at h
    obtain ⟨kvs, rfl, _⟩ := h
    simp [DfltShape]
  | .enum _ _, _, d, h => by
    simp only [HasType] at h
    obtain ⟨n, w, _, rfl⟩ := h
    simp [DfltShape]
theorem dfltShapes_of_hasTypes {e : Ext} : ∀ (ts : List PyTy), TyOKs e ts → ∀ (ds : List Val), HasTypes false ts ds → DfltShapes ts ds
  | [], _, _, _ => by simp [DfltShapes]
  | t :: ts, ht, ds, h => by
    simp only [TyOKs] at ht
    simp only [HasTypes] at h
    rcases h with h | ⟨y, ys, rfl, hy, hys⟩
    · simp at h
    simp only [DfltShapes]
    intro y' ys' he
    cases he
    exact ⟨dfltShape_of_hasType t ht.1 _ hy, dfltShapes_of_hasTypes ts ht.2 _ hys⟩
theorem dfltShapeAny_of_hasType {e : Ext} : ∀ (ts : List PyTy), TyOKs e ts → ∀ t ∈ ts, ∀ (d : Val), HasType false t d → DfltShape t d
  | [], _ => by simp
  | t :: ts, ht => by
    simp only [TyOKs] at ht
    have ih1 := dfltShape_of_hasType t ht.1
    have ih2 := dfltShapeAny_of_hasType ts ht.2
    intro t' h
    rcases List.mem_cons.1 h with rfl | h
    · exact ih1
    · exact ih2 t' h
theorem dfltShape_none : ∀ (t : PyTy), DfltShape t .none
  | .int | .float | .str | .bool | .noneT | .literal _ | .blob _ | .list _ | .tuple _ | .dict _ _ | .data _ _ _ | .enum _ _ => by
    simp [DfltShape]
  | .union as => by simp only [DfltShape]; exact dfltShapeAll_none as
theorem dfltShapeAll_none : ∀ (ts : List PyTy), DfltShapeAll ts .none
  | [] => by simp [DfltShapeAll]
  | t :: ts => by simp only [DfltShapeAll]; exact ⟨dfltShape_none t, dfltShapeAll_none ts⟩
end

/-- C03. Dumping with `elide_defaults=True` and loading gives an object equal (Python `==`) to the one dumped, hence (by C01)
to the one that loading the full dump gives; for every supported class with well-typed defaults and every nan-free
object, both values of the declared types and those a load returns (`Storable`, see C59). -/
theorem C03_elide_lossless (w : World) (ty : PyTy) (v : Val) (hty : TyOK w.ext ty) (henv : EnvOK w.env ty)
    (hd : DfltOK ty) (hv : Storable ty v) (hn : NoNan v) :
    ∃ doc, typedDump w.env .none true v = .ok (doc, []) ∧
      ∀ (allowMissing file : Bool), ∃ v', pyEq v v' = true ∧
        ∀ (ig : Bool) (ron : RonParse), typedLoad (w.dcfg allowMissing file) ron .none ig ty doc = .ok ⟨v', [], []⟩ := by
  have hc := dumpCfg_ok w.env .none (.inl rfl) true
  obtain ⟨d, _, h⟩ := el (dc := w.dcfg false false) hc rfl ty hty henv hd v "" hv.1 (sound_of v hv.2.1 hn)
  refine ⟨ronTrip d, by simp [typedDump, h.dump, bind, Except.bind, pure, Except.pure], ?_⟩
  intro am file
  obtain ⟨d2, v', h2⟩ := el (dc := w.dcfg am file) hc rfl ty hty henv hd v "" hv.1 (sound_of v hv.2.1 hn)
  have e := h2.dump
  rw [h.dump] at e
  cases e
  refine ⟨v', h2.eq, ?_⟩
  intro ig ron
  simp [typedLoad, h2.load, regAll, lazyAll, lazyInto, bind, Except.bind, pure, Except.pure]

/-- C03: dumping the loaded object again, leaving out defaults, gives the same document again. -/
theorem C03_stable (w : World) (sch : Option RegD) (hs : sch = .none ∨ sch = some []) (ty : PyTy) (v : Val) (hty : TyOK w.ext ty) (henv : EnvOK w.env ty)
    (hd : DfltOK ty) (hv : Storable ty v) (hn : NoNan v) :
    ∃ doc, typedDump w.env sch true v = .ok (doc, []) ∧
      ∀ (allowMissing file : Bool), ∃ v', pyEq v v' = true ∧
        (∀ (ig : Bool) (ron : RonParse), typedLoad (w.dcfg allowMissing file) ron .none ig ty doc = .ok ⟨v', [], []⟩) ∧
        typedDump w.env sch true v' = .ok (doc, []) := by
  have hc := dumpCfg_ok w.env sch hs true
  obtain ⟨d, _, h⟩ := el (dc := w.dcfg false false) hc rfl ty hty henv hd v "" hv.1 (sound_of v hv.2.1 hn)
  refine ⟨ronTrip d, by simp [typedDump, h.dump, bind, Except.bind, pure, Except.pure], ?_⟩
  intro am file
  obtain ⟨d2, v', h2⟩ := el (dc := w.dcfg am file) hc rfl ty hty henv hd v "" hv.1 (sound_of v hv.2.1 hn)
  have e := h2.dump
  rw [h.dump] at e
  cases e
  refine ⟨v', h2.eq, ?_, by simp [typedDump, h2.again, bind, Except.bind, pure, Except.pure]⟩
  intro ig ron
  simp [typedLoad, h2.load, regAll, lazyAll, lazyInto, bind, Except.bind, pure, Except.pure]

/-- the same class as in `Ex.cfgVal`, without `nan`; three fields have their default value, one differs in a nested class -/
def Ex.plainVal : Val := .inst "Config" [
  ("lr", .flt (.fin (1/2))),
  ("net", .inst "Net" [("n", .int 4), ("act", .str "tanh")]),
  ("layers", .list []),
  ("extra", .dict []),
  ("opt", .enm "Opt" "sgd" (.str "sgd")),
  ("sub", .inst "Net" [("n", .bool true), ("act", .str "relu")]),
  ("alt", .inst "B" [("y", .flt (.fin 0))])]

example : TyOK Ex.world.ext Ex.cfgTy ∧ EnvOK Ex.world.env Ex.cfgTy ∧ DfltOK Ex.cfgTy ∧ Storable Ex.cfgTy Ex.plainVal ∧
    NoNan Ex.plainVal := by
  refine ⟨Ex.cfgTy_ok, Ex.cfgEnv_ok, ?_, ?_, ?_⟩
  · simp [Ex.cfgTy, DfltOK, DfltOKf, DfltOK1, DfltOKs, Ex.netTy, Ex.aTy, Ex.bTy, Ex.optTy, PyTy.optional, DfltShape,
      DfltShapeAll]
  · refine strict_firm Ex.world.ext _ _ Ex.cfgTy_ok ?_
    simp only [Ex.cfgTy, Ex.plainVal, HasType, HasFields, HasField, HasTypeAny, Ex.optTy, Ex.netTy, Ex.aTy, Ex.bTy, PyTy.optional]
    exact ⟨_, rfl, _, _, rfl, ⟨rfl, _, rfl⟩,
      _, _, rfl, ⟨rfl, _, rfl, _, _, rfl, ⟨rfl, .inl ⟨_, rfl⟩⟩, _, _, rfl, ⟨rfl, .inl (by simp)⟩, rfl⟩,
      _, _, rfl, ⟨rfl, _, rfl, by simp⟩, _, _, rfl, ⟨rfl, _, rfl, by simp [dkeys], by simp⟩,
      _, _, rfl, ⟨rfl, _, _, by simp, rfl⟩,
      _, _, rfl, ⟨rfl, .inl ⟨_, rfl, _, _, rfl, ⟨rfl, .inr ⟨_, rfl⟩⟩, _, _, rfl, ⟨rfl, .inl (by simp)⟩, rfl⟩⟩,
      _, _, rfl, ⟨rfl, .inr (.inl ⟨_, rfl, _, _, rfl, ⟨rfl, _, rfl⟩, rfl⟩)⟩, rfl⟩
  · simp [Ex.plainVal, NoNan, NoNanD, NoNanP, NoNanL]

/-- the attribute value equals the declared default -/
def isDflt (x : Val) : Option Val → Bool
  | some d => pyEq x d
  | .none => false

/-- C03, what is left out: in the elided document an attribute with a scalar value is absent when it equals the declared
default and present with its value otherwise; an attribute without default is always present. -/
theorem C03_omits_exactly (env : String → ClsInfo) (n : String) (kvs : List (String × Val)) (doc : Val)
    (bs : List (String × Val)) (hnd : (dkeys kvs).Nodup) (hdn : ((env n).defaults.map Prod.fst).Nodup)
    (name : String) (d : Option Val) (hd : (name, d) ∈ (env n).defaults) (hnv : name ≠ "version") (hnk : name ≠ NAME_KEY)
    (hver : "version" ∉ dkeys kvs)
    (x : Val) (hx : dget kvs name = some x) (hl : LitOK x ∨ ∃ f, x = .flt f)
    (h : typedDump env .none true (.inst n kvs) = .ok (doc, bs)) :
    ∃ dd, doc = .dict dd ∧
      dget dd name = if isDflt x d then .none else some x := by
  have hc := dumpCfg_ok env .none (.inl rfl) true
  simp only [typedDump, asdict, serHooks_id hc.sched "" (.inst n kvs) (by intro _ _; simp), bind, Except.bind, pure,
    Except.pure] at h
  cases ha : asdictD (dumpCfg env none true) "" kvs with
  | error e => simp [ha] at h
  | ok r =>
    obtain ⟨attrs, bs'⟩ := r
    simp only [ha] at h
    obtain ⟨hk, hg⟩ := asdictD_spec ha
    obtain ⟨w, bs1, hw, hwx⟩ := hg name x hx
    rw [asdict_leaf hc.write _ x hl] at hwx
    cases hwx
    have hnda : (dkeys attrs).Nodup := by rw [hk]; exact hnd
    have hnva : "version" ∉ dkeys attrs := by rw [hk]; exact hver
    have hr : ronTrip x = x := by
      rcases hl with h | ⟨f, rfl⟩
      · cases x <;> simp_all [LitOK, ronTrip]
      · simp [ronTrip]
    have hel : elidable (env n).defaults (name, x) = isDflt x d := by
      have huniq : ∀ e ∈ (env n).defaults, e.1 = name → e = (name, d) := by
        intro e he hen
        have h1 := dget_of_mem (d := (env n).defaults) (k := name) (v := d) hdn hd
        have h2 := dget_of_mem (d := (env n).defaults) (k := e.1) (v := e.2) hdn he
        rw [hen, h1] at h2
        cases h2
        rw [← hen]
      cases hb : isDflt x d with
      | true =>
        rw [elidable, List.any_eq_true]
        simp only [isDflt] at hb
        exact ⟨(name, d), hd, by simpa using hb⟩
      | false =>
        rw [elidable, List.any_eq_false]
        simp only [isDflt] at hb
        intro e he
        by_cases hen : e.1 = name
        · rw [huniq e he hen]; simpa using hb
        · simp [hen]
    -- reading an attribute from the filtered list
    have hfil : ∀ as : List (String × Val), (dkeys as).Nodup → dget as name = some x →
        dget (as.filter (fun a => !elidable (env n).defaults a)) name
          = if isDflt x d then .none else some x := by
      intro as hn hx'
      cases hb : isDflt x d with
      | true =>
        have : dget (as.filter (fun a => !elidable (env n).defaults a)) name = .none := by
          apply dget_none_of_not_mem
          intro hm
          obtain ⟨⟨k, y⟩, hm', he⟩ := List.mem_map.1 hm
          simp only at he
          subst he
          obtain ⟨hm1, hne⟩ := List.mem_filter.1 hm'
          have := dget_of_mem hn hm1
          rw [hx'] at this
          cases this
          rw [hel, hb] at hne
          cases hne
        rw [this]; rfl
      | false =>
        have : dget (as.filter (fun a => !elidable (env n).defaults a)) name = some x := by
          apply dget_of_mem (hn.sublist (List.filter_sublist.map _))
          exact List.mem_filter.2 ⟨dget_mem hx', by rw [hel, hb]; rfl⟩
        rw [this]; rfl
    have hget : ∀ (as : List (String × Val)), dget as name = some x ∨ dget as name = .none →
        dget ((NAME_KEY, Val.str n) :: ronTripD as) name = dget as name := by
      intro as h
      simp only [dget, if_neg (Ne.symm hnk)]
      cases hq : dget as name with
      | none => exact dget_none_of_not_mem (by rw [dkeys_ronTripD]; exact (dget_eq_none_iff _ _).1 hq)
      | some y =>
        rw [hq] at h
        simp at h
        subst h
        rw [dget_ronTripD, hq]
        simp [hr]
    have fin : ∀ as : List (String × Val), (dkeys as).Nodup → dget as name = some x →
        dget ((NAME_KEY, Val.str n) :: ronTripD (as.filter (fun a => !elidable (env n).defaults a))) name
          = if isDflt x d then .none else some x := by
      intro as hn hx'
      have h1 := hfil as hn hx'
      rw [hget _ ?_, h1]
      rw [h1]
      split <;> simp
    cases hp : packAttrs (dumpCfg env none true) n attrs with
    | error e => simp [hp] at h
    | ok p =>
      simp only [hp, Except.ok.injEq, Prod.mk.injEq] at h
      obtain ⟨rfl, _⟩ := h
      cases hv : (env n).version with
      | none =>
        simp only [packAttrs, modifyAttrs, dumpCfg, hv, if_true, elideAttrs_filter _ _ hnda] at hp
        split at hp
        · simp only [Except.ok.injEq] at hp
          subst hp
          exact ⟨_, rfl, fin attrs hnda hw⟩
        · simp at hp
      | some m =>
        have hnd2 : (dkeys (("version", Val.int m) :: attrs)).Nodup := by
          have h1 : dkeys (("version", Val.int m) :: attrs) = "version" :: dkeys attrs := rfl
          rw [h1, List.nodup_cons]
          exact ⟨hnva, hnda⟩
        simp only [packAttrs, modifyAttrs, dumpCfg, hv, if_true, foldl_dset_version _ _ hnda hnva,
          elideAttrs_filter _ _ hnd2] at hp
        split at hp
        · simp only [Except.ok.injEq] at hp
          subst hp
          exact ⟨_, rfl, fin _ hnd2 (by simp only [dget, if_neg (Ne.symm hnv)]; exact hw)⟩
        · simp at hp

/-- the elided document of the example: `layers`, `extra` and `alt.y` are left out (and `net.n`), the enum is not, because
its serialized form is compared with the member -/
example : typedDump Ex.env .none true Ex.plainVal = .ok (.dict [(NAME_KEY, .str "Config"), ("version", .int 2),
    ("lr", .flt (.fin (1/2))), ("net", .dict [(NAME_KEY, .str "Net"), ("act", .str "tanh")]), ("opt", .str "sgd"),
    ("sub", .dict [(NAME_KEY, .str "Net"), ("n", .bool true), ("act", .str "relu")]), ("alt", .dict [(NAME_KEY, .str "B")])],
    []) := by
  rfl

/-- C03 fails for a class whose default is not of the declared type but looks like a serialized value: an Enum field with
the default `"sgd"`. The member `sgd` is left out and comes back as the string. -/
theorem C03_false_str_default : ∃ (w : World) (ty : PyTy) (v : Val) (doc v' : Val), TyOK w.ext ty ∧ EnvOK w.env ty ∧
    HasType false ty v ∧ NoNan v ∧ typedDump w.env .none true v = .ok (doc, []) ∧
    hsLoads w ty doc .none false = .ok v' ∧ pyEq v v' = false := by
  refine ⟨⟨Ex.ext, Ex.world.ron, fun _ => ⟨.none, [("opt", some (.str "sgd"))]⟩⟩,
    .data "C" [.mk "opt" Ex.optTy (some (.str "sgd"))] .none,
    .inst "C" [("opt", .enm "Opt" "sgd" (.str "sgd"))], .dict [(NAME_KEY, .str "C")], .inst "C" [("opt", .str "sgd")],
    ?_, ?_, ?_, ?_, rfl, rfl, rfl⟩
  · simp [TyOK, FldsOK, FldOK, Ex.optTy, NameOK, VerOK, Fld.name, NAME_KEY, WEAK_REF, List.isPrefixOf]
  · simp [EnvOK, EnvOKf, EnvOKf1, Ex.optTy, Fld.name, Fld.dflt]
  · simp only [HasType, HasFields, HasField, Ex.optTy]
    exact ⟨_, rfl, _, _, rfl, ⟨rfl, _, _, by simp, rfl⟩, rfl⟩
  · simp [NoNan, NoNanD, NoNanP]

end HS
