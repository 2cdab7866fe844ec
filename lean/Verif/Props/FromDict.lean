import Verif.Proofs.FromDict
import Verif.Spec.Example
/-!
# Properties of loading: C05, C06, C07, C08, C09, C10
-/
namespace HS

/-- `v` is the document that the fields of the class are read from: for a versioned class the one the upgrade rules leave,
for any other class the document itself. -/
def Upgraded (c : DCfg) (ver : Option VerInfo) (doc v : Val) : Prop :=
  match ver with
  | .none => v = doc
  | some vi => versionHook c.allowMissing vi doc = .ok v

theorem fromDict_upgraded {c : DCfg} {ver : Option VerInfo} {doc v : Val} (h : Upgraded c ver doc v) (n : String)
    (fs : List Fld) (ig : Bool) (path : String) :
    fromDict c (.data n fs ver) ig path doc = fromDict c (.data n fs .none) ig path v := by
  cases ver with
  | none => simp only [Upgraded] at h; rw [h]
  | some vi =>
    simp only [Upgraded] at h
    simp only [fromDict, h, bind, Except.bind, pure, Except.pure]

/-- what the rest of this file needs about `Upgraded`: a versioned document of the current version loses its version entry -/
example : Upgraded (Ex.world.dcfg false false) (some Ex.cfgVer) (.dict [("version", .int 1), ("learning_rate", .int 3)])
    (.dict [("lr", .int 3)]) := rfl

/-! ## C05: unknown fields -/

/-- the entries of a document that belong to the class -/
def knownEntries (fs : List Fld) (d : List (String × Val)) : List (String × Val) :=
  d.filter (fun kv => decide (kv.1 = NAME_KEY ∨ kv.1 ∈ fs.map Fld.name))

theorem fdField_isSome (c : DCfg) (fs : List Fld) (k path : String) (v : Val) :
    (fdField c fs k path v).isSome = true ↔ k ∈ fs.map Fld.name := by
  rw [fdField_some_iff]; simp

theorem itemsLoop_ignore (c : DCfg) (fs : List Fld) (path : String) (ig : Bool) : ∀ d : List (String × Val),
    itemsLoop (fun k x => fdField c fs k (fieldPath path k) x) true d
      = itemsLoop (fun k x => fdField c fs k (fieldPath path k) x) ig (knownEntries fs d) := by
  intro d
  induction d with
  | nil => rfl
  | cons kv d ih =>
    obtain ⟨k, x⟩ := kv
    simp only [knownEntries] at ih
    by_cases hk : k = NAME_KEY
    · simp [knownEntries, itemsLoop, hk, ih]
    · by_cases hf : k ∈ fs.map Fld.name
      · obtain ⟨r, hr⟩ := Option.isSome_iff_exists.1 ((fdField_isSome c fs k (fieldPath path k) x).2 hf)
        have : (decide (k = NAME_KEY ∨ k ∈ fs.map Fld.name)) = true := by simp [hf]
        simp only [knownEntries, List.filter_cons, this, if_true, itemsLoop, if_neg hk, hr, ih]
      · have hn : fdField c fs k (fieldPath path k) x = none := by
          cases h : fdField c fs k (fieldPath path k) x with
          | none => rfl
          | some r => exact absurd ((fdField_isSome c fs k (fieldPath path k) x).1 (by simp [h])) hf
        have : (decide (k = NAME_KEY ∨ k ∈ fs.map Fld.name)) = false := by simp [hk, hf]
        simp only [knownEntries, List.filter_cons, this, itemsLoop, if_neg hk, hn, ih]
        cases x.isWeak <;> simp

/-- C05, ignoring (part): with `ignore_extra_fields=True` the keys of the *top-level* object that are no fields make no
difference: the result (value, schedules, errors) is that of the document without them. -/
theorem C05_ignore_partial (c : DCfg) (n : String) (fs : List Fld) (ver : Option VerInfo) (path : String) (doc : Val)
    (d : List (String × Val)) (hup : Upgraded c ver doc (.dict d)) (ig : Bool) :
    fromDict c (.data n fs ver) true path doc = fromDict c (.data n fs .none) ig path (.dict (knownEntries fs d)) := by
  rw [fromDict_upgraded hup, fromDict_data_dict, fromDict_data_dict, itemsLoop_ignore c fs path ig d]

theorem itemsLoop_unknown {f : String → Val → Option Res} : ∀ {d : List (String × Val)} {k x}, (k, x) ∈ d →
    k ≠ NAME_KEY → x.isWeak = false → f k x = .none →
    ∃ e, itemsLoop f false d = .error e ∧
      ((∀ k' x', (k', x') ∈ d → ∀ r, f k' x' = some r → ∃ y, r = .ok y) → e = .deserType) := by
  intro d
  induction d with
  | nil => intro k x h; simp at h
  | cons a d ih =>
    obtain ⟨k0, x0⟩ := a
    intro k x h hk hw hf
    simp only [itemsLoop]
    rcases List.mem_cons.1 h with h | h
    · cases h
      refine ⟨.deserType, by rw [if_neg hk, if_neg (by simp [hw]), hf]; simp, fun _ => rfl⟩
    · obtain ⟨e, he, hh⟩ := ih h hk hw hf
      by_cases hk0 : k0 = NAME_KEY
      · exact ⟨e, by rw [if_pos hk0]; exact he, fun ha => hh (fun k' x' hm => ha k' x' (List.mem_cons_of_mem _ hm))⟩
      · rw [if_neg hk0]
        by_cases hw0 : x0.isWeak = true
        · exact ⟨e, by rw [if_pos hw0]; exact he, fun ha => hh (fun k' x' hm => ha k' x' (List.mem_cons_of_mem _ hm))⟩
        · rw [if_neg hw0]
          cases hr : f k0 x0 with
          | none => exact ⟨.deserType, by simp, fun _ => rfl⟩
          | some r =>
            cases r with
            | error e' =>
              refine ⟨e', by simp [bind, Except.bind], fun ha => ?_⟩
              obtain ⟨y, hy⟩ := ha k0 x0 (by simp) _ hr
              cases hy
            | ok y =>
              exact ⟨e, by simp [bind, Except.bind, he],
                fun ha => hh (fun k' x' hm => ha k' x' (List.mem_cons_of_mem _ hm))⟩

/-- C05, rejecting: without `ignore_extra_fields` a document with a key that is no field is never loaded, and the error is
DeserializeTypeError unless some *other* entry is already invalid by itself. Any depth: `path` and the flags are arbitrary
and nested classes are always loaded with the flag off (see `C05_nested_reject`). -/
theorem C05_reject (c : DCfg) (n : String) (fs : List Fld) (ver : Option VerInfo) (path : String) (doc : Val)
    (d : List (String × Val)) (hup : Upgraded c ver doc (.dict d)) (k : String) (x : Val) (hm : (k, x) ∈ d)
    (hk : k ≠ NAME_KEY) (hw : x.isWeak = false) (hu : k ∉ fs.map Fld.name) :
    ∃ e, fromDict c (.data n fs ver) false path doc = .error e ∧
      ((∀ k' x', (k', x') ∈ d → ∀ f ∈ fs, f.name = k' → ∃ r, fromDict c f.ty false (fieldPath path k') x' = .ok r) →
        (fs.map Fld.name).Nodup → e = .deserType) := by
  have hf : fdField c fs k (fieldPath path k) x = .none := by
    cases h : fdField c fs k (fieldPath path k) x with
    | none => rfl
    | some r => exact absurd ((fdField_isSome c fs k (fieldPath path k) x).1 (by simp [h])) hu
  obtain ⟨e, he, hh⟩ := itemsLoop_unknown (f := fun k x => fdField c fs k (fieldPath path k) x) hm hk hw hf
  refine ⟨e, ?_, ?_⟩
  · rw [fromDict_upgraded hup, fromDict_data_dict, he]; rfl
  · intro hall hnd
    apply hh
    intro k' x' hm' r hr
    have hs : (fdField c fs k' (fieldPath path k') x').isSome = true := by simp [hr]
    obtain ⟨f, hfm, hfn⟩ := (fdField_some_iff c k' (fieldPath path k') x' fs).1 hs
    obtain ⟨y, hy⟩ := hall k' x' hm' f hfm hfn
    rw [fdField_mem c k' _ x' fs f hnd hfm hfn, hy] at hr
    exact ⟨y, by cases hr; rfl⟩

/-- an unknown key next to a valid one: DeserializeTypeError -/
example : fromDict (Ex.world.dcfg false false) Ex.aTy false "" (.dict [("x", .int 1), ("q", .int 2)]) = .error .deserType := rfl

/-- C05 is false for nested objects: with `ignore_extra_fields=True` (and without) an object with an unknown key is rejected
when it is the value of a dataclass field of a class. -/
theorem C05_nested_false (c : DCfg) (n : String) (fs : List Fld) (ver : Option VerInfo) (path : String) (doc : Val)
    (d : List (String × Val)) (hup : Upgraded c ver doc (.dict d)) (ig : Bool)
    (f : Fld) (hf : f ∈ fs) (hnd : (fs.map Fld.name).Nodup) (hfn : f.name ≠ NAME_KEY)
    (n' : String) (fs' : List Fld) (ver' : Option VerInfo) (hft : f.ty = .data n' fs' ver')
    (doc' : Val) (d' : List (String × Val)) (hm : (f.name, doc') ∈ d) (hw : doc'.isWeak = false)
    (hup' : Upgraded c ver' doc' (.dict d'))
    (k : String) (x : Val) (hm' : (k, x) ∈ d') (hk : k ≠ NAME_KEY) (hw' : x.isWeak = false) (hu : k ∉ fs'.map Fld.name) :
    ∃ e, fromDict c (.data n fs ver) ig path doc = .error e := by
  obtain ⟨e, he, _⟩ := C05_reject c n' fs' ver' (fieldPath path f.name) doc' d' hup' k x hm' hk hw' hu
  cases hres : fromDict c (.data n fs ver) ig path doc with
  | error e => exact ⟨e, rfl⟩
  | ok r =>
    exfalso
    rw [fromDict_upgraded hup, fromDict_data_dict] at hres
    simp only [bind, Except.bind] at hres
    split at hres
    · simp at hres
    · rename_i y hy
      have hs : (fdField c fs f.name (fieldPath path f.name) doc').isSome = true :=
        (fdField_isSome ..).2 (List.mem_map.2 ⟨f, hf, rfl⟩)
      obtain ⟨v, es', _, h2⟩ := itemsLoop_present (kw := y.1) (es := y.2) (by simpa using hy) hm hfn hw hs
      rw [fdField_mem c f.name _ _ fs f hnd hf rfl, hft, he] at h2
      simp at h2

/-- the smallest instance: the same document without the extra nested key loads -/
example :
    let ty := PyTy.data "C" [.mk "a" Ex.aTy .none] .none
    let c := Ex.world.dcfg false false
    fromDict c ty true "" (.dict [("a", .dict [("x", .int 1), ("q", .int 2)])]) = .error .deserType ∧
    fromDict c ty true "" (.dict [("a", .dict [("x", .int 1)]), ("q", .int 2)])
      = .ok (.inst "C" [("a", .inst "A" [("x", .int 1)])], []) := ⟨rfl, rfl⟩

/-! ## C06: omitted fields -/

mutual
/-- `IsDefault f v`: leaving the field `f` out means that its value is `v`: the declared default, or an instance all of whose
fields have the value that leaving them out means. -/
inductive IsDefault : Fld → Val → Prop
  | declared (n t d) : IsDefault (.mk n t (some d)) d
  | built (n c fs ver kvs) : AreDefaults fs kvs → IsDefault (.mk n (.data c fs ver) .none) (.inst c kvs)
inductive AreDefaults : List Fld → List (String × Val) → Prop
  | nil : AreDefaults [] []
  | cons (f fs v kvs) : IsDefault f v → AreDefaults fs kvs → AreDefaults (f :: fs) ((f.name, v) :: kvs)
end

mutual
theorem createDefault_iff : ∀ (t : PyTy) (n : String) (v : Val), createDefault t = some v ↔ IsDefault (.mk n t .none) v
  | .data c fs ver, n, v => by
    simp only [createDefault]
    constructor
    · intro h
      split at h
      · rename_i kvs hk
        cases h
        exact .built _ _ _ _ _ ((createFields_iff fs kvs).1 hk)
      · cases h
    · intro h
      cases h with
      | built _ _ _ _ kvs hk => rw [(createFields_iff fs kvs).2 hk]
  | .int, n, v | .float, n, v | .str, n, v | .bool, n, v | .noneT, n, v | .list _, n, v | .tuple _, n, v | .dict _ _, n, v
  | .union _, n, v | .enum _ _, n, v | .literal _, n, v | .blob _, n, v => by
    simp only [createDefault, reduceCtorEq, false_iff]
    intro h; cases h
theorem createFields_iff : ∀ (fs : List Fld) (kvs : List (String × Val)), createFields fs = some kvs ↔ AreDefaults fs kvs
  | [], kvs => by
    simp only [createFields, Option.some.injEq]
    constructor
    · rintro rfl; exact .nil
    · intro h; cases h; rfl
  | f :: fs, kvs => by
    simp only [createFields]
    constructor
    · intro h
      split at h
      · rename_i kv kvs' h1 h2
        cases h
        obtain ⟨hn, hd⟩ := (createField_iff f kv).1 h1
        obtain ⟨k, v⟩ := kv
        simp only at hn hd
        subst hn
        exact .cons _ _ _ _ hd ((createFields_iff fs kvs').1 h2)
      · cases h
    · intro h
      cases h with
      | cons _ _ v kvs' h1 h2 =>
        rw [(createField_iff f (f.name, v)).2 ⟨rfl, h1⟩, (createFields_iff fs kvs').2 h2]
theorem createField_iff : ∀ (f : Fld) (kv : String × Val), createField f = some kv ↔ (kv.1 = f.name ∧ IsDefault f kv.2)
  | .mk n t (some d), (k, v) => by
    simp only [createField, Option.some.injEq, Prod.mk.injEq, Fld.name]
    constructor
    · rintro ⟨rfl, rfl⟩; exact ⟨rfl, .declared _ _ _⟩
    · rintro ⟨rfl, h⟩
      cases h; exact ⟨rfl, rfl⟩
  | .mk n t .none, (k, v) => by
    simp only [createField, Fld.name]
    constructor
    · intro h
      split at h
      · rename_i w hw
        cases h
        exact ⟨rfl, (createDefault_iff t _ _).1 hw⟩
      · cases h
    · rintro ⟨rfl, h⟩
      rw [(createDefault_iff t _ _).2 h]
end

theorem isDefault_unique {f : Fld} {v w : Val} (h : IsDefault f v) (h' : IsDefault f w) : v = w := by
  have h1 := (createField_iff f (f.name, v)).2 ⟨rfl, h⟩
  have h2 := (createField_iff f (f.name, w)).2 ⟨rfl, h'⟩
  rw [h1] at h2
  simpa using h2

theorem fieldValue_absent {kw : List (String × Val)} {f : Fld} (h : dget kw f.name = .none) (v : Val) :
    fieldValue kw f = .ok v ↔ IsDefault f v := by
  obtain ⟨n, t, d⟩ := f
  have h' : dget kw n = none := h
  simp only [fieldValue, Fld.name, h', Fld.dflt, Fld.ty]
  cases d with
  | some d =>
    simp only [Except.ok.injEq]
    constructor
    · rintro rfl; exact .declared _ _ _
    · intro h; cases h; rfl
  | none =>
    simp only
    rw [← createDefault_iff t n v]
    cases createDefault t <;> simp

/-- the document entry that is read for a field: the value under its name unless that is a weak object -/
def docEntry (d : List (String × Val)) (f : Fld) : Option Val := (dget d f.name).filter (fun x => !x.isWeak)

theorem docEntry_some {d : List (String × Val)} {f : Fld} {x : Val} (h : docEntry d f = some x) :
    (f.name, x) ∈ d ∧ x.isWeak = false := by
  simp only [docEntry, Option.filter_eq_some_iff] at h
  exact ⟨dget_mem h.1, by simpa using h.2⟩

/-- C06. When a document is loaded as a dataclass, every field that the document gives has exactly the value that its entry
loads as on its own (so it does not depend on the other entries), and every field it does not give has its default. -/
theorem C06_fields (c : DCfg) (n : String) (fs : List Fld) (ver : Option VerInfo) (ig : Bool) (path : String) (doc : Val)
    (d : List (String × Val)) (hup : Upgraded c ver doc (.dict d)) (hnd : (fs.map Fld.name).Nodup)
    (hnk : ∀ f ∈ fs, f.name ≠ NAME_KEY) (hd : (dkeys d).Nodup) (v : Val) (es : List Ev)
    (h : fromDict c (.data n fs ver) ig path doc = .ok (v, es)) :
    ∃ kvs, v = .inst n kvs ∧ dkeys kvs = fs.map Fld.name ∧ ∀ f ∈ fs, ∃ y, dget kvs f.name = some y ∧
      (∀ x, docEntry d f = some x → ∃ es', fromDict c f.ty false (fieldPath path f.name) x = .ok (y, es')) ∧
      (docEntry d f = .none → IsDefault f y) := by
  rw [fromDict_upgraded hup, fromDict_data_dict] at h
  simp only [bind, Except.bind, pure, Except.pure] at h
  split at h
  · simp at h
  · rename_i z hz
    obtain ⟨kw, es0⟩ := z
    split at h
    · simp at h
    · rename_i kvs hk
      simp only [Except.ok.injEq, Prod.mk.injEq] at h
      obtain ⟨rfl, rfl⟩ := h
      refine ⟨kvs, rfl, fillFields_keys hk, ?_⟩
      intro f hf
      obtain ⟨y, hy, hfv⟩ := fillFields_value hk hnd f hf
      refine ⟨y, hy, ?_, ?_⟩
      · intro x hx
        obtain ⟨hx, hw⟩ := docEntry_some hx
        have hs : (fdField c fs f.name (fieldPath path f.name) x).isSome = true :=
          (fdField_isSome ..).2 (List.mem_map.2 ⟨f, hf, rfl⟩)
        obtain ⟨y', es', hm, he⟩ := itemsLoop_present hz hx (hnk f hf) hw hs
        rw [fdField_mem c f.name _ _ fs f hnd hf rfl] at he
        have hg : dget kw f.name = some y' := dget_of_mem (itemsLoop_nodup hz hd) hm
        simp only [fieldValue, hg, Except.ok.injEq] at hfv
        subst hfv
        exact ⟨es', by simpa using he⟩
      · intro hx
        apply (fieldValue_absent (kw := kw) ?_ y).1 hfv
        cases hg : dget kw f.name with
        | none => rfl
        | some y' =>
          obtain ⟨_, x, _, hxd, hw, _⟩ := itemsLoop_keys hz (dget_mem hg)
          rw [docEntry, dget_of_mem hd hxd] at hx
          simp [Option.filter, hw] at hx

/-- every entry of the document belongs to a field (or is skipped) and loads -/
def EntriesLoad (c : DCfg) (fs : List Fld) (path : String) (d : List (String × Val)) : Prop :=
  ∀ k x, (k, x) ∈ d → k ≠ NAME_KEY → x.isWeak = false →
    ∃ f ∈ fs, f.name = k ∧ ∃ r, fromDict c f.ty false (fieldPath path k) x = .ok r

theorem itemsLoop_ok (c : DCfg) (fs : List Fld) (hnd : (fs.map Fld.name).Nodup) (path : String) (ig : Bool) :
    ∀ d, EntriesLoad c fs path d →
    ∃ r, itemsLoop (fun k x => fdField c fs k (fieldPath path k) x) ig d = .ok r := by
  intro d
  induction d with
  | nil => intro _; exact ⟨_, rfl⟩
  | cons a d ih =>
    obtain ⟨k, x⟩ := a
    intro h
    obtain ⟨r, hr⟩ := ih (fun k' x' hm => h k' x' (List.mem_cons_of_mem _ hm))
    simp only [itemsLoop]
    by_cases hk : k = NAME_KEY
    · rw [if_pos hk]; exact ⟨r, hr⟩
    · rw [if_neg hk]
      by_cases hw : x.isWeak = true
      · rw [if_pos hw]; exact ⟨r, hr⟩
      · rw [if_neg hw]
        obtain ⟨f, hf, hfn, y, hy⟩ := h k x (by simp) hk (by simpa using hw)
        rw [fdField_mem c k _ _ fs f hnd hf hfn, hy]
        exact ⟨((k, y.1) :: r.1, y.2 ++ r.2), by simp [bind, Except.bind, pure, Except.pure, hr]⟩

/-- C06, exactly when: a document all of whose entries are good loads iff every field it does not give has a default;
otherwise the constructor raises TypeError. -/
theorem C06_success_iff (c : DCfg) (n : String) (fs : List Fld) (ver : Option VerInfo) (ig : Bool) (path : String) (doc : Val)
    (d : List (String × Val)) (hup : Upgraded c ver doc (.dict d)) (hnd : (fs.map Fld.name).Nodup)
    (hnk : ∀ f ∈ fs, f.name ≠ NAME_KEY) (hd : (dkeys d).Nodup) (hl : EntriesLoad c fs path d) :
    ((∃ r, fromDict c (.data n fs ver) ig path doc = .ok r) ↔ ∀ f ∈ fs, docEntry d f = .none → ∃ y, IsDefault f y) ∧
    ((¬ ∃ r, fromDict c (.data n fs ver) ig path doc = .ok r) → fromDict c (.data n fs ver) ig path doc = .error .typeError) := by
  obtain ⟨⟨kw, es⟩, hit⟩ := itemsLoop_ok c fs hnd path ig d hl
  have hval : fromDict c (.data n fs ver) ig path doc
      = (match fillFields kw fs with | .ok kvs => .ok (.inst n kvs, es) | .error e => .error e) := by
    rw [fromDict_upgraded hup, fromDict_data_dict, hit]
    simp only [bind, Except.bind, pure, Except.pure]
    cases fillFields kw fs <;> rfl
  constructor
  · constructor
    · rintro ⟨⟨v, es'⟩, h⟩ f hf hx
      obtain ⟨kvs, _, _, hh⟩ := C06_fields c n fs ver ig path doc d hup hnd hnk hd v es' h
      obtain ⟨y, _, _, hy⟩ := hh f hf
      exact ⟨y, hy hx⟩
    · intro h
      have : ∃ kvs, fillFields kw fs = .ok kvs := by
        rw [fillFields_ok_iff]
        intro f hf
        cases hg : dget kw f.name with
        | some y => exact ⟨y, by simp [fieldValue, hg]⟩
        | none =>
          have hx : docEntry d f = .none := by
            cases hx : docEntry d f with
            | none => rfl
            | some x =>
              obtain ⟨hx, hw⟩ := docEntry_some hx
              have hs : (fdField c fs f.name (fieldPath path f.name) x).isSome = true :=
                (fdField_isSome ..).2 (List.mem_map.2 ⟨f, hf, rfl⟩)
              obtain ⟨y', es', hm, _⟩ := itemsLoop_present hit hx (hnk f hf) hw hs
              rw [dget_of_mem (itemsLoop_nodup hit hd) hm] at hg
              simp at hg
          obtain ⟨y, hy⟩ := h f hf hx
          exact ⟨y, (fieldValue_absent hg y).2 hy⟩
      obtain ⟨kvs, hk⟩ := this
      exact ⟨_, by rw [hval, hk]⟩
  · intro h
    rw [hval] at h ⊢
    cases hk : fillFields kw fs with
    | ok kvs => rw [hk] at h; exact absurd ⟨_, rfl⟩ h
    | error e => simp only; rw [fillFields_error hk]

/-- a nested class without default is built from its own defaults; a leaf without default is reported -/
example :
    let ty := PyTy.data "C" [.mk "a" .int .none, .mk "b" Ex.bTy .none, .mk "s" .str (some (.str "x"))] .none
    let c := Ex.world.dcfg false false
    fromDict c ty false "" (.dict [("a", .int 1)])
      = .ok (.inst "C" [("a", .int 1), ("b", .inst "B" [("y", .flt (.fin 0))]), ("s", .str "x")], []) ∧
    fromDict c ty false "" (.dict [("s", .str "y")]) = .error .typeError := ⟨rfl, rfl⟩

end HS
