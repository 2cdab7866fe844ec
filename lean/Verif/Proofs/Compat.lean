import Verif.Spec.Compat
import Verif.Props.Subtype
import Verif.Proofs.Diff
/-!
# Lemmas: harmless changes keep documents loadable
-/
namespace HS

/-! ## fields -/

theorem fdField_lookup (c : DCfg) (fs : List Fld) (k p : String) (v : Val) :
    fdField c fs k p v = (fs.find? (fun f => f.name == k)).map (fun f => fromDict c f.ty false p v) := by
  induction fs with
  | nil => rfl
  | cons f fs ih =>
    obtain ⟨n, t, d⟩ := f
    by_cases h : n = k
    · simp [fdField, fdFld, List.find?_cons, Fld.name, h, Fld.ty]
    · have h' : ((Fld.mk n t d).name == k) = false := by simpa [Fld.name] using h
      rw [List.find?_cons, h']
      simp only [fdField, fdFld, if_neg h, ih]

/-- the schema of a field -/
def schemaFld (f : Fld) (t : STy) : SFld := .mk f.name t (schemaDefault f.dflt).1 (schemaDefault f.dflt).2 .none

theorem matF_cons {f : Fld} {fs : List Fld} {F : List (String × SFld)} (h : materializeF (f :: fs) = .ok F) :
    ∃ t F', materialize f.ty = .ok t ∧ materializeF fs = .ok F' ∧ F = (f.name, schemaFld f t) :: F' := by
  obtain ⟨n, ty, d⟩ := f
  simp only [materializeF, materializeF1, bind, Except.bind, pure, Except.pure] at h
  cases h1 : materialize ty with
  | error e => rw [h1] at h; exact (nomatch h)
  | ok t =>
    rw [h1] at h
    cases h2 : materializeF fs with
    | error e => rw [h2] at h; exact (nomatch h)
    | ok F' => rw [h2] at h; cases h; exact ⟨t, F', h1, rfl, rfl⟩

theorem matF_find {fs : List Fld} {F : List (String × SFld)} (h : materializeF fs = .ok F) (k : String) :
    (∀ f, fs.find? (fun f => f.name == k) = some f → f.name = k ∧ f ∈ fs ∧
      ∃ t, materialize f.ty = .ok t ∧ dget F k = some (schemaFld f t)) ∧
    (fs.find? (fun f => f.name == k) = .none → dget F k = .none) := by
  induction fs generalizing F with
  | nil => simp only [materializeF] at h; cases h; simp
  | cons f fs ih =>
    obtain ⟨t, F', h1, h2, rfl⟩ := matF_cons h
    simp only [List.find?_cons]
    by_cases hk : f.name = k
    · subst hk
      simp only [beq_self_eq_true]
      refine ⟨?_, fun h => (nomatch h)⟩
      intro g hg
      cases hg
      exact ⟨rfl, by simp, t, h1, by simp [dget]⟩
    · have : (f.name == k) = false := by simpa using hk
      simp only [this, dget, if_neg hk]
      obtain ⟨a, b⟩ := ih h2
      exact ⟨fun g hg => ⟨(a g hg).1, List.mem_cons_of_mem _ (a g hg).2.1, (a g hg).2.2⟩, b⟩

theorem matF_dget {fs : List Fld} {F : List (String × SFld)} (h : materializeF fs = .ok F) {k : String} {g : SFld}
    (hg : dget F k = some g) : ∃ f t, fs.find? (fun f => f.name == k) = some f ∧ f.name = k ∧ materialize f.ty = .ok t ∧ g = schemaFld f t := by
  cases hf : fs.find? (fun f => f.name == k) with
  | none => rw [(matF_find h k).2 hf] at hg; exact (nomatch hg)
  | some f =>
    obtain ⟨h1, _, t, h2, h3⟩ := (matF_find h k).1 f hf
    rw [h3] at hg
    cases hg
    exact ⟨f, t, rfl, h1, h2, rfl⟩

theorem matF_keys {fs : List Fld} {F : List (String × SFld)} (h : materializeF fs = .ok F) : F.map Prod.fst = fs.map Fld.name := by
  induction fs generalizing F with
  | nil => simp only [materializeF] at h; cases h; rfl
  | cons f fs ih => obtain ⟨t, F', h1, h2, rfl⟩ := matF_cons h; simp [ih h2]

theorem find_of_mem {fs : List Fld} (hn : (fs.map Fld.name).Nodup) {f : Fld} (hf : f ∈ fs) :
    fs.find? (fun g => g.name == f.name) = some f := by
  induction fs with
  | nil => exact (nomatch hf)
  | cons g fs ih =>
    simp only [List.map_cons, List.nodup_cons] at hn
    simp only [List.find?_cons]
    rcases List.mem_cons.1 hf with rfl | hf
    · simp
    · have : (g.name == f.name) = false := by
        simp only [beq_eq_false_iff_ne, ne_eq]
        intro h
        exact hn.1 (List.mem_map.2 ⟨f, hf, h.symm⟩)
      simp only [this]
      exact ih hn.2 hf

/-- `clz(**kwargs)` succeeds if every field has a value -/
theorem fillFields_of (kw : List (String × Val)) : ∀ (fs : List Fld), (∀ f ∈ fs, ∃ v, fieldValue kw f = .ok v) →
    ∃ kvs, fillFields kw fs = .ok kvs
  | [], _ => ⟨[], rfl⟩
  | f :: fs, h => by
    obtain ⟨v, hv⟩ := h f (by simp)
    obtain ⟨kvs, hk⟩ := fillFields_of kw fs (fun g hg => h g (List.mem_cons_of_mem _ hg))
    exact ⟨(f.name, v) :: kvs, by simp only [fillFields, hv, hk, bind, Except.bind, pure, Except.pure]⟩

theorem fillFields_inv (kw : List (String × Val)) : ∀ (fs : List Fld) (kvs : List (String × Val)), fillFields kw fs = .ok kvs →
    (∀ f ∈ fs, ∃ v, fieldValue kw f = .ok v) ∧
    ∀ k f, fs.find? (fun f => f.name == k) = some f → ∃ v, dget kvs k = some v ∧ fieldValue kw f = .ok v
  | [], kvs, h => by simp
  | f :: fs, kvs, h => by
    simp only [fillFields, bind, Except.bind, pure, Except.pure] at h
    cases h1 : fieldValue kw f with
    | error e => rw [h1] at h; exact (nomatch h)
    | ok v =>
      rw [h1] at h
      cases h2 : fillFields kw fs with
      | error e => rw [h2] at h; exact (nomatch h)
      | ok rest =>
        rw [h2] at h
        cases h
        obtain ⟨a, b⟩ := fillFields_inv kw fs rest h2
        constructor
        · intro g hg
          rcases List.mem_cons.1 hg with rfl | hg
          · exact ⟨v, h1⟩
          · exact a g hg
        · intro k g hg
          simp only [List.find?_cons] at hg
          by_cases hk : f.name = k
          · simp only [hk, beq_self_eq_true, Option.some.injEq] at hg
            subst hg
            exact ⟨v, by simp [dget, hk], h1⟩
          · have : (f.name == k) = false := by simpa using hk
            simp only [this] at hg
            obtain ⟨w, h3, h4⟩ := b k g hg
            exact ⟨w, by simp [dget, hk, h3], h4⟩

/-- the loop over the document, with two classes -/
theorem itemsLoop_mono {f g : String → Val → Option Res} : ∀ (d : List (String × Val)) (r : List (String × Val) × List Ev),
    (∀ k x q, (k, x) ∈ d → k ≠ NAME_KEY → f k x = some (.ok q) → ∃ q', g k x = some (.ok q') ∧ KeptR x q q') →
    itemsLoop f false d = .ok r →
    ∃ r', itemsLoop g false d = .ok r' ∧ (dkeys r'.1 = dkeys r.1 ∧ EvsLike r.2 r'.2) ∧
      (∀ k x, dget d k = some x → k ≠ NAME_KEY → x.isWeak = false →
        ∃ v w, dget r.1 k = some v ∧ dget r'.1 k = some w ∧ Kept x v w ∧ ∃ es, f k x = some (.ok (v, es)))
  | [], r, _, hr => by
    simp only [itemsLoop] at hr
    cases hr
    exact ⟨_, rfl, ⟨rfl, trivial⟩, by simp⟩
  | (k, x) :: d, r, h, hr => by
    simp only [itemsLoop] at hr ⊢
    by_cases hk : k = NAME_KEY
    · simp only [if_pos hk] at hr ⊢
      obtain ⟨r', h1, h2, h3⟩ := itemsLoop_mono d r (fun k x q hm => h k x q (List.mem_cons_of_mem _ hm)) hr
      refine ⟨r', h1, h2, ?_⟩
      intro k' x' hd hk'
      have : ¬ k = k' := by rintro rfl; exact hk' hk
      simp only [dget, if_neg this] at hd
      exact h3 k' x' hd hk'
    · simp only [if_neg hk] at hr ⊢
      by_cases hw : x.isWeak = true
      · simp only [if_pos hw] at hr ⊢
        obtain ⟨r', h1, h2, h3⟩ := itemsLoop_mono d r (fun k x q hm => h k x q (List.mem_cons_of_mem _ hm)) hr
        refine ⟨r', h1, h2, ?_⟩
        intro k' x' hd hk' hw'
        by_cases he : k = k'
        · subst he
          simp only [dget, if_true] at hd
          cases hd
          rw [hw] at hw'
          exact (nomatch hw')
        · simp only [dget, if_neg he] at hd
          exact h3 k' x' hd hk' hw'
      · simp only [if_neg hw] at hr ⊢
        cases h1 : f k x with
        | none => rw [h1] at hr; exact (nomatch hr)
        | some q =>
          rw [h1] at hr
          simp only [bind, Except.bind, pure, Except.pure] at hr
          cases q with
          | error e => exact (nomatch hr)
          | ok q =>
            simp only at hr
            cases h2 : itemsLoop f false d with
            | error e => rw [h2] at hr; exact (nomatch hr)
            | ok s =>
              rw [h2] at hr
              simp only at hr
              cases hr
              obtain ⟨q', hq, hkept⟩ := h k x q (by simp) hk h1
              obtain ⟨s', a1, a2, a3⟩ := itemsLoop_mono d s (fun k x q hm => h k x q (List.mem_cons_of_mem _ hm)) h2
              rw [hq]
              simp only [bind, Except.bind, pure, Except.pure, a1]
              refine ⟨_, rfl, ⟨by simpa [dkeys] using a2.1, evsLike_append hkept.2 a2.2⟩, ?_⟩
              intro k' x' hd hk' hw'
              by_cases he : k = k'
              · subst he
                simp only [dget, if_true] at hd
                cases hd
                exact ⟨q.1, q'.1, by simp [dget], by simp [dget], hkept.1, q.2, h1⟩
              · simp only [dget, if_neg he] at hd ⊢
                exact a3 k' x' hd hk' hw'

/-! ## changes -/

theorem goodS_neS {A : STy} (h : GoodS true A) : NeS A := by
  induction h with
  | struct h1 h2 h3 ih => exact .struct (h1 rfl) ih
  | _ => exact .other rfl

/-- a removed dataclass that is not empty is reported -/
theorem allGone_nonempty {A : STy} (h : NeS A) : A.isStruct = true → ∀ path, ∃ p t d b, Change.fieldRemoved p t d b ∈ allGone path A := by
  induction h with
  | @struct n fs v h1 h2 ih =>
    intro _ path
    cases fs with
    | nil => exact absurd rfl h1
    | cons e fs =>
      obtain ⟨k, f⟩ := e
      obtain ⟨nm, t, d, b, doc⟩ := f
      have hg := ih k (.mk nm t d b doc) (by simp)
      simp only [allGone, allGoneF, allGoneP, allGoneS]
      by_cases hs : t.isStruct = true
      · obtain ⟨p, t', d', b', hm⟩ := hg hs (path ++ [k])
        exact ⟨p, t', d', b', List.mem_append_left _ (by rw [if_pos hs]; exact hm)⟩
      · exact ⟨_, _, _, _, List.mem_append_left _ (by rw [if_neg hs]; exact List.mem_singleton.2 rfl)⟩
  | other h => intro hs; rw [h] at hs; exact (nomatch hs)

theorem allGoneS_nonempty {f : SFld} (h : NeS f.type) (path : List String) (k : String) :
    ∃ p t d b, Change.fieldRemoved p t d b ∈ allGoneS path k f := by
  obtain ⟨nm, t, d, b, doc⟩ := f
  simp only [allGoneS]
  by_cases hs : t.isStruct = true
  · rw [if_pos hs]; exact allGone_nonempty h hs _
  · rw [if_neg hs]; exact ⟨_, _, _, _, List.mem_singleton.2 rfl⟩

theorem removedFields_mem {path : List String} {G : List (String × SFld)} : ∀ {F : List (String × SFld)} {k : String} {f : SFld},
    (k, f) ∈ F → dhas G k = false → ∀ c ∈ allGoneS path k f, c ∈ removedFields path G F
  | (k', f') :: F, k, f, hm, hg, c, hc => by
    simp only [removedFields]
    rcases List.mem_cons.1 hm with hm | hm
    · cases hm
      exact List.mem_append_left _ (by simp [hg, hc])
    · exact List.mem_append_right _ (removedFields_mem hm hg c hc)

theorem findFields_mem {path : List String} {F : List (String × SFld)} : ∀ {G : List (String × SFld)} {cs : List Change} {k : String} {g : SFld},
    (k, g) ∈ G → findFields path F G = .ok cs → ∃ cs', findField1 path F k g = .ok cs' ∧ ∀ c ∈ cs', c ∈ cs
  | (k', g') :: G, cs, k, g, hm, h => by
    simp only [findFields, findFieldP, bind, Except.bind, pure, Except.pure] at h
    cases h1 : findField1 path F k' g' with
    | error e => rw [h1] at h; exact (nomatch h)
    | ok q =>
      rw [h1] at h
      cases h2 : findFields path F G with
      | error e => rw [h2] at h; exact (nomatch h)
      | ok w =>
        rw [h2] at h
        cases h
        rcases List.mem_cons.1 hm with hm | hm
        · cases hm; exact ⟨q, h1, fun c hc => List.mem_append_left _ hc⟩
        · obtain ⟨cs', h3, h4⟩ := findFields_mem hm h2
          exact ⟨cs', h3, fun c hc => List.mem_append_right _ (h4 c hc)⟩

/-- the pair of fields under one key: both structs or both not, the types differ harmlessly, no default was lost or changed -/
theorem field_pair {path : List String} {F : List (String × SFld)} {k : String} {f g : SFld} {cs : List Change}
    (h : findField1 path F k g = .ok cs) (hf : dget F k = some f) (hh : ∀ c ∈ cs, Harmless c) (hgood : NeS f.type) :
    f.type.isStruct = g.type.isStruct ∧ (∃ cs', findChanges (path ++ [k]) g.type f.type = .ok cs' ∧ ∀ c ∈ cs', Harmless c) ∧
    (f.hasDefault = true → g.hasDefault = true ∧ pyEq f.dflt g.dflt = true) := by
  obtain ⟨nm, t, d, b, doc⟩ := g
  simp only [findField1, hf] at h
  by_cases h1 : (t.isStruct && !f.type.isStruct) = true
  · rw [if_pos h1] at h
    cases h
    exact (hh _ (List.mem_cons_self ..)).elim
  · rw [if_neg h1] at h
    by_cases h2 : (f.type.isStruct && !t.isStruct) = true
    · rw [if_pos h2] at h
      cases h
      simp only [Bool.and_eq_true] at h2
      obtain ⟨p, t', d', b', hm⟩ := allGone_nonempty hgood h2.1 (path ++ [k])
      exact (hh _ (List.mem_cons_of_mem _ hm)).elim
    · rw [if_neg h2] at h
      simp only [bind, Except.bind, pure, Except.pure] at h
      cases h3 : findChanges (path ++ [k]) t f.type with
      | error e => rw [h3] at h; exact (nomatch h)
      | ok q =>
        rw [h3] at h
        cases h
        refine ⟨?_, ⟨q, h3, fun c hc => hh c (List.mem_append_left _ hc)⟩, ?_⟩
        · show f.type.isStruct = t.isStruct
          cases hfs : f.type.isStruct <;> cases hts : t.isStruct <;> simp_all
        · intro hd
          have hh2 : ∀ c ∈ defaultChanges (path ++ [k]) f (.mk nm t d b doc), Harmless c := fun c hc => hh c (List.mem_append_right _ hc)
          unfold defaultChanges at hh2
          simp only [hd] at hh2
          show b = true ∧ pyEq f.dflt d = true
          cases b with
          | false =>
            have := hh2 (.defaultRemoved (path ++ [k]) f.dflt) (by simp [SFld.hasDefault])
            exact this.elim
          | true =>
            refine ⟨rfl, ?_⟩
            cases hp : pyEq f.dflt d with
            | true => rfl
            | false =>
              have := hh2 (.defaultChanged (path ++ [k]) f.dflt d) (by
                have e1 : (SFld.mk nm t d true doc).dflt = d := rfl
                have e2 : (SFld.mk nm t d true doc).hasDefault = true := rfl
                simp [e1, e2, hp])
              exact this.elim

mutual
/-- a new dataclass whose leaves all have defaults is constructed from them -/
theorem createDefault_new : ∀ (ty : PyTy) (S : STy) (path : List String), materialize ty = .ok S → S.isStruct = true →
    (∀ c ∈ allNew path S, Harmless c) → ∃ v, createDefault ty = some v
  | .data n fs ver, S, path, hm, _, h => by
    obtain ⟨F, h1, rfl⟩ := mat_data hm
    obtain ⟨kvs, h2⟩ := createFields_new fs F path h1 (by simpa only [allNew] using h)
    exact ⟨.inst n kvs, by simp only [createDefault, h2]⟩
  | .int, S, _, hm, hs, _ => by cases mat_int hm; exact (nomatch hs)
  | .str, S, _, hm, hs, _ => by cases mat_str hm; exact (nomatch hs)
  | .bool, S, _, hm, hs, _ => by cases mat_bool hm; exact (nomatch hs)
  | .float, S, _, hm, hs, _ => by cases mat_float hm; exact (nomatch hs)
  | .noneT, S, _, hm, _, _ => (mat_noneT hm).elim
  | .blob _, S, _, hm, _, _ => (mat_blob hm).elim
  | .list _, S, _, hm, hs, _ => by obtain ⟨_, _, rfl⟩ := mat_list hm; exact (nomatch hs)
  | .tuple _, S, _, hm, hs, _ => by obtain ⟨_, _, rfl⟩ := mat_tuple hm; exact (nomatch hs)
  | .dict _ _, S, _, hm, hs, _ => by obtain ⟨_, _, _, _, rfl⟩ := mat_dict hm; exact (nomatch hs)
  | .union _, S, _, hm, hs, _ => by
    rcases mat_union hm with ⟨_, _, _, _, rfl⟩ | ⟨_, _, _, rfl⟩ <;> exact (nomatch hs)
  | .enum _ _, S, _, hm, hs, _ => by cases mat_enum hm; exact (nomatch hs)
  | .literal _, S, _, hm, hs, _ => by cases mat_literal hm; exact (nomatch hs)
termination_by structural x => x
theorem createFields_new : ∀ (fs : List Fld) (F : List (String × SFld)) (path : List String), materializeF fs = .ok F →
    (∀ c ∈ allNewF path F, Harmless c) → ∃ kvs, createFields fs = some kvs
  | [], _, _, _, _ => ⟨[], rfl⟩
  | f :: fs, F, path, hm, h => by
    obtain ⟨t, F', h1, h2, rfl⟩ := matF_cons hm
    simp only [allNewF, allNewP] at h
    obtain ⟨kvs, hk⟩ := createFields_new fs F' path h2 (fun c hc => h c (List.mem_append_right _ hc))
    obtain ⟨kv, hv⟩ := createField_new f t path h1 (fun c hc => h c (List.mem_append_left _ hc))
    exact ⟨kv :: kvs, by simp only [createFields, hv, hk]⟩
termination_by structural x => x
theorem createField_new : ∀ (f : Fld) (t : STy) (path : List String), materialize f.ty = .ok t →
    (∀ c ∈ allNewS path f.name (schemaFld f t), Harmless c) → ∃ kv, createField f = some kv
  | .mk n ty (some d), t, _, _, _ => ⟨(n, d), rfl⟩
  | .mk n ty .none, t, path, hm, h => by
    simp only [schemaFld, allNewS] at h
    by_cases hs : t.isStruct = true
    · rw [if_pos hs] at h
      obtain ⟨v, hv⟩ := createDefault_new ty t _ hm hs h
      exact ⟨(n, v), by simp only [createField, hv]⟩
    · rw [if_neg hs] at h
      have := h _ (List.mem_singleton.2 rfl)
      simp [Harmless, schemaDefault, Fld.dflt] at this
termination_by structural x => x
end

/-- a field that is new has a default, or is a dataclass that can be constructed -/
theorem field_new {f : Fld} {t : STy} {path : List String} {F : List (String × SFld)} {cs : List Change} (hm : materialize f.ty = .ok t)
    (h : findField1 path F f.name (schemaFld f t) = .ok cs) (hf : dget F f.name = .none) (hh : ∀ c ∈ cs, Harmless c) :
    ∃ kv, createField f = some kv := by
  simp only [schemaFld, findField1, hf] at h
  cases h
  exact createField_new f t path hm hh

theorem createField_value {f : Fld} {kv : String × Val} (h : createField f = some kv) (kw : List (String × Val)) :
    ∃ v, fieldValue kw f = .ok v := by
  obtain ⟨n, t, d⟩ := f
  unfold fieldValue
  cases h1 : dget kw n with
  | some v => exact ⟨v, by simp [Fld.name, h1]⟩
  | none =>
    simp only [Fld.name, h1, Fld.dflt, Fld.ty]
    cases d with
    | some d => exact ⟨d, rfl⟩
    | none =>
      simp only [createField] at h
      cases h2 : createDefault t with
      | none => rw [h2] at h; exact (nomatch h)
      | some v => exact ⟨v, rfl⟩

theorem createFields_of : ∀ (fs : List Fld), (∀ f ∈ fs, ∃ kv, createField f = some kv) → ∃ kvs, createFields fs = some kvs
  | [], _ => ⟨[], rfl⟩
  | f :: fs, h => by
    obtain ⟨kv, hv⟩ := h f (by simp)
    obtain ⟨kvs, hk⟩ := createFields_of fs (fun g hg => h g (List.mem_cons_of_mem _ hg))
    exact ⟨kv :: kvs, by simp only [createFields, hv, hk]⟩

theorem createFields_inv : ∀ (fs : List Fld) (kvs : List (String × Val)), createFields fs = some kvs → ∀ f ∈ fs, ∃ kv, createField f = some kv
  | [], _, _, f, hf => (nomatch hf)
  | g :: fs, kvs, h, f, hf => by
    simp only [createFields] at h
    cases h1 : createField g with
    | none => rw [h1] at h; exact (nomatch h)
    | some kv =>
      rw [h1] at h
      cases h2 : createFields fs with
      | none => rw [h2] at h; exact (nomatch h)
      | some r =>
        rcases List.mem_cons.1 hf with rfl | hf
        · exact ⟨kv, h1⟩
        · exact createFields_inv fs r h2 f hf

end HS
