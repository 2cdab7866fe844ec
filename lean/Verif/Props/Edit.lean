import Verif.Props.Sections
import Verif.Props.Manager
import Verif.Props.Registered
/-!
# C81: a value edited in a config file or in the text files of a checkpoint
-/
namespace HS

/-- the document with the value at the path replaced, everything else and the order of the entries as before -/
def Val.edit (x : Val) : List String → Val → Val
  | [], _ => x
  | k :: ks, .dict d => match dget d k with
    | some c => .dict (dset d k (Val.edit x ks c))
    | .none => .dict d
  | _ :: _, v => v

/-- the object after `obj.a.b = y` -/
def Val.setAttr (y : Val) : List String → Val → Val
  | [], _ => y
  | k :: ks, .inst c kvs => .inst c (kvs.map (fun kv => if kv.1 = k then (kv.1, Val.setAttr y ks kv.2) else kv))
  | _ :: _, v => v

theorem itemsLoop_edit {f : String → Val → Option Res} {ig : Bool} {k : String} {x x' y' : Val} {es' : List Ev} (hk : k ≠ NAME_KEY)
    (hw : x.isWeak = false) (hf : (f k x).isSome = true) (hw' : x'.isWeak = false) (hf' : f k x' = some (.ok (y', es'))) :
    ∀ {d kw es}, itemsLoop f ig d = .ok (kw, es) → dget d k = some x →
      ∃ es'', itemsLoop f ig (dset d k x') = .ok (dset kw k y', es'') := by
  intro d
  induction d with
  | nil => intro kw es _ h; simp at h
  | cons e d ih =>
    intro kw es h hd
    obtain ⟨j, y⟩ := e
    by_cases e : j = k
    · subst e
      simp only [dget, if_true, Option.some.injEq] at hd
      subst hd
      obtain ⟨r, hr⟩ := Option.isSome_iff_exists.1 hf
      simp only [itemsLoop, hk, if_false, hw, Bool.false_eq_true, hr, bind, Except.bind, pure, Except.pure] at h
      split at h
      · exact (nomatch h)
      split at h
      · exact (nomatch h)
      rename_i ws hws
      cases h
      simp only [dset, if_true, itemsLoop, hk, if_false, hw', Bool.false_eq_true, hf', bind, Except.bind, pure, Except.pure, hws]
      exact ⟨_, rfl⟩
    · simp only [dget, e, if_false] at hd
      simp only [itemsLoop] at h
      simp only [dset, e, if_false, itemsLoop]
      split at h
      · rename_i h1; simp only [h1, if_true]; exact ih h hd
      · rename_i h1
        simp only [h1, if_false]
        split at h
        · rename_i h2; simp only [h2, if_true]; exact ih h hd
        · rename_i h2
          simp only [h2, Bool.false_eq_true, if_false]
          cases h3 : f j y with
          | none =>
            rw [h3] at h
            simp only at h ⊢
            split at h
            · rename_i h4; rw [if_pos h4]; exact ih h hd
            · exact (nomatch h)
          | some r =>
            rw [h3] at h
            cases r with
            | error err => exact (nomatch h)
            | ok w =>
              simp only [bind, Except.bind, pure, Except.pure] at h ⊢
              split at h
              · exact (nomatch h)
              rename_i ws hws
              cases h
              obtain ⟨es'', h5⟩ := ih (kw := ws.1) (es := ws.2) hws hd
              refine ⟨w.2 ++ es'', ?_⟩
              rw [h5]
              simp [dset, e]

theorem fillFields_edit {kw kw' : List (String × Val)} {k : String} {y y' : Val} (hy : dget kw k = some y) (hy' : dget kw' k = some y')
    (hne : ∀ j, j ≠ k → dget kw' j = dget kw j) : ∀ {fs kvs}, fillFields kw fs = .ok kvs →
      fillFields kw' fs = .ok (kvs.map (fun kv => if kv.1 = k then (kv.1, y') else kv)) ∧ ∀ kv ∈ kvs, kv.1 = k → kv.2 = y := by
  intro fs
  induction fs with
  | nil => intro kvs h; simp [fillFields] at h; subst h; simp [fillFields]
  | cons f fs ih =>
    intro kvs h
    simp only [fillFields, bind, Except.bind, pure, Except.pure] at h
    split at h
    · exact (nomatch h)
    rename_i v hv
    split at h
    · exact (nomatch h)
    rename_i rest hrest
    cases h
    obtain ⟨h1, h2⟩ := ih hrest
    by_cases e : f.name = k
    · have hv' : fieldValue kw' f = .ok y' := by simp only [fieldValue, e, hy']
      simp only [fieldValue, e, hy, Except.ok.injEq] at hv
      subst hv
      refine ⟨by simp only [fillFields, hv', h1, bind, Except.bind, pure, Except.pure, List.map_cons, e, if_true], ?_⟩
      intro kv hkv hk
      rcases List.mem_cons.1 hkv with rfl | hkv
      · rfl
      · exact h2 kv hkv hk
    · have hv' : fieldValue kw' f = .ok v := by rw [← hv]; simp only [fieldValue, hne _ e]
      refine ⟨by simp only [fillFields, hv', h1, bind, Except.bind, pure, Except.pure, List.map_cons, e, if_false], ?_⟩
      intro kv hkv hk
      rcases List.mem_cons.1 hkv with rfl | hkv
      · exact absurd hk e
      · exact h2 kv hkv hk

/-- What a document loads to after one value in it was replaced. -/
theorem fromDict_edit (c : DCfg) {fs : List Fld} {p : List String} {t : PyTy} (hf : FieldAtU fs p t) {x' y' : Val}
    (hx' : ∃ es, fromDict c t false "" x' = .ok (y', es)) (hw' : x'.isWeak = false) :
    ∀ (n : String) (ig : Bool) (path : String) (doc v : Val) (es : List Ev) (x : Val),
    fromDict c (.data n fs .none) ig path doc = .ok (v, es) → Solid doc p → doc.at? p = some x → x.isWeak = false →
    NAME_KEY ∉ p → WEAK_REF ∉ p → ∃ es', fromDict c (.data n fs .none) ig path (Val.edit x' p doc) = .ok (Val.setAttr y' p v, es') := by
  -- one level
  have level : ∀ {fs : List Fld} {k : String} {f : Fld} (n : String) (ig : Bool) (path : String) (d : List (String × Val)) (v : Val)
      (es : List Ev) (x x1 y1 : Val) (ks : List String), fs.find? (fun f => f.name == k) = some f →
      fromDict c (.data n fs .none) ig path (.dict d) = .ok (v, es) → dget d k = some x → x.isWeak = false → k ≠ NAME_KEY →
      x1.isWeak = false → (∀ y es, fromDict c f.ty false (fieldPath path k) x = .ok (y, es) →
        Val.setAttr y' ks y = y1 ∧ ∃ es1, fromDict c f.ty false (fieldPath path k) x1 = .ok (y1, es1)) →
      ∃ es', fromDict c (.data n fs .none) ig path (.dict (dset d k x1)) = .ok (Val.setAttr y' (k :: ks) v, es') := by
    intro fs k f n ig path d v es x x1 y1 ks hfind h hd hw hn hw1 hy
    rw [fromDict_data_dict] at h ⊢
    simp only [bind, Except.bind, pure, Except.pure] at h ⊢
    split at h
    · exact (nomatch h)
    rename_i kw hkw
    split at h
    · exact (nomatch h)
    rename_i kvs hkvs
    cases h
    have hname : f.name = k := by simpa using List.find?_some hfind
    obtain ⟨y, es', h1, h2⟩ := itemsLoop_dget (kw := kw.1) (es := kw.2) hkw hd hn hw (by simp [fdField_find c _ x hfind])
    rw [fdField_find c _ x hfind, Option.some.injEq] at h2
    obtain ⟨hset, es1, hy1⟩ := hy y es' h2
    obtain ⟨es'', h3⟩ := itemsLoop_edit (f := fun k x => fdField c fs k (fieldPath path k) x) (ig := ig) (x := x) (x' := x1) (y' := y1)
      (es' := es1) hn hw (by simp [fdField_find c _ x hfind]) hw1 (by rw [fdField_find c _ x1 hfind, hy1]) (kw := kw.1) (es := kw.2) hkw hd
    rw [h3]
    obtain ⟨h4, h5⟩ := fillFields_edit (kw := kw.1) (kw' := dset kw.1 k y1) (k := k) (y := y) (y' := y1) h1 (by simp)
      (fun j hj => dget_dset_ne _ _ (Ne.symm hj)) hkvs
    simp only [h4]
    have hmap : kvs.map (fun kv => if kv.1 = k then (kv.1, y1) else kv) =
        kvs.map (fun kv => if kv.1 = k then (kv.1, Val.setAttr y' ks kv.2) else kv) := by
      apply List.map_congr_left
      intro kv hkv
      split
      · rename_i e; rw [h5 kv hkv e, hset]
      · rfl
    exact ⟨es'', by simp only [Val.setAttr, hmap]⟩
  induction hf with
  | @here fs k f hfind =>
    intro n ig path doc v es x h hs hx hw hn hwk
    obtain ⟨d, rfl⟩ := solid_isDict (by simp) hs
    have hd : dget d k = some x := by
      simp only [at?_dict_cons] at hx
      cases hd : dget d k with
      | none => simp [hd] at hx
      | some c => simpa [hd] using hx
    have := level n ig path d v es x x' y' [] hfind h hd hw (fun e => hn (by simp [e])) hw' (fun y es _ =>
      ⟨rfl, ((C68_place c f.ty false "" (fieldPath path k) x').1 y').1 hx'⟩)
    simpa only [Val.edit, hd] using this
  | @there fs k k' ks f n' fs' t hfind hst hf' ih =>
    intro n ig path doc v es x h hs hx hw hn hwk
    obtain ⟨d, rfl⟩ := solid_isDict (by simp) hs
    obtain ⟨dc, hdc, hdw, hs'⟩ := solid_cons.1 hs
    have hweak : (Val.dict dc).isWeak = false := by simp [Val.isWeak, dhas, hdw]
    simp only [at?_dict_cons, hdc, Option.bind_some] at hx
    obtain ⟨dc', hdc'⟩ : ∃ dc', Val.edit x' (k' :: ks) (.dict dc) = .dict dc' := by
      simp only [Val.edit]; split <;> exact ⟨_, rfl⟩
    have hweak' : (Val.dict dc').isWeak = false := by
      simp only [Val.edit] at hdc'
      split at hdc'
      · cases hdc'
        simp only [Val.isWeak, dhas]
        rw [dget_dset_ne _ _ (by simpa using fun e => hwk (by simp [e])), hdw]; rfl
      · cases hdc'; exact hweak
    have hcase := fun y es (hy : fromDict c f.ty false (fieldPath path k) (.dict dc) = .ok (y, es)) =>
      ih hx' n' false (fieldPath path k) (.dict dc) y es x (by rw [← fromDict_strips c hst]; exact hy) hs' (by simpa using hx) hw
        (fun hm => hn (List.mem_cons_of_mem _ hm)) (fun hm => hwk (List.mem_cons_of_mem _ hm))
    -- the value of the section
    rw [fromDict_data_dict] at h
    have h0 := h
    simp only [bind, Except.bind, pure, Except.pure] at h0
    split at h0
    · exact (nomatch h0)
    rename_i kw hkw
    obtain ⟨y, es', h1, h2⟩ := itemsLoop_dget (kw := kw.1) (es := kw.2) hkw hdc (fun e => hn (by simp [e])) hweak (by simp [fdField_find c _ _ hfind])
    rw [fdField_find c _ _ hfind, Option.some.injEq] at h2
    obtain ⟨es2, h3⟩ := hcase y es' h2
    have := level n ig path d v es (.dict dc) (.dict dc') (Val.setAttr y' (k' :: ks) y) (k' :: ks) hfind (by rw [fromDict_data_dict]; exact h)
      hdc hweak (fun e => hn (by simp [e])) hweak' (fun z es hz => by
        rw [h2] at hz
        cases hz
        exact ⟨rfl, es2, by rw [fromDict_strips c hst, ← hdc']; exact h3⟩)
    rw [← hdc'] at this
    simpa only [Val.edit, hdc] using this


/-- an attribute that is assigned holds the new value, the others what they held -/
theorem setAttr_attr (y : Val) : ∀ (p : List String) (v z : Val), v.attr p = some z → (Val.setAttr y p v).attr p = some y ∧
    ∀ q, Unrelated p q → (Val.setAttr y p v).attr q = v.attr q := by
  have hget : ∀ (k : String) (g : Val → Val) (kvs : List (String × Val)) (j : String),
      dget (kvs.map (fun kv => if kv.1 = k then (kv.1, g kv.2) else kv)) j = if j = k then (dget kvs j).map g else dget kvs j := by
    intro k g kvs j
    induction kvs with
    | nil => simp [dget]
    | cons e kvs ih =>
      obtain ⟨a, b⟩ := e
      by_cases e1 : a = k
      · subst e1
        by_cases e2 : a = j
        · subst e2; simp [dget]
        · simp only [List.map_cons, if_true, dget, e2, if_false, ih]
      · by_cases e2 : a = j
        · subst e2; simp [dget, e1]
        · simp only [List.map_cons, e1, if_false, dget, e2, ih]
  intro p
  induction p with
  | nil => intro v z _; exact ⟨rfl, fun q hq => absurd (List.nil_prefix) hq.1⟩
  | cons k ks ih =>
    intro v z hz
    cases v <;> simp only [Val.attr, reduceCtorEq] at hz
    rename_i c kvs
    cases hd : dget kvs k with
    | none => rw [hd] at hz; exact (nomatch hz)
    | some u =>
      rw [hd] at hz
      obtain ⟨h1, h2⟩ := ih u z hz
      refine ⟨by simp [Val.setAttr, Val.attr, hget, hd, h1], ?_⟩
      intro q hq
      cases q with
      | nil => exact absurd (List.nil_prefix) hq.2
      | cons j js =>
        simp only [Val.setAttr, Val.attr, hget]
        split
        · rename_i e
          subst e
          rw [hd]
          refine h2 js ⟨fun h => hq.1 ?_, fun h => hq.2 ?_⟩ <;> simpa using h
        · rfl

theorem typedLoad_fromDict' {c : DCfg} {ron : RonParse} {os : Option (List String)} (hos : os.getD [] = []) {ig : Bool} {n : String}
    {fs : List Fld} {ver : Option VerInfo} {doc : Val} {l : Loaded}
    (h : typedLoad c ron os ig (.data n fs ver) doc = .ok l) : ∃ es, fromDict c (.data n fs ver) ig "" doc = .ok (l.value, es) := by
  cases os with
  | none => exact typedLoad_fromDict h
  | some os =>
    simp only [Option.getD_some] at hos
    subst hos
    simp only [typedLoad, bind, Except.bind, pure, Except.pure] at h
    split at h
    · exact (nomatch h)
    rename_i doc' hdoc'
    obtain ⟨sfs, _, hl⟩ := applyOverrides_ok hdoc'
    simp only [overridesLoop, Except.ok.injEq, Prod.mk.injEq] at hl
    obtain ⟨rfl, _⟩ := hl
    split at h
    · exact (nomatch h)
    rename_i r hr
    split at h
    · exact (nomatch h)
    cases h
    exact ⟨r.2, hr⟩

/-- what is written at a path by an edit -/
theorem edit_at (x : Val) : ∀ (p : List String) (doc z : Val), doc.at? p = some z → (Val.edit x p doc).at? p = some x ∧
    ∀ q, Unrelated p q → (Val.edit x p doc).at? q = doc.at? q := by
  intro p
  induction p with
  | nil => intro v z _; exact ⟨by simp [Val.edit, Val.at?], fun q hq => absurd (List.nil_prefix) hq.1⟩
  | cons k ks ih =>
    intro doc z hz
    cases hdd : doc.isDict
    · simp [at?_cons_of_not_dict doc hdd] at hz
    obtain ⟨d, rfl⟩ := (isDict_iff doc).1 hdd
    cases hd : dget d k with
    | none => simp [at?_dict_cons, hd] at hz
    | some u =>
      simp only [at?_dict_cons, hd, Option.bind_some] at hz
      obtain ⟨h1, h2⟩ := ih u z hz
      refine ⟨by simp [Val.edit, hd, at?_dict_cons, h1], ?_⟩
      intro q hq
      cases q with
      | nil => exact absurd (List.nil_prefix) hq.2
      | cons j js =>
        simp only [Val.edit, hd, at?_dict_cons]
        by_cases e : k = j
        · subst e
          simp only [dget_dset_self, hd, Option.bind_some]
          exact h2 js ⟨fun h => hq.1 (by simpa using h), fun h => hq.2 (by simpa using h)⟩
        · rw [dget_dset_ne _ _ e]

/-- **C81**. In a document that loads, the value at the path of a field is replaced by one that the type of the field accepts. The
edited document is accepted, and loads to the same object with that field assigned, nothing else being different. This holds for every
loader: `load`, `loads`, the config and the state of a checkpoint (`c`, `ig`),
without overrides. -/
theorem C81_edit (c : DCfg) (ig : Bool) (n : String) (fs : List Fld) (doc : Val) (hdoc : NoMark doc) (ron : RonParse) (os : Option (List String)) (hos : os.getD [] = [])
    (l : Loaded)
    (h : typedLoad c ron os ig (.data n fs .none) doc = .ok l)
    (p : List String) (t : PyTy) (hf : FieldAtU fs p t) (hn : NAME_KEY ∉ p) (hw : WEAK_REF ∉ p) (hin : (doc.at? p).isSome = true)
    (x y : Val) (ey : List Ev) (hx : x.isWeak = false) (hy : fromDict c t false "" x = .ok (y, ey)) :
    (∃ es, fromDict c (.data n fs .none) ig "" (Val.edit x p doc) = .ok (Val.setAttr y p l.value, es)) ∧
    (∀ l', typedLoad c ron os ig (.data n fs .none) (Val.edit x p doc) = .ok l' → l'.value = Val.setAttr y p l.value) ∧
    (Val.setAttr y p l.value).attr p = some y ∧ ∀ q, Unrelated p q → (Val.setAttr y p l.value).attr q = l.value.attr q := by
  obtain ⟨es, h⟩ := typedLoad_fromDict' hos h
  obtain ⟨z, hz⟩ := Option.isSome_iff_exists.1 hin
  have hzw := (hdoc.at? hz).isWeak
  obtain ⟨es', h1⟩ := fromDict_edit c hf ⟨ey, hy⟩ hx n ig "" doc l.value es z h (hdoc.solid hz) hz hzw hn hw
  obtain ⟨y0, _, _, h2, _⟩ := fromDict_attr c hf n ig "" doc l.value es z h (hdoc.solid hz) hz hzw hn
  refine ⟨⟨es', h1⟩, ?_, setAttr_attr y p l.value y0 h2⟩
  intro l' hl'
  obtain ⟨es2, h3⟩ := typedLoad_fromDict' hos hl'
  rw [h1] at h3
  simp only [Except.ok.injEq, Prod.mk.injEq] at h3
  exact h3.1.symm

/-- C81: if the schedules of the edited document are at most two fields deep (`C39_depth_false`), the load succeeds. -/
theorem C81_loads (w : World) (am file ig : Bool) (n : String) (fs : List Fld) (doc : Val) (hdoc : NoMark doc) (hid : IdsOK (.data n fs .none))
    (l : Loaded) (h : typedLoad (w.dcfg am file) w.ron .none ig (.data n fs .none) doc = .ok l)
    (p : List String) (t : PyTy) (hf : FieldAtU fs p t) (hn : NAME_KEY ∉ p) (hw : WEAK_REF ∉ p) (hin : (doc.at? p).isSome = true)
    (x y : Val) (ey : List Ev) (hx : x.isWeak = false) (hy : fromDict (w.dcfg am file) t false "" x = .ok (y, ey))
    (hsh : Shallow am (.data n fs .none) 2 (Val.edit x p doc)) :
    ∃ l', typedLoad (w.dcfg am file) w.ron .none ig (.data n fs .none) (Val.edit x p doc) = .ok l' ∧ l'.value = Val.setAttr y p l.value := by
  obtain ⟨⟨es, h1⟩, _⟩ := C81_edit _ ig n fs doc hdoc w.ron .none rfl l h p t hf hn hw hin x y ey hx hy
  exact (C39_registered_partial w am file ig n fs .none _ hid hsh).1 _ _ h1

/-- C81, for a versioned class and a document of the current version (as every checkpoint that was written by this version of the
program). -/
theorem C81_versioned (c : DCfg) (ig : Bool) (n : String) (fs : List Fld) (vi : VerInfo) (hk : ∀ e ∈ vi.rules, e.1 < vi.version)
    (d : List (String × Val)) (hv : dget d "version" = some (.int vi.version)) (hdoc : NoMark (.dict d)) (ron : RonParse) (os : Option (List String)) (hos : os.getD [] = [])
    (l : Loaded)
    (h : typedLoad c ron os ig (.data n fs (some vi)) (.dict d) = .ok l)
    (p : List String) (t : PyTy) (hf : FieldAtU fs p t) (hn : NAME_KEY ∉ p) (hw : WEAK_REF ∉ p) (hpv : p.head? ≠ some "version")
    (hin : ((Val.dict d).at? p).isSome = true)
    (x y : Val) (ey : List Ev) (hx : x.isWeak = false) (hy : fromDict c t false "" x = .ok (y, ey)) :
    (∃ es, fromDict c (.data n fs (some vi)) ig "" (Val.edit x p (.dict d)) = .ok (Val.setAttr y p l.value, es)) ∧
    (∀ l', typedLoad c ron os ig (.data n fs (some vi)) (Val.edit x p (.dict d)) = .ok l' → l'.value = Val.setAttr y p l.value) ∧
    (Val.setAttr y p l.value).attr p = some y ∧ ∀ q, Unrelated p q → (Val.setAttr y p l.value).attr q = l.value.attr q := by
  have hnil : (rangeI vi.version vi.version).flatMap vi.rulesAt = [] := by
    have : rangeI vi.version vi.version = [] := by
      rw [List.eq_nil_iff_forall_not_mem]; intro i hi; rw [mem_rangeI] at hi; omega
    rw [this]; rfl
  have hcur : ∀ d' : List (String × Val), dget d' "version" = some (.int vi.version) →
      fromDict c (.data n fs (some vi)) ig "" (.dict d') = fromDict c (.data n fs .none) ig "" (.dict (ddel d' "version")) := by
    intro d' hd'
    rw [fromDict_versioned _ hd' hk, hnil]; rfl
  have hdel : ∀ q : List String, q ≠ [] → q.head? ≠ some "version" → (Val.dict (ddel d "version")).at? q = (Val.dict d).at? q := by
    intro q hq hq'
    cases q with
    | nil => exact absurd rfl hq
    | cons j js =>
      simp only [at?_dict_cons]
      rw [dget_ddel_ne _ (by simpa using fun e => hq' (by simp [e]))]
  have hnm' : NoMark (.dict (ddel d "version")) := by
    intro q
    by_cases hq : (q ++ [WEAK_REF]).head? = some "version"
    · cases q with
      | nil => simp [WEAK_REF] at hq
      | cons j js =>
        simp at hq; subst hq
        simp only [List.cons_append, at?_dict_cons, dget_ddel_self]; rfl
    · rw [hdel _ (by simp) hq]; exact hdoc q
  have hp0 : p ≠ [] := by cases hf <;> simp
  obtain ⟨es, h⟩ := typedLoad_fromDict' hos h
  rw [hcur d hv] at h
  obtain ⟨z, hz⟩ := Option.isSome_iff_exists.1 hin
  have hz' : (Val.dict (ddel d "version")).at? p = some z := by rw [hdel p hp0 hpv, hz]
  have hzw := (hdoc.at? hz).isWeak
  obtain ⟨es', h1⟩ := fromDict_edit c hf ⟨ey, hy⟩ hx n ig "" _ l.value es z h (hnm'.solid hz') hz' hzw hn hw
  obtain ⟨y0, _, _, h2, _⟩ := fromDict_attr c hf n ig "" _ l.value es z h (hnm'.solid hz') hz' hzw hn
  have hed : ∃ d', Val.edit x p (.dict d) = .dict d' ∧ dget d' "version" = some (.int vi.version) ∧
      Val.edit x p (.dict (ddel d "version")) = .dict (ddel d' "version") := by
    cases p with
    | nil => exact absurd rfl hp0
    | cons k ks =>
      have hkv : k ≠ "version" := by simpa using hpv
      have hdk := dget_ddel_ne d (Ne.symm hkv)
      simp only [Val.edit, hdk]
      cases hg : dget d k with
      | none => exact ⟨d, rfl, hv, rfl⟩
      | some u =>
        refine ⟨_, rfl, by rw [dget_dset_ne _ _ hkv]; exact hv, ?_⟩
        simp only [Val.dict.injEq]
        have : ∀ (w : Val) (d : List (String × Val)), (dget d k).isSome = true → dset (ddel d "version") k w = ddel (dset d k w) "version" := by
          intro w d
          induction d with
          | nil => intro h; simp [dget] at h
          | cons e d ih =>
            obtain ⟨a, b⟩ := e
            intro h
            by_cases e1 : a = k
            · subst e1
              simp [ddel, dset, hkv]
            · have h' : (dget d k).isSome = true := by simpa [dget, e1] using h
              by_cases e2 : a = "version"
              · subst e2
                simp only [dset, e1, if_false]
                simp [ddel, ih h']
              · simp only [dset, e1, if_false]
                simp [ddel, e2, dset, e1, ih h']
        exact this _ d (by rw [hg]; rfl)
  obtain ⟨d', he, hv', he'⟩ := hed
  have h1' : fromDict c (.data n fs (some vi)) ig "" (Val.edit x p (.dict d)) = .ok (Val.setAttr y p l.value, es') := by
    rw [he, hcur d' hv', ← he']; exact h1
  refine ⟨⟨es', h1'⟩, ?_, setAttr_attr y p l.value y0 h2⟩
  intro l' hl'
  obtain ⟨es2, h3⟩ := typedLoad_fromDict' hos hl'
  rw [h1'] at h3
  simp only [Except.ok.injEq, Prod.mk.injEq] at h3
  exact h3.1.symm


/-- replacing the contents of a checkpoint does not change which one is found -/
theorem openMgr_edit {P : Type} {disk : Dir P} {n : String} {f f' : P} (hf : dget disk n = some (.full f)) :
    openMgr (dset disk n (.full f')) = openMgr disk := by
  have : ∀ (d : Dir P) (best : Option (Int × String)), dget d n = some (.full f) →
      findLatestLoop (dset d n (.full f')) best = findLatestLoop d best := by
    intro d
    induction d with
    | nil => intro _ h; simp at h
    | cons e d ih =>
      intro best h
      obtain ⟨j, y⟩ := e
      by_cases e : j = n
      · subst e
        simp only [dget, if_true, Option.some.injEq] at h
        subst h
        simp only [dset, if_true, findLatestLoop, Ent.isDir]
      · simp only [dget, e, if_false] at h
        simp only [dset, e, if_false, findLatestLoop, ih _ h]
  simp only [openMgr, findLatest, this disk .none hf]

/-- C81 for checkpoints: the config file of the latest checkpoint is edited, then a StateManager (without overrides) is started. Its
config is the one it would have had before, with that field assigned. -/
theorem C81_checkpoint (E : MgrEnv) (disk : Dir Files) (ck : String) (f : Files) (n : String) (fs : List Fld)
    (hE : E.ckpt = true) (hty : E.cfgTy = .data n fs .none) (hov : E.overrides = []) (ho : openMgr disk = some ck)
    (hck : dget disk ck = some (.full f)) (hdoc : NoMark f.config)
    (p : List String) (t : PyTy) (hf : FieldAtU fs p t) (hn : NAME_KEY ∉ p) (hw : WEAK_REF ∉ p) (hin : (f.config.at? p).isSome = true)
    (x y : Val) (ey : List Ev) (hx : x.isWeak = false) (hy : fromDict (E.w.dcfg true true) t false "" x = .ok (y, ey))
    (c c' : Val) (m m' : Mgr) (h : (Mgr.new E disk).readConfig E = .ok (c, m))
    (h' : (Mgr.new E (dset disk ck (.full { f with config := Val.edit x p f.config }))).readConfig E = .ok (c', m')) :
    c' = Val.setAttr y p c ∧ c'.attr p = some y ∧ ∀ q, Unrelated p q → c'.attr q = c.attr q := by
  have key : ∀ (disk : Dir Files) (g : Files) (c : Val), openMgr disk = some ck → dget disk ck = some (.full g) →
      (∃ m, (Mgr.new E disk).readConfig E = .ok (c, m)) →
      ∃ l, typedLoad (E.w.dcfg true true) E.w.ron (some []) E.ignoreExtra (.data n fs .none) g.config = .ok l ∧ c = l.value := by
    intro disk g c ho hg hm
    obtain ⟨doc, l, hfrom, hl, rfl⟩ := (C47_config E disk c).1 hm
    have hdoc : doc = some g.config := by
      cases hfrom with
      | ckpt _ h2 h3 => rw [ho] at h2; cases h2; rw [hg] at h3; cases h3; rfl
      | file h1 _ => rcases h1 with h1 | h1 <;> simp_all
      | dir h1 _ => rcases h1 with h1 | h1 <;> simp_all
      | absent h1 _ => rcases h1 with h1 | h1 <;> simp_all
    subst hdoc
    rw [hty, hov] at hl
    exact ⟨l, hl, rfl⟩
  obtain ⟨l, hl, rfl⟩ := key disk f c ho hck ⟨m, h⟩
  obtain ⟨l', hl', rfl⟩ := key _ _ c' (by rw [openMgr_edit hck]; exact ho) (dget_dset_self _ _ _) ⟨m', h'⟩
  obtain ⟨_, h2, h3, h4⟩ := C81_edit _ _ n fs f.config hdoc E.w.ron (some []) rfl l hl p t hf hn hw hin x y ey hx hy
  have := h2 l' hl'
  rw [this]
  exact ⟨rfl, h3, h4⟩

namespace ExEdit
def fs : List Fld := [.mk "steps" .int (some (.int 9)), .mk "net" (.optional (.data "Net" [.mk "lr" .float .none, .mk "act" .str (some (.str "relu"))] .none)) .none]
def doc : Val := .dict [(NAME_KEY, .str "Cfg"), ("steps", .int 3), ("net", .dict [(NAME_KEY, .str "Net"), ("lr", .flt (.fin 1)), ("act", .str "tanh")])]
end ExEdit

/-- the learning rate in a nested section is changed by hand; an int is written for the float -/
example : typedLoad (Ex.world.dcfg true true) Ex.ronIdent .none false (.data "Cfg" ExEdit.fs .none) ExEdit.doc =
      .ok ⟨.inst "Cfg" [("steps", .int 3), ("net", .inst "Net" [("lr", .flt (.fin 1)), ("act", .str "tanh")])], [], []⟩ ∧
    FieldAtU ExEdit.fs ["net", "lr"] .float ∧ (ExEdit.doc.at? ["net", "lr"]).isSome = true ∧
    Val.edit (.int 2) ["net", "lr"] ExEdit.doc =
      .dict [(NAME_KEY, .str "Cfg"), ("steps", .int 3), ("net", .dict [(NAME_KEY, .str "Net"), ("lr", .int 2), ("act", .str "tanh")])] ∧
    (match typedLoad (Ex.world.dcfg true true) Ex.ronIdent .none false (.data "Cfg" ExEdit.fs .none) (Val.edit (.int 2) ["net", "lr"] ExEdit.doc) with
      | .ok ⟨.inst _ [(_, .int 3), (_, .inst _ [(_, .flt (.fin q)), (_, .str "tanh")])], _, _⟩ => decide (q = 2)
      | _ => false) = true := by
  refine ⟨rfl, ?_, rfl, rfl, by decide +kernel⟩
  exact .there (f := .mk "net" (.optional (.data "Net" [.mk "lr" .float .none, .mk "act" .str (some (.str "relu"))] .none)) .none) rfl
    (.opt (.refl _ _ _)) (.here (f := .mk "lr" .float .none) rfl)

end HS
