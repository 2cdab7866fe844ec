import Verif.Props.Typed
/-!
# What a load returns can be stored again
-/
namespace HS

mutual
theorem plain_firm : ∀ v : Val, Plain v → Firm v
  | .none, _ | .bool _, _ | .int _, _ | .flt _, _ | .str _, _ => by simp [Firm]
  | .list xs, h => by simp only [Plain] at h; simp only [Firm]; exact plain_firmL xs h
  | .tup xs, h => by simp only [Plain] at h; simp only [Firm]; exact plain_firmL xs h
  | .dict d, h => by simp only [Plain] at h; simp only [Firm]; exact ⟨h.1, plain_firmD d h.2⟩
  | .ntup _ d, h => by simp only [Plain] at h; simp only [Firm]; exact plain_firmD d h
  | .inst _ _, h | .enm _ _ _, h | .ser _ _, h => by simp [Plain] at h
theorem plain_firmL : ∀ xs : List Val, PlainL xs → FirmL xs
  | [], _ => by simp [FirmL]
  | x :: xs, h => by
    simp only [PlainL] at h; simp only [FirmL]; exact ⟨plain_firm x h.1, plain_firmL xs h.2⟩
theorem plain_firmD : ∀ xs : List (String × Val), PlainD xs → FirmD xs
  | [], _ => by simp [FirmD]
  | x :: xs, h => by
    simp only [PlainD] at h; simp only [FirmD]; exact ⟨plain_firmP x h.1, plain_firmD xs h.2⟩
theorem plain_firmP : ∀ x : String × Val, PlainP x → FirmP x
  | (_, v), h => by simp only [PlainP] at h; simp only [FirmP]; exact plain_firm v h
end

mutual
/-- no default contains the mark of an object created by an upgrade rule -/
def FirmDecl : PyTy → Prop
  | .int | .float | .str | .bool | .noneT | .enum _ _ | .literal _ | .blob _ => True
  | .list a => FirmDecl a
  | .tuple as => FirmDecls as
  | .dict _ b => FirmDecl b
  | .union as => FirmDecls as
  | .data _ fs _ => FirmDeclf fs
termination_by structural x => x
def FirmDecls : List PyTy → Prop
  | [] => True
  | t :: ts => FirmDecl t ∧ FirmDecls ts
termination_by structural x => x
def FirmDeclf : List Fld → Prop
  | [] => True
  | f :: fs => FirmDecl1 f ∧ FirmDeclf fs
termination_by structural x => x
def FirmDecl1 : Fld → Prop
  | .mk _ t d => FirmDecl t ∧ ∀ v, d = some v → Firm v ∧ v.isWeak = false
termination_by structural x => x
end

theorem firmDeclf_iff (fs : List Fld) : FirmDeclf fs ↔ ∀ f ∈ fs, FirmDecl1 f := by
  induction fs with
  | nil => simp [FirmDeclf]
  | cons f fs ih => simp [FirmDeclf, ih]

mutual
theorem createDefault_firm : ∀ (t : PyTy) (v : Val), FirmDecl t → createDefault t = some v → Firm v ∧ v.isWeak = false
  | .data c fs ver, v, hd, h => by
    simp only [createDefault] at h
    simp only [FirmDecl] at hd
    split at h
    · rename_i kvs hk
      cases h
      have := createFields_firm fs kvs hd hk
      exact ⟨by simp only [Firm, firmD_iff]; exact ⟨fun kv h => (this kv h).2, fun kv h => (this kv h).1⟩, rfl⟩
    · cases h
  | .int, v, _, h | .float, v, _, h | .str, v, _, h | .bool, v, _, h | .noneT, v, _, h | .list _, v, _, h
  | .tuple _, v, _, h | .dict _ _, v, _, h | .union _, v, _, h | .enum _ _, v, _, h | .literal _, v, _, h
  | .blob _, v, _, h => by simp [createDefault] at h
theorem createFields_firm : ∀ (fs : List Fld) (kvs : List (String × Val)), FirmDeclf fs → createFields fs = some kvs →
    ∀ kv ∈ kvs, Firm kv.2 ∧ kv.2.isWeak = false
  | [], kvs, _, h => by simp [createFields] at h; subst h; simp
  | f :: fs, kvs, hd, h => by
    simp only [createFields] at h
    simp only [FirmDeclf] at hd
    split at h
    · rename_i kv kvs' h1 h2
      cases h
      intro kv' hm
      rcases List.mem_cons.1 hm with rfl | hm
      · exact createField_firm f kv' hd.1 h1
      · exact createFields_firm fs kvs' hd.2 h2 kv' hm
    · cases h
theorem createField_firm : ∀ (f : Fld) (kv : String × Val), FirmDecl1 f → createField f = some kv →
    Firm kv.2 ∧ kv.2.isWeak = false
  | .mk n t (some d), kv, hd, h => by
    simp only [createField, Option.some.injEq] at h
    simp only [FirmDecl1] at hd
    subst h
    exact hd.2 d rfl
  | .mk n t .none, kv, hd, h => by
    simp only [createField] at h
    simp only [FirmDecl1] at hd
    split at h
    · rename_i v hv
      cases h
      exact createDefault_firm t v hd.1 hv
    · cases h
end

theorem fillFields_firm {kw : List (String × Val)} : ∀ {fs : List Fld} {kvs : List (String × Val)},
    fillFields kw fs = .ok kvs → (∀ f ∈ fs, ∀ v, fieldValue kw f = .ok v → Firm v ∧ v.isWeak = false) →
    ∀ kv ∈ kvs, Firm kv.2 ∧ kv.2.isWeak = false := by
  intro fs
  induction fs with
  | nil => intro kvs h _; simp [fillFields] at h; subst h; simp
  | cons f fs ih =>
    intro kvs h hf
    simp only [fillFields, bind, Except.bind, pure, Except.pure] at h
    split at h
    · simp at h
    · rename_i v hv
      split at h
      · simp at h
      · rename_i rest hr
        simp only [Except.ok.injEq] at h
        subst h
        intro kv hm
        rcases List.mem_cons.1 hm with rfl | hm
        · exact hf f (by simp) v hv
        · exact ih hr (fun g hg => hf g (List.mem_cons_of_mem _ hg)) kv hm

/-- what loading raw data as `t` returns has no marks -/
def LoadsFirm (c : DCfg) (t : PyTy) : Prop :=
  ∀ ig path v v' es, Plain v → fromDict c t ig path v = .ok (v', es) → Firm v' ∧ (v.isWeak = false → v'.isWeak = false)

theorem mapItems_keys {f : String → Val → Res} : ∀ {d d' : List (String × Val)} {es : List Ev},
    mapItems f d = .ok (d', es) → dkeys d' = dkeys d := by
  intro d
  induction d with
  | nil => intro d' es h; simp [mapItems] at h; simp [h.1]
  | cons a d ih =>
    obtain ⟨k, x⟩ := a
    intro d' es h
    simp only [mapItems, bind, Except.bind, pure, Except.pure] at h
    split at h
    · simp at h
    · split at h
      · simp at h
      · rename_i z hz
        simp only [Except.ok.injEq, Prod.mk.injEq] at h
        obtain ⟨rfl, rfl⟩ := h
        have := ih hz
        simp only [dkeys, List.map_cons] at this ⊢
        rw [this]

mutual
theorem loadsFirm (c : DCfg) : ∀ t : PyTy, DeclOK t → FirmDecl t → LoadsFirm c t
  | .int, _, _ => by
    intro ig path v v' es hp h
    have := typed c .int trivial ig path v v' es hp h
    simp only [HasType] at this
    rcases this with ⟨_, rfl⟩ | ⟨_, rfl⟩ <;> exact ⟨trivial, fun _ => rfl⟩
  | .float, _, _ => by
    intro ig path v v' es hp h
    have := typed c .float trivial ig path v v' es hp h
    simp only [HasType] at this
    obtain ⟨_, rfl⟩ := this; exact ⟨trivial, fun _ => rfl⟩
  | .str, _, _ => by
    intro ig path v v' es hp h
    have := typed c .str trivial ig path v v' es hp h
    simp only [HasType] at this
    obtain ⟨_, rfl⟩ := this; exact ⟨trivial, fun _ => rfl⟩
  | .bool, _, _ => by
    intro ig path v v' es hp h
    have := typed c .bool trivial ig path v v' es hp h
    simp only [HasType] at this
    obtain ⟨_, rfl⟩ := this; exact ⟨trivial, fun _ => rfl⟩
  | .noneT, _, _ => by
    intro ig path v v' es hp h
    have := typed c .noneT trivial ig path v v' es hp h
    simp only [HasType] at this
    subst this; exact ⟨trivial, fun _ => rfl⟩
  | .list a, hd, hf => by
    have ih := loadsFirm c a (by simpa [DeclOK] using hd) (by simpa [FirmDecl] using hf)
    intro ig path v v' es hp h
    simp only [fromDict] at h
    split at h
    · rename_i xs
      simp only [bind, Except.bind, pure, Except.pure] at h
      split at h
      · simp at h
      · rename_i z hz
        simp only [Except.ok.injEq, Prod.mk.injEq] at h
        obtain ⟨rfl, rfl⟩ := h
        refine ⟨?_, fun _ => rfl⟩
        simp only [Firm, firmL_iff]
        simp only [Plain] at hp
        obtain ⟨hl, hi⟩ := mapIdx_ok hz
        intro y hy
        obtain ⟨i, hlt, rfl⟩ := List.mem_iff_getElem.1 hy
        have hlt' : i < xs.length := by omega
        obtain ⟨y', es', h1, h2⟩ := hi i xs[i] (List.getElem?_eq_getElem hlt')
        rw [List.getElem?_eq_getElem hlt] at h1
        cases h1
        exact (ih _ _ _ _ _ ((plainL_iff xs).1 hp _ (List.getElem_mem hlt')) h2).1
    · simp at h
  | .tuple as, hd, hf => by
    have ih := loadsFirms c as (by simpa [DeclOK] using hd) (by simpa [FirmDecl] using hf)
    intro ig path v v' es hp h
    obtain ⟨xs, ys, h1, rfl, h3, h4, h5⟩ := C10_tuple_partial c ig path as v v' es h
    have hpx : ∀ x ∈ xs, Plain x := by
      cases v with
      | tup l => simp only [tupleItems, Option.some.injEq] at h1; subst h1; simp only [Plain] at hp; exact (plainL_iff _).1 hp
      | ntup n kvs =>
        simp only [tupleItems, Option.some.injEq] at h1; subst h1; simp only [Plain] at hp
        intro x hx
        obtain ⟨kv, hkv, rfl⟩ := List.mem_map.1 hx
        exact (plainD_iff _).1 hp kv hkv
      | _ => simp [tupleItems] at h1
    refine ⟨?_, fun _ => rfl⟩
    simp only [Firm, firmL_iff]
    intro y hy
    obtain ⟨i, hlt, rfl⟩ := List.mem_iff_getElem.1 hy
    have hlt' : i < xs.length := by omega
    have hlt'' : i < as.length := by omega
    obtain ⟨y', es', h6, h7⟩ := h5 i xs[i] as[i] (List.getElem?_eq_getElem hlt') (List.getElem?_eq_getElem hlt'')
    rw [List.getElem?_eq_getElem hlt] at h6
    cases h6
    exact (ih as[i] (List.getElem_mem hlt'') _ _ _ _ _ (hpx _ (List.getElem_mem hlt')) h7).1
  | .dict k b, hd, hf => by
    have ih := loadsFirm c b (by simpa [DeclOK] using hd) (by simpa [FirmDecl] using hf)
    intro ig path v v' es hp h
    simp only [fromDict] at h
    split at h
    · rename_i xs
      simp only [bind, Except.bind, pure, Except.pure] at h
      split at h
      · simp at h
      · rename_i z hz
        simp only [Except.ok.injEq, Prod.mk.injEq] at h
        obtain ⟨rfl, rfl⟩ := h
        simp only [Plain] at hp
        refine ⟨?_, ?_⟩
        · simp only [Firm, firmD_iff]
          refine ⟨by rw [mapItems_keys hz]; exact hp.1, ?_⟩
          intro kv hkv
          obtain ⟨x, es', h1, h2⟩ := mapItems_ok hz kv hkv
          exact (ih _ _ _ _ _ ((plainD_iff _).1 hp.2 _ h1) h2).1
        · simp only [Val.isWeak, dhas_eq_keys, mapItems_keys hz]; exact id
    · simp at h
  | .union as, hd, hf => by
    have ih := loadsFirms c as (by simpa [DeclOK] using hd) (by simpa [FirmDecl] using hf)
    intro ig path v v' es hp h
    simp only [fromDict] at h
    split at h
    · rename_i hopt
      obtain ⟨t, rfl⟩ := isOptionalArgs_iff.1 hopt
      split at h
      · simp at h
        rw [← h.1]; exact ⟨trivial, fun _ => rfl⟩
      · simp only [fdHead] at h
        exact ih t (by simp) _ _ _ _ _ hp h
    · simp only [bind, Except.bind, pure, Except.pure] at h
      split at h
      · simp at h
      · rename_i r hr
        split at h
        · simp at h; subst h
          have := primBranches_typed (as := [.int, .float, .str]) (by simp) (by simp) (by simp) hr
          simp only [HasTypeAny, HasType, or_false] at this
          rcases this with (⟨_, h⟩ | ⟨_, h⟩) | ⟨_, h⟩ | ⟨_, h⟩ <;> (rw [h]; exact ⟨trivial, fun _ => rfl⟩)
        · split at h
          · rename_i d
            split at h
            · rename_i r' hr'
              obtain ⟨n, hn, hnamed⟩ := Option.bind_eq_some_iff.1 hr'
              obtain ⟨t, ht, he⟩ := fdNamed_some c n ig path (.dict d) as r' hnamed
              rw [he] at h
              exact ih t ht _ _ _ _ _ hp h
            · split at h <;> simp [throw, throwThe, MonadExceptOf.throw] at h
          · split at h <;> simp [throw, throwThe, MonadExceptOf.throw] at h
          · simp [throw, throwThe, MonadExceptOf.throw] at h
  | .data n fs ver, hd, hf => by
    simp only [DeclOK] at hd
    simp only [FirmDecl] at hf
    have ih := loadsFirmf c fs hd.2.2 hf
    have hdecl := (firmDeclf_iff fs).1 hf
    intro ig path v v' es hp h
    have hv : ∃ v1, Plain v1 ∧ fromDict c (.data n fs .none) ig path v1 = .ok (v', es) := by
      cases ver with
      | none => exact ⟨v, hp, h⟩
      | some vi =>
        simp only [fromDict, bind, Except.bind, pure, Except.pure] at h
        split at h
        · simp at h
        · rename_i v1 hv1
          exact ⟨v1, plain_versionHook (hd.2.1 vi rfl) hp hv1, by
            simpa only [fromDict, bind, Except.bind, pure, Except.pure] using h⟩
    obtain ⟨v1, hp1, h1⟩ := hv
    simp only [fromDict, bind, Except.bind, pure, Except.pure] at h1
    have key : ∀ d, PlainD d → ∀ kw es0 kvs,
        itemsLoop (fun k x => fdField c fs k (fieldPath path k) x) ig d = .ok (kw, es0) →
        fillFields kw fs = .ok kvs → ∀ kv ∈ kvs, Firm kv.2 ∧ kv.2.isWeak = false := by
      intro d hpd kw es0 kvs hi hfl
      apply fillFields_firm hfl
      intro f hfm v hv
      have hd1 := hdecl _ hfm
      simp only [fieldValue] at hv
      split at hv
      · rename_i y hy
        simp only [Except.ok.injEq] at hv
        subst hv
        obtain ⟨_, x, es', hx, hw, hfx⟩ := itemsLoop_keys hi (dget_mem hy)
        rw [fdField_mem c f.name _ _ fs f hd.1 hfm rfl] at hfx
        simp only [Option.some.injEq] at hfx
        have := ih f hfm _ _ _ _ _ ((plainD_iff d).1 hpd _ hx) hfx
        exact ⟨this.1, this.2 hw⟩
      · split at hv
        · rename_i dv hdv
          simp only [Except.ok.injEq] at hv
          subst hv
          obtain ⟨n', t', d'⟩ := f
          simp only [FirmDecl1] at hd1
          exact hd1.2 dv hdv
        · split at hv
          · rename_i w hw
            simp only [Except.ok.injEq] at hv
            subst hv
            obtain ⟨n', t', d'⟩ := f
            simp only [FirmDecl1] at hd1
            exact createDefault_firm t' w hd1.1 hw
          · simp at hv
    split at h1
    · simp [Plain] at hp1
    · rename_i v1 hni
      split at h1
      · simp at h1
      · rename_i d hdd
        have hpd : PlainD d := plain_asRawDict hp1 hdd
        split at h1
        · simp at h1
        · rename_i z hz
          split at h1
          · simp at h1
          · rename_i kvs hk
            simp only [Except.ok.injEq, Prod.mk.injEq] at h1
            rw [← h1.1]
            have := key d hpd z.1 z.2 kvs hz hk
            refine ⟨?_, fun _ => rfl⟩
            simp only [Firm, firmD_iff]
            exact ⟨fun kv h => (this kv h).2, fun kv h => (this kv h).1⟩
  | .enum cls ms, _, _ => by
    intro ig path v v' es hp h
    have := typed c (.enum cls ms) trivial ig path v v' es hp h
    simp only [HasType] at this
    obtain ⟨_, _, _, rfl⟩ := this; exact ⟨trivial, fun _ => rfl⟩
  | .literal vals, _, _ => by
    intro ig path v v' es hp h
    simp only [fromDict] at h
    split at h
    · split at h
      · split at h
        · simp only [Except.ok.injEq, Prod.mk.injEq] at h
          rw [← h.1]; exact ⟨trivial, fun _ => rfl⟩
        · simp at h
      · split at h
        · simp only [Except.ok.injEq, Prod.mk.injEq] at h
          rw [← h.1]; exact ⟨plain_firm v hp, id⟩
        · simp at h
    · simp at h
  | .blob cls, _, _ => by
    intro ig path v v' es hp h
    have := typed c (.blob cls) trivial ig path v v' es hp h
    simp only [HasType] at this
    rcases this with ⟨_, rfl⟩ | ⟨_, rfl⟩ <;> exact ⟨trivial, fun _ => rfl⟩
theorem loadsFirms (c : DCfg) : ∀ ts : List PyTy, DeclOKs ts → FirmDecls ts → ∀ t ∈ ts, LoadsFirm c t
  | [], _, _ => by simp
  | t :: ts, hd, hf => by
    simp only [DeclOKs] at hd
    simp only [FirmDecls] at hf
    have h1 := loadsFirm c t hd.1 hf.1
    have h2 := loadsFirms c ts hd.2 hf.2
    intro t' h
    rcases List.mem_cons.1 h with rfl | h
    · exact h1
    · exact h2 t' h
theorem loadsFirmf (c : DCfg) : ∀ fs : List Fld, DeclOKf fs → FirmDeclf fs → ∀ f ∈ fs, LoadsFirm c f.ty
  | [], _, _ => by simp
  | .mk n t d :: fs, hd, hf => by
    simp only [DeclOKf, DeclOK1] at hd
    simp only [FirmDeclf, FirmDecl1] at hf
    have h1 := loadsFirm c t hd.1.1 hf.1.1
    have h2 := loadsFirmf c fs hd.2 hf.2
    intro f h
    rcases List.mem_cons.1 h with rfl | h
    · exact h1
    · exact h2 f h
end

/-- everything a load returns can be dumped and loaded again -/
theorem load_storable {c : DCfg} {t : PyTy} (hd : DeclOK t) (hf : FirmDecl t) {ig : Bool} {path : String} {v v' : Val}
    {es : List Ev} (hp : Plain v) (hw : v.isWeak = false ∨ isData t = true) (h : fromDict c t ig path v = .ok (v', es)) :
    Storable t v' := by
  have h1 := typed c t hd ig path v v' es hp h
  have h2 := loadsFirm c t hd hf ig path v v' es hp h
  refine ⟨h1, h2.1, ?_⟩
  rcases hw with hw | hw
  · exact h2.2 hw
  · cases t <;> simp [isData] at hw
    simp only [HasType] at h1
    obtain ⟨_, rfl, _⟩ := h1
    rfl

theorem typedLoad_storable {w : World} {am file ig : Bool} {ron : RonParse} {os : Option (List String)} {ty : PyTy} {doc : Val}
    (hd : DeclOK ty) (hf : FirmDecl ty) (hp : Plain doc) (hron : os ≠ none → ∀ s v, ron s = .ok v → Plain v)
    (hdc : isData ty = true) {r : Loaded} (h : typedLoad (w.dcfg am file) ron os ig ty doc = .ok r) : Storable ty r.value := by
  obtain ⟨doc', es, h1, h2⟩ := typedLoad_plain hron hp h
  exact load_storable hd hf h1 (.inr hdc) h2

end HS
