import Verif.Proofs.FromDict
import Verif.Props.Leaf
import Verif.Spec.Example
/-!
# C04: what a load returns is well typed
-/
namespace HS

mutual
/-- Raw data, as a parser produces it: no dataclass instance, enum member or Serializable object in it, and the keys of each dict
are distinct, as in every Python dict. -/
def Plain : Val → Prop
  | .none | .bool _ | .int _ | .flt _ | .str _ => True
  | .list xs => PlainL xs
  | .tup xs => PlainL xs
  | .dict d => (dkeys d).Nodup ∧ PlainD d
  | .ntup _ d => PlainD d
  | .inst _ _ | .enm _ _ _ | .ser _ _ => False
termination_by structural x => x
def PlainL : List Val → Prop
  | [] => True
  | x :: xs => Plain x ∧ PlainL xs
termination_by structural x => x
def PlainD : List (String × Val) → Prop
  | [] => True
  | x :: xs => PlainP x ∧ PlainD xs
termination_by structural x => x
def PlainP : String × Val → Prop
  | (_, v) => Plain v
termination_by structural x => x
end

theorem plainL_iff (xs : List Val) : PlainL xs ↔ ∀ x ∈ xs, Plain x := by
  induction xs with
  | nil => simp [PlainL]
  | cons x xs ih => simp [PlainL, ih]

theorem plainD_iff (d : List (String × Val)) : PlainD d ↔ ∀ kv ∈ d, Plain kv.2 := by
  induction d with
  | nil => simp [PlainD]
  | cons x xs ih => obtain ⟨k, v⟩ := x; simp [PlainD, PlainP, ih]

theorem mem_dset {α : Type} {d : List (String × α)} {k : String} {v : α} {kv : String × α} (h : kv ∈ dset d k v) :
    kv = (k, v) ∨ kv ∈ d := by
  induction d with
  | nil => simp [dset] at h; exact .inl h
  | cons a d ih =>
    obtain ⟨k', v'⟩ := a
    simp only [dset] at h
    split at h
    · rcases List.mem_cons.1 h with h | h
      · exact .inl h
      · exact .inr (List.mem_cons_of_mem _ h)
    · rcases List.mem_cons.1 h with h | h
      · exact .inr (by simp [h])
      · rcases ih h with h | h
        · exact .inl h
        · exact .inr (List.mem_cons_of_mem _ h)

theorem mem_ddel {α : Type} {d : List (String × α)} {k : String} {kv : String × α} (h : kv ∈ ddel d k) : kv ∈ d := by
  induction d with
  | nil => simp [ddel] at h
  | cons a d ih =>
    obtain ⟨k', v'⟩ := a
    simp only [ddel] at h
    split at h
    · exact List.mem_cons_of_mem _ (ih h)
    · rcases List.mem_cons.1 h with h | h
      · simp [h]
      · exact List.mem_cons_of_mem _ (ih h)

theorem plainD_dset {d : List (String × Val)} {k : String} {v : Val} (hd : PlainD d) (hv : Plain v) : PlainD (dset d k v) := by
  rw [plainD_iff] at *
  intro kv h
  rcases mem_dset h with rfl | h
  · exact hv
  · exact hd kv h

theorem plainD_ddel {d : List (String × Val)} {k : String} (hd : PlainD d) : PlainD (ddel d k) := by
  rw [plainD_iff] at *
  intro kv h
  exact hd kv (mem_ddel h)

theorem plain_dget {d : List (String × Val)} {k : String} {v : Val} (hd : PlainD d) (h : dget d k = some v) : Plain v :=
  (plainD_iff d).1 hd _ (dget_mem h)

theorem plain_getItem {sd v : Val} {k : String} (hs : Plain sd) (h : pyGetItem k sd = .ok v) : Plain v := by
  cases sd <;> simp [pyGetItem] at h
  split at h <;> simp_all [Plain]
  rename_i hg
  exact plain_dget hs.2 hg

theorem plain_setItem {sd v sd' : Val} {k : String} (hs : Plain sd) (hv : Plain v) (h : pySetItem k v sd = .ok sd') :
    Plain sd' := by
  cases sd <;> simp [pySetItem] at h
  subst h
  simp only [Plain] at *
  exact ⟨nodup_dset _ _ _ hs.1, plainD_dset hs.2 hv⟩

theorem plain_removePath : ∀ (p : List String) {sd sd' : Val} {r : Option Val}, Plain sd → removePath sd p = .ok (sd', r) →
    Plain sd' ∧ ∀ v, r = some v → Plain v := by
  intro p
  induction p with
  | nil => intro sd sd' r _ h; simp [removePath] at h
  | cons k ks ih =>
    intro sd sd' r hs h
    cases ks with
    | nil =>
      simp only [removePath] at h
      split at h
      · split at h
        · rename_i hg
          simp only [Except.ok.injEq, Prod.mk.injEq] at h
          obtain ⟨rfl, rfl⟩ := h
          simp only [Plain] at hs ⊢
          exact ⟨⟨nodup_ddel _ _ hs.1, plainD_ddel hs.2⟩, by intro v hv; cases hv; exact plain_dget hs.2 hg⟩
        · simp only [Except.ok.injEq, Prod.mk.injEq] at h
          obtain ⟨rfl, rfl⟩ := h
          exact ⟨hs, by simp⟩
      · simp only [Except.ok.injEq, Prod.mk.injEq] at h
        obtain ⟨rfl, rfl⟩ := h
        exact ⟨hs, by simp⟩
    | cons k' ks =>
      simp only [removePath, bind, Except.bind, pure, Except.pure] at h
      split at h
      · simp at h
      · split at h
        · simp only [Except.ok.injEq, Prod.mk.injEq] at h
          obtain ⟨rfl, rfl⟩ := h
          exact ⟨hs, by simp⟩
        · split at h
          · simp at h
          · rename_i child hc
            have hpc := plain_getItem hs hc
            split at h
            · simp only [Except.ok.injEq, Prod.mk.injEq] at h
              obtain ⟨rfl, rfl⟩ := h
              exact ⟨hs, by simp⟩
            · split at h
              · simp at h
              · rename_i y hy
                obtain ⟨h1, h2⟩ := ih hpc hy
                split at h
                · simp at h
                · rename_i z hz
                  simp only [Except.ok.injEq, Prod.mk.injEq] at h
                  obtain ⟨rfl, rfl⟩ := h
                  exact ⟨plain_setItem hs h1 hz, h2⟩

theorem plain_insertPath {value : Val} (hv : Plain value) (cn : Bool) : ∀ (p : List String) {sd sd' : Val}, Plain sd →
    insertPath value cn sd p = .ok sd' → Plain sd' := by
  intro p
  induction p with
  | nil => intro sd sd' _ h; simp [insertPath] at h
  | cons k ks ih =>
    intro sd sd' hs h
    cases ks with
    | nil => simp only [insertPath] at h; exact plain_setItem hs hv h
    | cons k' ks =>
      cases hsd : sd.isDict with
      | false =>
        cases sd <;> simp [Val.isDict] at hsd <;>
          simp [insertPath, pyGetItem, bind, Except.bind] at h
      | true =>
        obtain ⟨d, rfl⟩ := (isDict_iff sd).1 hsd
        simp only [Plain] at hs
        have hs' : (dkeys (if dhas d k then d else dset d k (freshObj cn))).Nodup ∧
            PlainD (if dhas d k then d else dset d k (freshObj cn)) := by
          split
          · exact hs
          · refine ⟨nodup_dset _ _ _ hs.1, plainD_dset hs.2 ?_⟩
            simp only [freshObj]; split <;> simp [Plain, PlainD, PlainP, dkeys]
        have h' : (do
            let child ← pyGetItem k (.dict (if dhas d k then d else dset d k (freshObj cn)))
            match child with
            | .dict dc =>
              let dc := if cn && dhas dc WEAK_REF then ddel dc WEAK_REF else dc
              let child' ← insertPath value cn (.dict dc) (k' :: ks)
              pySetItem k child' (.dict (if dhas d k then d else dset d k (freshObj cn)))
            | _ => return (.dict (if dhas d k then d else dset d k (freshObj cn)))) = Except.ok sd' := by
          rw [← h, insertPath]
          split <;> rfl
        generalize (if dhas d k then d else dset d k (freshObj cn)) = d1 at hs' h'
        simp only [bind, Except.bind, pure, Except.pure] at h'
        have hs1 : Plain (.dict d1) := by simpa only [Plain] using hs'
        split at h'
        · simp at h'
        · rename_i child hc
          have hpc := plain_getItem hs1 hc
          split at h'
          · rename_i dc
            split at h'
            · simp at h'
            · rename_i y hy
              have hdc : Plain (.dict (if cn && dhas dc WEAK_REF then ddel dc WEAK_REF else dc)) := by
                simp only [Plain] at hpc ⊢
                split
                · exact ⟨nodup_ddel _ _ hpc.1, plainD_ddel hpc.2⟩
                · exact hpc
              exact plain_setItem hs1 (ih hdc hy) h'
          · simp only [Except.ok.injEq] at h'
            subst h'; exact hs1

/-- the values a rule brings in are raw data -/
def RulePlain : Rule → Prop
  | .mapValue _ f _ => ∀ v w, Plain v → f v = .ok w → Plain w
  | .changeDefault _ old _ => Plain old
  | .addDefault _ d => Plain d
  | _ => True

theorem plain_apply {r : Rule} (hr : RulePlain r) {sd sd' : Val} (hs : Plain sd) (h : r.apply sd = .ok sd') : Plain sd' := by
  cases r with
  | rename old new =>
    simp only [Rule.apply, bind, Except.bind, pure, Except.pure] at h
    split at h
    · simp at h
    · rename_i y hy
      obtain ⟨h1, h2⟩ := plain_removePath old hs hy
      split at h
      · rename_i v hv; exact plain_insertPath (h2 v hv) true new h1 h
      · simp at h; subst h; exact h1
  | delete p =>
    simp only [Rule.apply, bind, Except.bind, pure, Except.pure] at h
    split at h
    · simp at h
    · rename_i y hy
      simp at h; subst h; exact (plain_removePath p hs hy).1
  | mapValue p f _ =>
    simp only [Rule.apply, bind, Except.bind, pure, Except.pure] at h
    split at h
    · simp at h
    · rename_i y hy
      obtain ⟨h1, h2⟩ := plain_removePath p hs hy
      split at h
      · rename_i v hv
        split at h
        · simp at h
        · rename_i w hw
          exact plain_insertPath (hr v w (h2 v hv) hw) true p h1 h
      · simp at h; subst h; exact h1
  | changeDefault p old _ =>
    simp only [Rule.apply, bind, Except.bind, pure, Except.pure] at h
    split at h
    · simp at h
    · rename_i y hy
      obtain ⟨h1, h2⟩ := plain_removePath p hs hy
      split at h
      · rename_i v hv
        split at h
        · exact plain_insertPath hr false p h1 h
        · exact plain_insertPath (h2 v hv) true p h1 h
      · exact plain_insertPath hr false p h1 h
  | addDefault p d =>
    simp only [Rule.apply, bind, Except.bind, pure, Except.pure] at h
    split at h
    · simp at h
    · rename_i y hy
      obtain ⟨h1, h2⟩ := plain_removePath p hs hy
      split at h
      · rename_i v hv; exact plain_insertPath (h2 v hv) false p h1 h
      · exact plain_insertPath hr false p h1 h
  | checkValue p allowed =>
    simp only [Rule.apply, bind, Except.bind, pure, Except.pure] at h
    split at h
    · simp at h
    · split at h
      · split at h
        · simp at h
        · split at h
          · simp [throw, throwThe, MonadExceptOf.throw] at h
          · simp at h; subst h; exact hs
      · simp at h; subst h; exact hs
  | rejectValues p dis =>
    simp only [Rule.apply, bind, Except.bind, pure, Except.pure] at h
    split at h
    · simp at h
    · rename_i y hy
      obtain ⟨h1, h2⟩ := plain_removePath p hs hy
      split at h
      · split at h
        · simp at h
        · split at h
          · simp [throw, throwThe, MonadExceptOf.throw] at h
          · simp at h; subst h; exact h1
      · simp at h; subst h; exact h1

theorem plain_applyRules : ∀ {rs : List Rule}, (∀ r ∈ rs, RulePlain r) → ∀ {sd sd' : Val}, Plain sd →
    applyRules rs sd = .ok sd' → Plain sd' := by
  intro rs
  induction rs with
  | nil => intro _ sd sd' hs h; simp [applyRules] at h; subst h; exact hs
  | cons r rs ih =>
    intro hr sd sd' hs h
    simp only [applyRules, bind, Except.bind] at h
    split at h
    · simp at h
    · rename_i y hy
      exact ih (fun r' h' => hr r' (List.mem_cons_of_mem _ h')) (plain_apply (hr r (by simp)) hs hy) h

def VerPlain (vi : VerInfo) : Prop := ∀ e ∈ vi.rules, ∀ r ∈ e.2, RulePlain r

theorem plain_upgradeLoop {vi : VerInfo} (hv : VerPlain vi) : ∀ {is : List Int} {sd sd' : Val}, Plain sd →
    upgradeLoop vi is sd = .ok sd' → Plain sd' := by
  intro is
  induction is with
  | nil => intro sd sd' hs h; simp [upgradeLoop] at h; subst h; exact hs
  | cons i is ih =>
    intro sd sd' hs h
    simp only [upgradeLoop, bind, Except.bind] at h
    split at h
    · simp at h
    · rename_i y hy
      refine ih (plain_applyRules ?_ hs hy) h
      intro r hr
      simp only [VerInfo.rulesAt] at hr
      split at hr
      · rename_i e he
        exact hv e (List.mem_of_find?_eq_some he) r hr
      · simp at hr

theorem plain_upgradeAny {vi : VerInfo} (hv : VerPlain vi) {sd sd' ver : Val} (hs : Plain sd)
    (h : vi.upgradeAny sd ver = .ok sd') : Plain sd' := by
  simp only [VerInfo.upgradeAny, bind, Except.bind, VerInfo.applyUpgrades] at h
  by_cases hall : (vi.rules.all fun e => decide (e.1 < vi.version)) = true
  · simp only [hall, if_true] at h
    split at h
    · simp at h
    · exact plain_upgradeLoop hv hs h
  · simp [hall] at h

theorem plain_versionHook {am : Bool} {vi : VerInfo} (hv : VerPlain vi) {sd sd' : Val} (hs : Plain sd)
    (h : versionHook am vi sd = .ok sd') : Plain sd' := by
  have hn : ∀ {x : Val}, (if am then Except.ok x else Except.error Err.valueError) = .ok sd' → x = sd' := by
    intro x h; cases am <;> simp at h; exact h
  cases sd with
  | dict d =>
    simp only [Plain] at hs
    have hd : Plain (.dict (ddel d "version")) := by simp only [Plain]; exact ⟨nodup_ddel _ _ hs.1, plainD_ddel hs.2⟩
    simp only [versionHook] at h
    split at h
    · rw [← hn h]; exact hd
    · rw [← hn h]; exact hd
    · exact plain_upgradeAny hv hd h
  | ntup n kvs =>
    simp only [versionHook, bind, Except.bind, pure, Except.pure] at h
    split at h
    · rw [← hn h]; exact hs
    · rw [← hn h]; exact hs
    · split at h
      · simp at h
      · simp at h; subst h; exact hs
  | _ => simp only [versionHook] at h; rw [← hn h]; exact hs

mutual
/-- the declarations are sound: distinct field names, defaults of the declared type (weakly), upgrade rules that bring in raw
data only -/
def DeclOK : PyTy → Prop
  | .int | .float | .str | .bool | .noneT | .enum _ _ | .literal _ | .blob _ => True
  | .list a => DeclOK a
  | .tuple as => DeclOKs as
  | .dict _ b => DeclOK b
  | .union as => DeclOKs as
  | .data _ fs ver => (fs.map Fld.name).Nodup ∧ (∀ vi, ver = some vi → VerPlain vi) ∧ DeclOKf fs
termination_by structural x => x
def DeclOKs : List PyTy → Prop
  | [] => True
  | t :: ts => DeclOK t ∧ DeclOKs ts
termination_by structural x => x
def DeclOKf : List Fld → Prop
  | [] => True
  | f :: fs => DeclOK1 f ∧ DeclOKf fs
termination_by structural x => x
def DeclOK1 : Fld → Prop
  | .mk _ t d => DeclOK t ∧ ∀ v, d = some v → HasType true t v
termination_by structural x => x
end

theorem declOKf_iff (fs : List Fld) : DeclOKf fs ↔ ∀ f ∈ fs, DeclOK1 f := by
  induction fs with
  | nil => simp [DeclOKf]
  | cons f fs ih => simp [DeclOKf, ih]

mutual
theorem createDefault_typed : ∀ (t : PyTy) (v : Val), DeclOK t → createDefault t = some v → HasType true t v
  | .data c fs ver, v, hd, h => by
    simp only [createDefault] at h
    simp only [DeclOK] at hd
    split at h
    · rename_i kvs hk
      cases h
      simp only [HasType]
      exact ⟨kvs, rfl, createFields_typed fs kvs hd.2.2 hk⟩
    · cases h
  | .int, v, _, h | .float, v, _, h | .str, v, _, h | .bool, v, _, h | .noneT, v, _, h | .list _, v, _, h
  | .tuple _, v, _, h | .dict _ _, v, _, h | .union _, v, _, h | .enum _ _, v, _, h | .literal _, v, _, h
  | .blob _, v, _, h => by simp [createDefault] at h
theorem createFields_typed : ∀ (fs : List Fld) (kvs : List (String × Val)), DeclOKf fs → createFields fs = some kvs →
    HasFields true fs kvs
  | [], kvs, _, h => by simp [createFields] at h; subst h; simp [HasFields]
  | f :: fs, kvs, hd, h => by
    simp only [createFields] at h
    simp only [DeclOKf] at hd
    split at h
    · rename_i kv kvs' h1 h2
      cases h
      simp only [HasFields]
      exact ⟨kv, kvs', rfl, createField_typed f kv hd.1 h1, createFields_typed fs kvs' hd.2 h2⟩
    · cases h
theorem createField_typed : ∀ (f : Fld) (kv : String × Val), DeclOK1 f → createField f = some kv → HasField true f kv
  | .mk n t (some d), kv, hd, h => by
    simp only [createField, Option.some.injEq] at h
    simp only [DeclOK1] at hd
    subst h
    simp only [HasField]
    exact ⟨trivial, hd.2 d rfl⟩
  | .mk n t .none, kv, hd, h => by
    simp only [createField] at h
    simp only [DeclOK1] at hd
    split at h
    · rename_i v hv
      cases h
      simp only [HasField]
      exact ⟨trivial, createDefault_typed t v hd.1 hv⟩
    · cases h
end

theorem fillFields_typed {kw : List (String × Val)} : ∀ {fs : List Fld} {kvs : List (String × Val)},
    fillFields kw fs = .ok kvs → (∀ f ∈ fs, ∀ v, fieldValue kw f = .ok v → HasType true f.ty v) → HasFields true fs kvs := by
  intro fs
  induction fs with
  | nil => intro kvs h _; simp [fillFields] at h; subst h; simp [HasFields]
  | cons f fs ih =>
    intro kvs h hf
    simp only [fillFields, bind, Except.bind, pure, Except.pure] at h
    split at h
    · simp at h
    · rename_i v hv
      split at h
      · simp at h
      · rename_i rest hr
        simp only [Except.ok.injEq] at h
        subst h
        obtain ⟨n, t, d⟩ := f
        simp only [HasFields, HasField]
        exact ⟨_, _, rfl, ⟨rfl, hf _ (by simp) v hv⟩, ih hr (fun g hg => hf g (List.mem_cons_of_mem _ hg))⟩

/-- loading raw data as `t` gives a (weakly) well typed value -/
def Typed (c : DCfg) (t : PyTy) : Prop :=
  ∀ ig path v v' es, Plain v → fromDict c t ig path v = .ok (v', es) → HasType true t v'

theorem mapIdx_typed {c : DCfg} {t : PyTy} (ht : Typed c t) {f : Nat → Val → Res}
    (hf : ∀ i x, ∃ p, f i x = fromDict c t false p x) {xs ys : List Val} {j : Nat} {es : List Ev} (hp : PlainL xs)
    (h : mapIdx f j xs = .ok (ys, es)) : ∀ y ∈ ys, HasType true t y := by
  obtain ⟨hl, hi⟩ := mapIdx_ok h
  intro y hy
  obtain ⟨i, hlt, rfl⟩ := List.mem_iff_getElem.1 hy
  have hlt' : i < xs.length := by omega
  obtain ⟨y', es', h1, h2⟩ := hi i xs[i] (List.getElem?_eq_getElem hlt')
  rw [List.getElem?_eq_getElem hlt] at h1
  cases h1
  obtain ⟨p, hp'⟩ := hf (j + i) xs[i]
  rw [hp'] at h2
  exact ht _ _ _ _ _ ((plainL_iff xs).1 hp _ (List.getElem_mem hlt')) h2

theorem mapItems_ok {f : String → Val → Res} : ∀ {d : List (String × Val)} {d' : List (String × Val)} {es : List Ev},
    mapItems f d = .ok (d', es) → ∀ kv ∈ d', ∃ x es', (kv.1, x) ∈ d ∧ f kv.1 x = .ok (kv.2, es') := by
  intro d
  induction d with
  | nil => intro d' es h kv hkv; simp [mapItems] at h; simp [h.1] at hkv
  | cons a d ih =>
    obtain ⟨k, x⟩ := a
    intro d' es h kv hkv
    simp only [mapItems, bind, Except.bind, pure, Except.pure] at h
    split at h
    · simp at h
    · rename_i y hy
      split at h
      · simp at h
      · rename_i z hz
        simp only [Except.ok.injEq, Prod.mk.injEq] at h
        obtain ⟨rfl, rfl⟩ := h
        rcases List.mem_cons.1 hkv with rfl | hkv
        · exact ⟨x, y.2, by simp, hy⟩
        · obtain ⟨x', es', h1, h2⟩ := ih hz kv hkv
          exact ⟨x', es', List.mem_cons_of_mem _ h1, h2⟩

theorem hasTypes_weak_of {as : List PyTy} : ∀ {ys : List Val}, ys.length ≤ as.length →
    (∀ (i : Nat) (y : Val) (t : PyTy), ys[i]? = some y → as[i]? = some t → HasType true t y) → HasTypes true as ys := by
  induction as with
  | nil => intro ys hl _; cases ys <;> simp_all [HasTypes]
  | cons t ts ih =>
    intro ys hl h
    cases ys with
    | nil => simp [HasTypes]
    | cons y ys =>
      simp only [HasTypes]
      refine .inr ⟨y, ys, rfl, h 0 y t (by simp) (by simp), ih (by simpa using hl) ?_⟩
      intro i y' t' h1 h2
      exact h (i + 1) y' t' (by simpa using h1) (by simpa using h2)

theorem primBranches_typed {e : Ext} {wi wf ws : Bool} {v : Val} {r : Val × List Ev} {as : List PyTy}
    (hi : wi = true → .int ∈ as) (hf : wf = true → .float ∈ as) (hs : ws = true → .str ∈ as)
    (h : primBranches e wi wf ws v = .ok (some r)) : HasTypeAny true as r.1 := by
  rw [hasTypeAny_iff]
  have hint : wi = true → ∀ i, ∃ a ∈ as, HasType true a (.int i) := by
    intro hw i; exact ⟨_, hi hw, by simp [HasType]⟩
  have hflt : wf = true → ∀ f, ∃ a ∈ as, HasType true a (.flt f) := by
    intro hw i; exact ⟨_, hf hw, by simp [HasType]⟩
  have hstr : ws = true → ∀ f, ∃ a ∈ as, HasType true a (.str f) := by
    intro hw i; exact ⟨_, hs hw, by simp [HasType]⟩
  cases v with
  | ntup n kvs =>
    cases kvs with
    | cons a b => simp [primBranches] at h
    | nil =>
      simp only [primBranches] at h
      split at h
      · rename_i hw; simp at h; subst h; exact hstr hw n
      · simp at h
  | int i =>
    simp only [primBranches, toFloat, bind, Except.bind, pure, Except.pure] at h
    split at h
    · rename_i hw
      split at h
      · simp at h
      · rename_i f hf
        split at hf
        · simp at hf
        · simp at hf h; subst hf; subst h; exact hflt hw _
    · simp at h
  | bool i =>
    simp only [primBranches, toFloat, bind, Except.bind, pure, Except.pure] at h
    split at h
    · rename_i hw
      split at h
      · simp at h
      · rename_i f hf
        split at hf
        · simp at hf
        · simp at hf h; subst hf; subst h; exact hflt hw _
    · simp at h
  | flt f =>
    simp only [primBranches, bind, Except.bind, pure, Except.pure] at h
    split at h
    · rename_i hw
      split at h
      · simp at h
      · split at h
        · simp at h; subst h; exact hint hw _
        · simp at h
    · simp at h
  | str s =>
    simp only [primBranches, strToFloat, strToInt, bind, Except.bind, pure, Except.pure] at h
    split at h
    · rename_i hw
      cases hp : e.parseFloat s with
      | none => simp [hp] at h
      | some f => simp [hp] at h; subst h; exact hflt hw f
    · split at h
      · rename_i hw
        cases hp : e.parseFloat s with
        | none => simp [hp] at h
        | some f =>
          simp only [hp] at h
          cases hti : f.toInt with
          | error e => simp [hti] at h
          | ok i =>
            simp only [hti] at h
            cases he : (Flt.fin i).eqv f <;> simp [he, throw, throwThe, MonadExceptOf.throw] at h
            subst h; exact hint hw i
      · simp at h
  | _ => simp [primBranches] at h

theorem fdNamed_some (c : DCfg) (n : Val) (ig : Bool) (path : String) (v : Val) : ∀ (as : List PyTy) (r : Res),
    fdNamed c as n ig path v = some r → ∃ t ∈ as, r = fromDict c t ig path v := by
  intro as
  induction as with
  | nil => intro r h; simp [fdNamed] at h
  | cons t ts ih =>
    intro r h
    simp only [fdNamed] at h
    split at h
    · simp at h; exact ⟨t, by simp, h.symm⟩
    · obtain ⟨t', h1, h2⟩ := ih r h
      exact ⟨t', List.mem_cons_of_mem _ h1, h2⟩

theorem plain_asRawDict {c : DCfg} {v : Val} {d : List (String × Val)} (hp : Plain v) (h : asRawDict c v = .ok d) : PlainD d := by
  cases v with
  | inst _ _ => simp [Plain] at hp
  | tup xs =>
    cases xs <;> simp [asRawDict, bind, Except.bind, pure, Except.pure, throw, throwThe, MonadExceptOf.throw] at h
    subst h; simp [PlainD]
  | ntup _ kvs =>
    simp [asRawDict, bind, Except.bind, pure, Except.pure] at h
    subst h; simpa [Plain] using hp
  | dict kvs =>
    simp [asRawDict, bind, Except.bind, pure, Except.pure] at h
    subst h; simp only [Plain] at hp; exact hp.2
  | _ => simp [asRawDict, bind, Except.bind, pure, Except.pure, throw, throwThe, MonadExceptOf.throw] at h

mutual
theorem typed (c : DCfg) : ∀ t : PyTy, DeclOK t → Typed c t
  | .int, _ => by
    intro ig path v v' es _ h
    cases (C07_int c ig path v v' es).1 h <;> simp [HasType]
  | .float, _ => by
    intro ig path v v' es _ h
    cases (C07_float c ig path v v' es).1 h <;> simp [HasType]
  | .str, _ => by
    intro ig path v v' es _ h
    simp only [fromDict] at h
    split at h
    · simp at h; simp [HasType, ← h.1]
    · simp only [bind, Except.bind, pure, Except.pure] at h
      split at h
      · simp at h
      · rename_i r hr
        split at h
        · rename_i r'
          have := primBranches_typed (as := [.str]) (by simp) (by simp) (by simp) hr
          simp at h; subst h
          simpa [HasTypeAny] using this
        · simp [throw, throwThe, MonadExceptOf.throw] at h
  | .bool, _ => by
    intro ig path v v' es _ h
    simp only [fromDict] at h
    split at h
    · simp at h; simp [HasType, ← h.1]
    · simp at h
  | .noneT, _ => by
    intro ig path v v' es _ h
    simp only [fromDict] at h
    split at h
    · simp at h; simp [HasType, ← h.1]
    · simp at h
  | .list a, hd => by
    have ih := typed c a (by simpa [DeclOK] using hd)
    intro ig path v v' es hp h
    simp only [fromDict] at h
    split at h
    · rename_i xs
      simp only [bind, Except.bind, pure, Except.pure] at h
      split at h
      · simp at h
      · rename_i z hz
        simp only [Except.ok.injEq, Prod.mk.injEq] at h
        obtain ⟨rfl, rfl⟩ := h
        simp only [HasType]
        simp only [Plain] at hp
        exact ⟨_, rfl, mapIdx_typed ih (fun i x => ⟨_, rfl⟩) hp hz⟩
    · simp at h
  | .tuple as, hd => by
    have ih := typeds c as (by simpa [DeclOK] using hd)
    intro ig path v v' es hp h
    obtain ⟨xs, ys, h1, rfl, h3, h4, h5⟩ := C10_tuple_partial c ig path as v v' es h
    have hpx : ∀ x ∈ xs, Plain x := by
      cases v with
      | tup l => simp only [tupleItems, Option.some.injEq] at h1; subst h1; simp only [Plain] at hp; exact (plainL_iff _).1 hp
      | ntup n kvs =>
        simp only [tupleItems, Option.some.injEq] at h1; subst h1; simp only [Plain] at hp
        intro x hx
        obtain ⟨kv, hkv, rfl⟩ := List.mem_map.1 hx
        exact (plainD_iff _).1 hp kv hkv
      | _ => simp [tupleItems] at h1
    simp only [HasType]
    refine ⟨ys, rfl, hasTypes_weak_of (by omega) ?_⟩
    intro i y t hy ht
    have hlt : i < ys.length := (List.getElem?_eq_some_iff.1 hy).1
    have hlt' : i < xs.length := by omega
    obtain ⟨y', es', h6, h7⟩ := h5 i xs[i] t (List.getElem?_eq_getElem hlt') ht
    rw [hy] at h6
    cases h6
    exact ih t (List.mem_of_getElem? ht) _ _ _ _ _ (hpx _ (List.getElem_mem hlt')) h7
  | .dict k b, hd => by
    have ih := typed c b (by simpa [DeclOK] using hd)
    intro ig path v v' es hp h
    simp only [fromDict] at h
    split at h
    · rename_i xs
      simp only [bind, Except.bind, pure, Except.pure] at h
      split at h
      · simp at h
      · rename_i z hz
        simp only [Except.ok.injEq, Prod.mk.injEq] at h
        obtain ⟨rfl, rfl⟩ := h
        simp only [HasType]
        simp only [Plain] at hp
        refine ⟨_, rfl, by simp, ?_⟩
        intro kv hkv
        obtain ⟨x, es', h1, h2⟩ := mapItems_ok hz kv hkv
        exact ih _ _ _ _ _ ((plainD_iff _).1 hp.2 _ h1) h2
    · simp at h
  | .union as, hd => by
    have ih := typeds c as (by simpa [DeclOK] using hd)
    intro ig path v v' es hp h
    simp only [HasType]
    simp only [fromDict] at h
    split at h
    · rename_i hopt
      obtain ⟨t, rfl⟩ := isOptionalArgs_iff.1 hopt
      rw [hasTypeAny_iff]
      split at h
      · simp at h
        exact ⟨.noneT, by simp, by simp [HasType, ← h.1]⟩
      · simp only [fdHead] at h
        exact ⟨t, by simp, ih t (by simp) _ _ _ _ _ hp h⟩
    · simp only [bind, Except.bind, pure, Except.pure] at h
      split at h
      · simp at h
      · rename_i r hr
        split at h
        · simp at h; subst h
          refine primBranches_typed ?_ ?_ ?_ hr
          · intro hw
            obtain ⟨t, ht, he⟩ := List.any_eq_true.1 hw
            cases t <;> simp [PyTy.isInt] at he; exact ht
          · intro hw
            obtain ⟨t, ht, he⟩ := List.any_eq_true.1 hw
            cases t <;> simp [PyTy.isFloat] at he; exact ht
          · intro hw
            obtain ⟨t, ht, he⟩ := List.any_eq_true.1 hw
            cases t <;> simp [PyTy.isStr] at he; exact ht
        · split at h
          · rename_i d
            split at h
            · rename_i r' hr'
              obtain ⟨n, hn, hnamed⟩ := Option.bind_eq_some_iff.1 hr'
              obtain ⟨t, ht, he⟩ := fdNamed_some c n ig path (.dict d) as r' hnamed
              rw [hasTypeAny_iff]
              rw [he] at h
              exact ⟨t, ht, ih t ht _ _ _ _ _ hp h⟩
            · split at h <;> simp [throw, throwThe, MonadExceptOf.throw] at h
          · split at h <;> simp [throw, throwThe, MonadExceptOf.throw] at h
          · simp [throw, throwThe, MonadExceptOf.throw] at h
  | .data n fs ver, hd => by
    simp only [DeclOK] at hd
    have ih := typedf c fs hd.2.2
    have hdecl := (declOKf_iff fs).1 hd.2.2
    intro ig path v v' es hp h
    simp only [HasType]
    -- the document after the version hook
    have hv : ∃ v1, Plain v1 ∧ fromDict c (.data n fs .none) ig path v1 = .ok (v', es) := by
      cases ver with
      | none => exact ⟨v, hp, h⟩
      | some vi =>
        simp only [fromDict, bind, Except.bind, pure, Except.pure] at h
        split at h
        · simp at h
        · rename_i v1 hv1
          exact ⟨v1, plain_versionHook (hd.2.1 vi rfl) hp hv1, by
            simpa only [fromDict, bind, Except.bind, pure, Except.pure] using h⟩
    obtain ⟨v1, hp1, h1⟩ := hv
    simp only [fromDict, bind, Except.bind, pure, Except.pure] at h1
    have key : ∀ d, PlainD d → ∀ kw es0 kvs,
        itemsLoop (fun k x => fdField c fs k (fieldPath path k) x) ig d = .ok (kw, es0) →
        fillFields kw fs = .ok kvs → HasFields true fs kvs := by
      intro d hpd kw es0 kvs hi hf
      apply fillFields_typed hf
      intro f hfm v hv
      simp only [fieldValue] at hv
      split at hv
      · rename_i y hy
        simp only [Except.ok.injEq] at hv
        subst hv
        obtain ⟨_, x, es', hx, _, hfx⟩ := itemsLoop_keys hi (dget_mem hy)
        rw [fdField_mem c f.name _ _ fs f hd.1 hfm rfl] at hfx
        simp only [Option.some.injEq] at hfx
        exact ih f hfm _ _ _ _ _ ((plainD_iff d).1 hpd _ hx) hfx
      · split at hv
        · rename_i dv hdv
          simp only [Except.ok.injEq] at hv
          subst hv
          obtain ⟨n', t', d'⟩ := f
          have := hdecl _ hfm
          simp only [DeclOK1] at this
          exact this.2 dv hdv
        · split at hv
          · rename_i w hw
            simp only [Except.ok.injEq] at hv
            subst hv
            obtain ⟨n', t', d'⟩ := f
            have := hdecl _ hfm
            simp only [DeclOK1] at this
            exact createDefault_typed t' w this.1 hw
          · simp at hv
    split at h1
    · simp [Plain] at hp1
    · rename_i v1 hni
      split at h1
      · simp at h1
      · rename_i d hdd
        have hpd : PlainD d := plain_asRawDict hp1 hdd
        split at h1
        · simp at h1
        · rename_i z hz
          split at h1
          · simp at h1
          · rename_i kvs hk
            simp only [Except.ok.injEq, Prod.mk.injEq] at h1
            exact ⟨kvs, h1.1.symm, key d hpd z.1 z.2 kvs hz hk⟩
  | .enum cls ms, _ => by
    intro ig path v v' es hp h
    simp only [fromDict] at h
    have key : ∀ {ms' : List (String × Val)} {w : Val}, enumByValue cls v ms' = .ok w → ∃ n x, (n, x) ∈ ms' ∧ w = .enm cls n x := by
      intro ms'
      induction ms' with
      | nil => intro w h; simp [enumByValue] at h
      | cons m ms' ih =>
        intro w h
        obtain ⟨n, x⟩ := m
        simp only [enumByValue] at h
        split at h
        · simp at h; exact ⟨n, x, by simp, h.symm⟩
        · obtain ⟨n', x', h1, h2⟩ := ih h
          exact ⟨n', x', List.mem_cons_of_mem _ h1, h2⟩
    split at h
    · simp [Plain] at hp
    · simp only [bind, Except.bind, pure, Except.pure] at h
      split at h
      · simp at h
      · rename_i w hw
        simp only [Except.ok.injEq, Prod.mk.injEq] at h
        obtain ⟨rfl, _⟩ := h
        simp only [HasType]
        exact key hw
  | .literal vals, _ => by
    intro ig path v v' es hp h
    by_cases hall : vals.all c.ext.typeArgOk = true
    · obtain ⟨_, _, w, hw, he⟩ := (C08_literal_partial c ig path vals (List.all_eq_true.1 hall) v v' es).1 h
      simp only [HasType]
      exact .inr ⟨trivial, w, hw, he⟩
    · simp [fromDict, hall] at h
  | .blob cls, _ => by
    intro ig path v v' es hp h
    simp only [fromDict] at h
    split at h
    · simp only [HasType]
      refine .inr ⟨trivial, ?_⟩
      simp only [lazyHook] at h
      split at h <;> simp at h <;> exact h.1.symm
    · split at h
      · simp [Plain] at hp
      · simp at h
theorem typeds (c : DCfg) : ∀ ts : List PyTy, DeclOKs ts → ∀ t ∈ ts, Typed c t
  | [], _ => by simp
  | t :: ts, hd => by
    simp only [DeclOKs] at hd
    have h1 := typed c t hd.1
    have h2 := typeds c ts hd.2
    intro t' h
    rcases List.mem_cons.1 h with rfl | h
    · exact h1
    · exact h2 t' h
theorem typedf (c : DCfg) : ∀ fs : List Fld, DeclOKf fs → ∀ f ∈ fs, Typed c f.ty
  | [], _ => by simp
  | .mk n t d :: fs, hd => by
    simp only [DeclOKf, DeclOK1] at hd
    have h1 := typed c t hd.1.1
    have h2 := typedf c fs hd.2
    intro f h
    rcases List.mem_cons.1 h with rfl | h
    · exact h1
    · exact h2 f h
end

/-! ### overrides -/

theorem plain_setPath {val : Val} (hv : Plain val) : ∀ (p : List String) {sd sd' : Val}, Plain sd → setPath val sd p = .ok sd' →
    Plain sd' := by
  intro p
  induction p with
  | nil => intro sd sd' _ h; simp [setPath] at h
  | cons k ks ih =>
    intro sd sd' hs h
    cases ks with
    | nil => simp only [setPath] at h; exact plain_setItem hs hv h
    | cons k' ks =>
      simp only [setPath, bind, Except.bind, pure, Except.pure] at h
      cases h1 : pyIn k sd with
      | error e => rw [h1] at h; exact (nomatch h)
      | ok present =>
        rw [h1] at h
        dsimp only at h
        have fin : ∀ child child', Plain child → setPath val (if child.isNone = true then Val.dict [] else child) (k' :: ks) = .ok child' →
            pySetItem k child' sd = .ok sd' → Plain sd' := by
          intro child child' hpc hc' h
          refine plain_setItem hs (ih ?_ hc') h
          split
          · simp [Plain, PlainD, dkeys]
          · exact hpc
        split at h
        · split at h
          · exact (nomatch h)
          · rename_i child hc
            split at h
            · exact (nomatch h)
            · rename_i child' hc'
              exact fin child child' (plain_getItem hs hc) hc' h
        · split at h
          · exact (nomatch h)
          · rename_i child' hc'
            exact fin .none child' (by simp [Plain]) hc' h

theorem plain_overridesLoop {ron : RonParse} (hron : ∀ s v, ron s = .ok v → Plain v) (sfs : List (String × SFld)) :
    ∀ (os : List String) (sd : Val) (stale : Option Val) (errs : List String) (sd' : Val) (errs' : List String), Plain sd →
      (∀ v, stale = some v → Plain v) → overridesLoop ron sfs os sd stale errs = .ok (sd', errs') → Plain sd' := by
  intro os
  induction os with
  | nil =>
    intro sd stale errs sd' errs' hs _ h
    simp only [overridesLoop, Except.ok.injEq, Prod.mk.injEq] at h
    exact h.1 ▸ hs
  | cons o os ih =>
    intro sd stale errs sd' errs' hs hst h
    simp only [overridesLoop] at h
    split at h
    · simp at h
    · split at h
      · exact ih _ _ _ _ _ hs hst h
      · rename_i f hf
        simp only [bind, Except.bind] at h
        split at h
        · simp at h
        · rename_i val hval
          split at h
          · simp at h
          · rename_i sd1 hsd1
            have hpv : Plain val := by
              simp only [overrideVal] at hval
              split at hval
              · simp only [Except.ok.injEq] at hval; subst hval; simp [Plain]
              · split at hval
                · split at hval
                  · simp only [Except.ok.injEq] at hval; subst hval; simp [Plain]
                  · split at hval
                    · simp only [Except.ok.injEq] at hval; subst hval; exact hst _ rfl
                    · simp at hval
                · exact hron _ _ hval
            exact ih _ _ _ _ _ (plain_setPath hpv _ hs hsd1) (by intro v h; cases h; exact hpv) h

theorem plain_applyOverrides {ron : RonParse} (hron : ∀ s v, ron s = .ok v → Plain v) {ty : PyTy} {os : List String} {doc doc' : Val}
    (hp : Plain doc) (h : applyOverrides ron ty os doc = .ok doc') : Plain doc' := by
  simp only [applyOverrides, bind, Except.bind, pure, Except.pure] at h
  split at h
  · simp at h
  · split at h
    · split at h
      · simp at h
      · rename_i q hq
        split at h
        · simp only [Except.ok.injEq] at h
          subst h
          exact plain_overridesLoop hron _ _ _ _ _ _ _ hp (by simp) (show _ = Except.ok (q.1, q.2) from hq)
        · simp [throw, throwThe, MonadExceptOf.throw] at h
        · simp [throw, throwThe, MonadExceptOf.throw] at h
    · simp [throw, throwThe, MonadExceptOf.throw] at h

/-- a load is a call of `from_dict` on raw data -/
theorem typedLoad_plain {c : DCfg} {ron : RonParse} {os : Option (List String)} (hron : os ≠ none → ∀ s v, ron s = .ok v → Plain v)
    {ig : Bool} {ty : PyTy} {doc : Val} (hp : Plain doc) {r : Loaded} (h : typedLoad c ron os ig ty doc = .ok r) :
    ∃ doc' es, Plain doc' ∧ fromDict c ty ig "" doc' = .ok (r.value, es) := by
  have key : ∀ d, Plain d → (do
      let (v, es) ← fromDict c ty ig "" d
      return (⟨v, ← regAll [] es, lazyAll es⟩ : Loaded)) = .ok r → ∃ doc' es, Plain doc' ∧ fromDict c ty ig "" doc' = .ok (r.value, es) := by
    intro d hpd h
    simp only [bind, Except.bind, pure, Except.pure] at h
    split at h
    · exact (nomatch h)
    · rename_i y hy
      split at h
      · exact (nomatch h)
      · simp only [Except.ok.injEq] at h
        subst h
        exact ⟨d, y.2, hpd, hy⟩
  cases os with
  | none => exact key doc hp h
  | some os =>
    simp only [typedLoad] at h
    cases h1 : applyOverrides ron ty os doc with
    | error e => rw [h1] at h; exact (nomatch h)
    | ok d => rw [h1] at h; exact key d (plain_applyOverrides (hron (by simp)) hp h1) h

/-- C04 (part). If a load succeeds on raw data, with or without overrides, the result has the declared type at every depth,
where: int fields hold ints, float fields floats, enum fields members, nested classes instances with all their fields, and so
on; with three weakenings that are real (see `HasType` with `weak = true`): tuples may be shorter than declared (`C04_false`),
a Literal field holds a value `==` to a listed one (`True` for `Literal[1]`), and a blob is `None` until it is read. -/
theorem C04_typed_partial (w : World) (am file ig : Bool) (ron : RonParse) (os : Option (List String)) (ty : PyTy) (doc : Val)
    (hd : DeclOK ty) (hp : Plain doc) (hron : os ≠ none → ∀ s v, ron s = .ok v → Plain v) (r : Loaded)
    (h : typedLoad (w.dcfg am file) ron os ig ty doc = .ok r) : HasType true ty r.value := by
  obtain ⟨doc', es, h1, h2⟩ := typedLoad_plain hron hp h
  exact typed (w.dcfg am file) ty hd ig "" doc' r.value es h1 h2

theorem Ex.cfg_declOK : DeclOK Ex.cfgTy := by
  simp only [Ex.cfgTy, DeclOK, DeclOKf, DeclOK1, Ex.netTy, Ex.aTy, Ex.bTy, Ex.optTy, PyTy.optional, DeclOKs]
  refine ⟨by decide, ?_, ?_⟩
  · intro vi h e he r hr
    cases h
    simp [Ex.cfgVer] at he
    subst he
    simp at hr
    subst hr
    simp [RulePlain]
  · simp [Fld.name, HasType, HasTypes, HasTypeAny]

/-- a raw document (of version 1, to be upgraded) that loads -/
example :
    let doc := Val.dict [("version", .int 1), ("learning_rate", .flt (.fin 1)), ("net", .dict [("act", .str "relu")]),
      ("alt", .dict [("!__name__", .str "A"), ("x", .int 0)])]
    Plain doc ∧ hsLoads Ex.world Ex.cfgTy doc .none false = .ok (.inst "Config" [
      ("lr", .flt (.fin 1)), ("net", .inst "Net" [("n", .int 4), ("act", .str "relu")]), ("layers", .list []),
      ("extra", .dict []), ("opt", .enm "Opt" "sgd" (.str "sgd")), ("sub", .none), ("alt", .inst "A" [("x", .int 0)])]) := by
  exact ⟨by simp [Plain, PlainD, PlainP, dkeys], rfl⟩

/-- C04 is false as stated: a `Tuple[int, str]` field may come back as `()`. -/
theorem C04_false (w : World) :
    let ty := PyTy.data "C" [.mk "t" (.tuple [.int, .str]) .none] .none
    hsLoads w ty (.dict [("t", .tup [])]) .none false = .ok (.inst "C" [("t", .tup [])]) ∧
      ¬ HasType false ty (.inst "C" [("t", .tup [])]) := by
  refine ⟨rfl, ?_⟩
  simp [HasType, HasFields, HasField, HasTypes]

/-- C04, Serializable fields, whatever the document holds (live objects too): without a checkpoint file the field holds the
object of the document, which must be of the declared class; with one it is `None`, and was given by one of the three markers. -/
theorem C04_serializable (c : DCfg) (cls : String) (ig : Bool) (path : String) (x v : Val) (es : List Ev)
    (h : fromDict c (.blob cls) ig path x = .ok (v, es)) :
    (c.file = false ∧ v = x ∧ es = [] ∧ ∃ r, x = .ser cls r) ∨
    (c.file = true ∧ v = .none ∧ (x = .str "<BLOB>" ∨ x = .str "<blob:pickle>" ∨ x = .str "<blob:msgpack>")) := by
  simp only [fromDict] at h
  split at h
  · rename_i hf
    right
    unfold lazyHook at h
    split at h <;> first | (cases h; exact ⟨hf, rfl, by simp⟩) | exact (nomatch h)
  · rename_i hf
    left
    split at h
    · split at h
      · rename_i he
        cases h
        exact ⟨by simpa using hf, rfl, rfl, _, by rw [he]⟩
      · exact (nomatch h)
    · exact (nomatch h)

/-- both cases occur -/
example (e : Ext) (n : String → ClsInfo) : fromDict ⟨e, false, false, n⟩ (.blob "Net") false "w" (.ser "Net" (.int 1)) = .ok (.ser "Net" (.int 1), []) := rfl

end HS
