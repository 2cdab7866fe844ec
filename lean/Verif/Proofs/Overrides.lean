import Verif.Model.Load
import Verif.Proofs.Rewrite
import Verif.Proofs.FromDict
import Verif.Proofs.Serde
import Verif.Spec.Fields
/-!
# Lemmas about overrides
-/
namespace HS

theorem setPath_cons_dict (val : Val) (d : List (String × Val)) (k k' : String) (ks : List String) :
    setPath val (.dict d) (k :: k' :: ks) =
      match setPath val (if ((dget d k).getD .none).isNone then .dict [] else (dget d k).getD .none) (k' :: ks) with
      | .ok c => .ok (.dict (dset d k c))
      | .error e => .error e := by
  simp only [setPath, pyIn, bind, Except.bind, pure, Except.pure, dhas]
  cases h : dget d k with
  | none =>
    simp only [Option.isSome_none, Bool.false_eq_true, if_false, Option.getD_none]
    cases setPath val (if Val.none.isNone = true then Val.dict [] else Val.none) (k' :: ks) <;> simp [pySetItem]
  | some c =>
    simp only [Option.isSome_some, if_true, pyGetItem, h, Option.getD_some]
    cases setPath val (if c.isNone = true then Val.dict [] else c) (k' :: ks) <;> simp [pySetItem]

theorem setPath_isDict {val : Val} {p : List String} {sd sd' : Val} (h : setPath val sd p = .ok sd') :
    sd.isDict = true ∧ sd'.isDict = true := by
  match p with
  | [] => simp [setPath] at h
  | [k] => cases sd <;> simp_all [setPath, pySetItem, Val.isDict]; cases h; rfl
  | k :: k' :: ks =>
    cases hd : sd.isDict
    · exfalso
      have hset : ∀ w, pySetItem k w sd = .error .typeError := by
        intro w; cases sd <;> simp_all [Val.isDict, pySetItem]
      simp only [setPath, bind, Except.bind, pure, Except.pure, hset] at h
      repeat' split at h
      all_goals cases h
    · obtain ⟨d, rfl⟩ := (isDict_iff sd).1 hd
      rw [setPath_cons_dict] at h
      split at h
      · cases h; exact ⟨rfl, rfl⟩
      · simp at h

/-- what writing an override does to the document -/
theorem setPath_spec (val : Val) {p : List String} : ∀ {sd sd' : Val}, setPath val sd p = .ok sd' →
    sd'.at? p = some val ∧ (∀ q, Unrelated p q → sd'.at? q = sd.at? q) ∧
    (∀ q, q <+: p → q ≠ p → ∃ d, sd'.at? q = some (.dict d)) := by
  induction p with
  | nil => intro sd sd' h; simp [setPath] at h
  | cons k ks ih =>
    intro sd sd' h
    obtain ⟨d, rfl⟩ := (isDict_iff sd).1 (setPath_isDict h).1
    cases ks with
    | nil =>
      simp only [setPath, pySetItem, Except.ok.injEq] at h
      subst h
      refine ⟨by simp, ?_, ?_⟩
      · intro q hq
        cases q with
        | nil => exact absurd hq not_unrelated_nil_right
        | cons k2 q =>
          by_cases hk : k = k2
          · subst hk; exact absurd (unrelated_cons_same.1 hq) not_unrelated_nil_left
          · simp [dget_dset_ne d _ hk]
      · intro q hq hne
        cases q with
        | nil => exact ⟨_, at?_nil _⟩
        | cons k2 q => simp at hq; obtain ⟨rfl, rfl⟩ := hq; exact absurd rfl hne
    | cons k' ks =>
      rw [setPath_cons_dict] at h
      split at h
      · rename_i c hc
        cases h
        obtain ⟨h1, h2, h3⟩ := ih hc
        refine ⟨by simp [h1], ?_, ?_⟩
        · intro q hq
          cases q with
          | nil => exact absurd hq not_unrelated_nil_right
          | cons k2 q =>
            by_cases hk : k = k2
            · subst hk
              have hq' := unrelated_cons_same.1 hq
              simp only [at?_dict_cons, dget_dset_self, Option.bind, h2 q hq']
              cases q with
              | nil => exact absurd hq' not_unrelated_nil_right
              | cons k3 q =>
                cases hg : dget d k with
                | none => simp [Val.isNone]
                | some x =>
                  simp only [Option.getD_some]
                  cases hn : x.isNone
                  · simp
                  · have : x = .none := by cases x <;> simp_all [Val.isNone]
                    subst this
                    simp [Val.at?]
            · simp [dget_dset_ne d _ hk]
        · intro q hq hne
          cases q with
          | nil => exact ⟨_, at?_nil _⟩
          | cons k2 q =>
            obtain ⟨rfl, hq'⟩ := List.cons_prefix_cons.1 hq
            have hne' : q ≠ k' :: ks := by rintro rfl; exact hne rfl
            obtain ⟨d', hd'⟩ := h3 q hq' hne'
            exact ⟨d', by simp [hd']⟩
      · simp at h

/-- writing succeeds when the ancestors that are present are objects or None -/
theorem setPath_ok (val : Val) {p : List String} : ∀ {sd : Val}, p ≠ [] → sd.isDict = true → Walkable sd p →
    ∃ sd', setPath val sd p = .ok sd' := by
  induction p with
  | nil => intro sd h; exact absurd rfl h
  | cons k ks ih =>
    intro sd _ hd hw
    obtain ⟨d, rfl⟩ := (isDict_iff sd).1 hd
    cases ks with
    | nil => exact ⟨_, rfl⟩
    | cons k' ks =>
      rw [setPath_cons_dict]
      have hw1 := hw [k] (by simp) (by simp) (by simp)
      have : ∃ c, setPath val (if ((dget d k).getD .none).isNone then .dict [] else (dget d k).getD .none) (k' :: ks) = .ok c := by
        apply ih (by simp)
        · cases hg : dget d k with
          | none => rfl
          | some x =>
            rcases hw1 x (by simp [hg]) with h | rfl
            · obtain ⟨dx, rfl⟩ := (isDict_iff x).1 h; rfl
            · rfl
        · intro q hq hne hq0 v hv
          cases hg : dget d k with
          | none =>
            cases q with
            | nil => exact absurd rfl hq0
            | cons k2 q => simp [hg, Val.isNone, dget] at hv
          | some x =>
            simp only [hg, Option.getD_some] at hv
            cases hn : x.isNone
            · simp only [hn, Bool.false_eq_true, if_false] at hv
              exact hw (k :: q) (by simpa using hq) (by intro e; exact hne (by simpa using e)) (by simp) v
                (by simp [hg, hv])
            · simp only [hn, if_true] at hv
              cases q with
              | nil => exact absurd rfl hq0
              | cons k2 q => simp [dget] at hv
      obtain ⟨c, hc⟩ := this
      exact ⟨_, by rw [hc]⟩

/-- later writes elsewhere keep a path writable -/
theorem walkable_setPath {val : Val} {p p' : List String} {sd sd' : Val} (h : setPath val sd p = .ok sd')
    (hu : ¬ p <+: p') (hw : Walkable sd p') : Walkable sd' p' := by
  obtain ⟨h1, h2, h3⟩ := setPath_spec val h
  intro q hq hne hq0 v hv
  by_cases hqp : q <+: p
  · by_cases e : q = p
    · subst e; exact absurd hq hu
    · obtain ⟨d, hd⟩ := h3 q hqp e
      rw [hd] at hv; cases hv; exact .inl rfl
  · have hpq : ¬ p <+: q := fun h => hu (h.trans hq)
    rw [h2 q ⟨hpq, hqp⟩] at hv
    exact hw q hq hne hq0 v hv

/-! ## the path lookup in the schema agrees with the class -/

theorem strips_not {t u : PyTy} (h : Strips t u) : ∃ n fs ver, u = .data n fs ver := by
  induction h with
  | refl n fs ver => exact ⟨n, fs, ver, rfl⟩
  | opt _ ih => exact ih

theorem materialize_opt (t : PyTy) {s : STy} (h : materialize (.optional t) = .ok s) :
    ∃ s', materialize t = .ok s' ∧ s = .option s' := by
  simp only [PyTy.optional, materialize, isOptionalArgs, PyTy.isNoneT, if_true, materializeOpt, bind, Except.bind, pure,
    Except.pure] at h
  cases hm : materialize t with
  | error e => simp [hm] at h
  | ok s' => simp [hm] at h; exact ⟨s', rfl, h.symm⟩

theorem materialize_data {n : String} {fs : List Fld} {ver : Option VerInfo} {s : STy}
    (h : materialize (.data n fs ver) = .ok s) :
    ∃ sfs, materializeF fs = .ok sfs ∧ s = .struct n sfs (ver.map VerInfo.version) := by
  simp only [materialize, bind, Except.bind, pure, Except.pure] at h
  cases hm : materializeF fs with
  | error e => simp [hm] at h
  | ok sfs => simp [hm] at h; exact ⟨sfs, rfl, h.symm⟩

theorem materializeF_dget : ∀ {fs : List Fld} {sfs : List (String × SFld)}, materializeF fs = .ok sfs → ∀ k,
    (∀ f, fs.find? (fun f => f.name == k) = some f → ∃ sf, dget sfs k = some sf ∧ materialize f.ty = .ok sf.type) ∧
    (fs.find? (fun f => f.name == k) = .none → dget sfs k = .none) := by
  intro fs
  induction fs with
  | nil => intro sfs h k; simp [materializeF] at h; subst h; simp
  | cons g fs ih =>
    intro sfs h k
    obtain ⟨n, t, d⟩ := g
    simp only [materializeF, materializeF1, bind, Except.bind, pure, Except.pure] at h
    cases hm : materialize t with
    | error e => simp [hm] at h
    | ok s =>
      cases hr : materializeF fs with
      | error e => simp [hm, hr] at h
      | ok rest =>
        simp [hm, hr] at h
        subst h
        obtain ⟨h1, h2⟩ := ih hr k
        by_cases e : n = k
        · subst e
          simp only [List.find?_cons, Fld.name, beq_self_eq_true, dget, if_true]
          exact ⟨fun f hf => by cases hf; exact ⟨_, rfl, hm⟩, fun hf => by simp at hf⟩
        · have e' : (n == k) = false := by simpa using e
          simp only [List.find?_cons, Fld.name, e', dget, if_neg e]
          exact ⟨h1, h2⟩

theorem strips_strip {t u : PyTy} (h : Strips t u) : ∀ {s : STy}, materialize t = .ok s →
    materialize u = .ok s.stripOption := by
  induction h with
  | refl n fs ver =>
    intro s hs
    obtain ⟨sfs, _, rfl⟩ := materialize_data hs
    exact hs
  | opt _ ih =>
    intro s hs
    obtain ⟨s', hs', rfl⟩ := materialize_opt _ hs
    simp only [STy.stripOption]
    exact ih hs'

/-- only a dataclass or optionals of it materialize to a struct under optionals -/
theorem strip_strips : ∀ (t : PyTy) (s : STy), materialize t = .ok s → ∀ (n : String) (sfs : List (String × SFld)) (v : Option Int), s.stripOption = .struct n sfs v →
    ∃ fs ver, Strips t (.data n fs ver) ∧ materializeF fs = .ok sfs
  | .int, s, h | .str, s, h | .float, s, h | .bool, s, h | .enum _ _, s, h | .literal _, s, h => by
    intro n sfs v hs
    simp only [materialize, Except.ok.injEq] at h; subst h; simp [STy.stripOption] at hs
  | .noneT, s, h | .blob _, s, h => by simp [materialize] at h
  | .list a, s, h => by
    intro n sfs v hs
    simp only [materialize, bind, Except.bind, pure, Except.pure] at h
    split at h
    · simp at h
    · simp at h; subst h; simp [STy.stripOption] at hs
  | .tuple a, s, h => by
    intro n sfs v hs
    simp only [materialize, bind, Except.bind, pure, Except.pure] at h
    split at h
    · simp at h
    · simp at h; subst h; simp [STy.stripOption] at hs
  | .dict a b, s, h => by
    intro n sfs v hs
    simp only [materialize, bind, Except.bind, pure, Except.pure] at h
    split at h
    · simp at h
    · split at h
      · simp at h
      · simp at h; subst h; simp [STy.stripOption] at hs
  | .data n fs ver, s, h => by
    intro n' sfs v hs
    obtain ⟨sfs', hf, rfl⟩ := materialize_data h
    simp only [STy.stripOption, STy.struct.injEq] at hs
    obtain ⟨rfl, rfl, rfl⟩ := hs
    exact ⟨fs, ver, .refl _ _ _, hf⟩
  | .union as, s, h => by
    intro n sfs v hs
    by_cases ho : isOptionalArgs as = true
    · obtain ⟨t, ht⟩ := isOptionalArgs_iff.1 ho
      have hlt : sizeOf t < sizeOf as := by rw [ht]; simp; omega
      rw [ht] at h
      obtain ⟨s', hs', rfl⟩ := materialize_opt t h
      simp only [STy.stripOption] at hs
      obtain ⟨fs, ver, h1, h2⟩ := strip_strips t _ hs' _ _ _ hs
      rw [ht]
      exact ⟨fs, ver, .opt h1, h2⟩
    · simp only [materialize, ho, bind, Except.bind, pure, Except.pure] at h
      simp at h
      split at h
      · simp at h
      · simp at h; subst h; simp [STy.stripOption] at hs
termination_by t => sizeOf t
decreasing_by simp_wf; omega

/-- `find_field` on the schema of a class finds exactly the fields the class has, with their types -/
theorem findField_iff : ∀ (p : List String) {fs : List Fld} {sfs : List (String × SFld)}, materializeF fs = .ok sfs →
    (∀ t, FieldAt fs p t → ∃ sf, findField sfs p = some sf ∧ materialize t = .ok sf.type) ∧
    (∀ sf, findField sfs p = some sf → ∃ t, FieldAt fs p t ∧ materialize t = .ok sf.type) := by
  intro p
  induction p with
  | nil =>
    intro fs sfs h
    exact ⟨fun t ht => (by cases ht), fun sf hs => by simp [findField] at hs⟩
  | cons k ks ih =>
    intro fs sfs h
    obtain ⟨h1, h2⟩ := materializeF_dget h k
    cases ks with
    | nil =>
      simp only [findField]
      refine ⟨?_, ?_⟩
      · intro t ht
        cases ht with
        | here hf => exact h1 _ hf
      · intro sf hs
        cases hf : fs.find? (fun f => f.name == k) with
        | none => rw [h2 hf] at hs; cases hs
        | some f =>
          obtain ⟨sf', hg, hm⟩ := h1 f hf
          rw [hg] at hs; cases hs
          exact ⟨f.ty, .here hf, hm⟩
    | cons k' ks =>
      simp only [findField]
      refine ⟨?_, ?_⟩
      · intro t ht
        cases ht with
        | there hf hst hrest =>
          obtain ⟨sf, hg, hm⟩ := h1 _ hf
          have hms := strips_strip hst hm
          obtain ⟨sfs', hf', hs'⟩ := materialize_data hms
          simp only [hg, hs']
          exact (ih hf').1 t hrest
      · intro sf hs
        cases hf : fs.find? (fun f => f.name == k) with
        | none => rw [h2 hf] at hs; cases hs
        | some f =>
          obtain ⟨sf', hg, hm⟩ := h1 f hf
          simp only [hg] at hs
          split at hs
          · rename_i n' sfs' v' hst
            obtain ⟨fs', ver', hst', hf'⟩ := strip_strips f.ty _ hm _ _ _ hst
            obtain ⟨t, ht, hmt⟩ := (ih hf').2 sf hs
            exact ⟨t, .there hf hst' ht, hmt⟩
          · cases hs

/-- a path names at most one field -/
theorem fieldAt_unique {fs : List Fld} {p : List String} {t : PyTy} (h : FieldAt fs p t) : ∀ {t'}, FieldAt fs p t' → t = t' := by
  have strips_fun : ∀ {a b : PyTy}, Strips a b → ∀ {b'}, Strips a b' → b = b' := by
    intro a b h
    induction h with
    | refl n fs ver => intro b' h'; cases h' with | refl => rfl
    | opt _ ih => intro b' h'; cases h' with | opt h' => exact ih h'
  induction h with
  | here hf =>
    intro t' h'
    cases h' with
    | here hf' => rw [hf] at hf'; cases hf'; rfl
  | there hf hs _ ih =>
    intro t' h'
    cases h' with
    | there hf' hs' hr' =>
      rw [hf] at hf'; cases hf'
      have := strips_fun hs hs'
      cases this
      exact ih hr'

end HS
