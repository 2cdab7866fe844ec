import Verif.Model.Rewrite
import Verif.Spec.Doc
import Verif.Proofs.Dict
namespace HS

theorem unrelated_cons_same {k : String} {p q : List String} : Unrelated (k :: p) (k :: q) ↔ Unrelated p q := by
  simp [Unrelated]

theorem not_unrelated_nil_right {p : List String} : ¬ Unrelated p [] := by simp [Unrelated]
theorem not_unrelated_nil_left {p : List String} : ¬ Unrelated [] p := by simp [Unrelated]

theorem Unrelated.symm {p q : List String} (h : Unrelated p q) : Unrelated q p := ⟨h.2, h.1⟩

theorem dset_same {α : Type} {d : List (String × α)} {k : String} {v : α} (h : dget d k = some v) : dset d k v = d := by
  induction d with
  | nil => simp at h
  | cons e d ih =>
    obtain ⟨k', v'⟩ := e
    by_cases h1 : k' = k
    · simp [dget, h1] at h; subst h; simp [dset, h1]
    · simp [dget, h1] at h; simp [dset, h1, ih h]

theorem removePath_single_dict (d : List (String × Val)) (k : String) :
    removePath (.dict d) [k] = match dget d k with
      | some v => .ok (.dict (ddel d k), some v)
      | none => .ok (.dict d, none) := by
  cases h : dget d k <;> simp [removePath, h]

theorem removePath_cons_dict (d : List (String × Val)) (k k' : String) (ks : List String) :
    removePath (.dict d) (k :: k' :: ks) = match dget d k with
      | none => .ok (.dict d, none)
      | some c => if c.isNone then .ok (.dict d, none) else
          match removePath c (k' :: ks) with
          | .ok (c', r) => .ok (.dict (dset d k c'), r)
          | .error e => .error e := by
  cases h : dget d k with
  | none => simp [removePath, pyIn, dhas, h, bind, Except.bind, pure, Except.pure]
  | some c =>
    cases hn : c.isNone
    · simp [removePath, pyIn, pyGetItem, pySetItem, dhas, h, hn, bind, Except.bind, pure, Except.pure]
      cases removePath c (k' :: ks) <;> rfl
    · simp [removePath, pyIn, pyGetItem, dhas, h, hn, bind, Except.bind, pure, Except.pure]

/-- on anything but a dict, removal either fails or does nothing -/
theorem removePath_not_dict {v : Val} (hv : v.isDict = false) {p : List String} {sd' : Val} {r : Option Val}
    (h : removePath v p = .ok (sd', r)) : sd' = v ∧ r = none := by
  match p with
  | [] => simp [removePath] at h
  | [k] => cases v <;> simp_all [removePath, Val.isDict]
  | k :: k' :: ks =>
    simp only [removePath, bind, Except.bind, pure, Except.pure] at h
    cases hin : pyIn k v with
    | error e => simp [hin] at h
    | ok b =>
      simp only [hin] at h
      cases b
      · simp at h; exact ⟨h.1.symm, h.2.symm⟩
      · have : pyGetItem k v = .error .typeError := by cases v <;> simp_all [pyGetItem, Val.isDict]
        simp [this] at h

theorem removePath_spec {p : List String} : ∀ {sd sd' : Val} {r : Option Val}, removePath sd p = .ok (sd', r) →
    r = sd.at? p ∧ (r = none → sd' = sd) ∧ sd'.at? p = none ∧
    (∀ q, Unrelated p q → sd'.at? q = sd.at? q) ∧
    (∀ q, q <+: p → q ≠ p → (sd'.at? q).map Val.isDict = (sd.at? q).map Val.isDict) := by
  induction p with
  | nil => intro sd sd' r h; simp [removePath] at h
  | cons k ks ih =>
    intro sd sd' r h
    cases hd : sd.isDict
    · obtain ⟨rfl, rfl⟩ := removePath_not_dict hd h
      simp [at?_cons_of_not_dict _ hd]
    obtain ⟨d, rfl⟩ := (isDict_iff sd).1 hd
    cases ks with
    | nil =>
      rw [removePath_single_dict] at h
      cases hg : dget d k with
      | none =>
        simp [hg] at h; obtain ⟨rfl, rfl⟩ := h
        simp [hg]
      | some v =>
        simp [hg] at h; obtain ⟨rfl, rfl⟩ := h
        refine ⟨by simp [hg], by simp, by simp, ?_, ?_⟩
        · intro q hq
          cases q with
          | nil => exact absurd hq not_unrelated_nil_right
          | cons k2 q =>
            by_cases hk : k = k2
            · subst hk; exact absurd (unrelated_cons_same.1 hq) not_unrelated_nil_left
            · simp [dget_ddel_ne d hk]
        · intro q hq hne
          cases q with
          | nil => simp [Val.isDict]
          | cons k2 q =>
            simp at hq; obtain ⟨rfl, rfl⟩ := hq; exact absurd rfl hne
    | cons k' ks =>
      rw [removePath_cons_dict] at h
      cases hg : dget d k with
      | none => simp [hg] at h; obtain ⟨rfl, rfl⟩ := h; simp [hg]
      | some c =>
        simp only [hg] at h
        cases hn : c.isNone
        · simp only [hn] at h
          cases hr : removePath c (k' :: ks) with
          | error e => simp [hr] at h
          | ok x =>
            obtain ⟨c', r'⟩ := x
            simp only [hr] at h
            simp at h
            obtain ⟨rfl, rfl⟩ := h
            obtain ⟨h1, h2, h3, h4, h5⟩ := ih hr
            refine ⟨by simp [hg, h1], ?_, by simp [h3], ?_, ?_⟩
            · intro h0; rw [h2 h0, dset_same hg]
            · intro q hq
              cases q with
              | nil => exact absurd hq not_unrelated_nil_right
              | cons k2 q =>
                by_cases hk : k = k2
                · subst hk; simp [hg, h4 q (unrelated_cons_same.1 hq)]
                · simp [dget_dset_ne d _ hk]
            · intro q hq hne
              cases q with
              | nil => simp [Val.isDict]
              | cons k2 q =>
                obtain ⟨rfl, hq'⟩ := List.cons_prefix_cons.1 hq
                have := h5 q hq' (by rintro rfl; exact hne rfl)
                simp [hg, this]
        · simp [hn] at h; obtain ⟨rfl, rfl⟩ := h
          have : c = .none := by cases c <;> simp_all [Val.isNone]
          subst this
          simp [hg, Val.at?]

theorem removePath_present {p : List String} : ∀ {sd v : Val}, p ≠ [] → sd.at? p = some v →
    ∃ sd', removePath sd p = .ok (sd', some v) := by
  induction p with
  | nil => intro sd v h; exact absurd rfl h
  | cons k ks ih =>
    intro sd v _ hat
    cases hd : sd.isDict
    · simp [at?_cons_of_not_dict _ hd] at hat
    obtain ⟨d, rfl⟩ := (isDict_iff sd).1 hd
    simp only [at?_dict_cons] at hat
    cases hg : dget d k with
    | none => simp [hg] at hat
    | some c =>
      simp only [hg, Option.bind] at hat
      cases ks with
      | nil => simp at hat; subst hat; exact ⟨.dict (ddel d k), by rw [removePath_single_dict]; simp only [hg]⟩
      | cons k' ks =>
        obtain ⟨c', hc⟩ := ih (by simp) hat
        have hn : c.isNone = false := by cases c <;> simp_all [Val.isNone, Val.at?]
        exact ⟨.dict (dset d k c'), by rw [removePath_cons_dict]; simp only [hg, hn, hc]; rfl⟩

theorem removePath_absent {p : List String} : ∀ {sd : Val}, p ≠ [] → sd.isDict = true → Walkable sd p →
    sd.at? p = none → removePath sd p = .ok (sd, none) := by
  induction p with
  | nil => intro sd h; exact absurd rfl h
  | cons k ks ih =>
    intro sd _ hd hw hat
    obtain ⟨d, rfl⟩ := (isDict_iff sd).1 hd
    simp only [at?_dict_cons] at hat
    cases ks with
    | nil => cases hg : dget d k <;> simp_all [removePath_single_dict]
    | cons k' ks =>
      rw [removePath_cons_dict]
      cases hg : dget d k with
      | none => rfl
      | some c =>
        have hc := hw [k] (by simp) (by simp) (by simp) c (by simp [hg])
        rcases hc with hc | hc
        · have hn : c.isNone = false := by cases c <;> simp_all [Val.isNone, Val.isDict]
          have hw' : Walkable c (k' :: ks) := by
            intro q hq hne hnil v hv
            exact hw (k :: q) (by simpa using hq) (by simpa using hne) (by simp) v (by simp [hg, hv])
          have := ih (by simp) hc hw' (by simpa [hg] using hat)
          simp [hn, this, dset_same hg]
        · subst hc; simp [Val.isNone]

/-! ### insertion -/

theorem at?_freshObj (cn : Bool) {q : List String} (hq : q ≠ []) (hw : WEAK_REF ∉ q) : (freshObj cn).at? q = none := by
  cases q with
  | nil => exact absurd rfl hq
  | cons k ks =>
    have : WEAK_REF ≠ k := fun h => hw (h ▸ List.mem_cons_self)
    cases cn <;> simp [freshObj, dget, this]

/-- the child object that `_insert` descends into -/
def insChild (cn : Bool) (d : List (String × Val)) (k : String) : Option Val :=
  some ((dget d k).getD (freshObj cn))

theorem insertPath_cons_dict (value : Val) (cn : Bool) (d : List (String × Val)) (k k' : String) (ks : List String) :
    insertPath value cn (.dict d) (k :: k' :: ks) =
      match (dget d k).getD (freshObj cn) with
      | .dict dc =>
        match insertPath value cn (.dict (if cn && dhas dc WEAK_REF then ddel dc WEAK_REF else dc)) (k' :: ks) with
        | .ok c' => .ok (.dict (dset (if dhas d k then d else dset d k (freshObj cn)) k c'))
        | .error e => .error e
      | _ => .ok (.dict d) := by
  cases hg : dget d k with
  | none =>
    have hh : dhas d k = false := by simp [dhas, hg]
    simp only [insertPath, hh, pyGetItem, pySetItem, bind, Except.bind, pure, Except.pure, Option.getD,
      Bool.false_eq_true, if_false, dget_dset_self]
    cases cn
    · simp only [freshObj, Bool.false_eq_true, if_false]
      split <;> simp_all
    · simp only [freshObj, if_true]
      split <;> simp_all
  | some c =>
    have hh : dhas d k = true := by simp [dhas, hg]
    simp only [insertPath, hh, if_true, pyGetItem, hg, bind, Except.bind, pure, Except.pure, Option.getD, pySetItem]
    cases c <;> first | rfl | (dsimp only; split <;> simp_all)

theorem at?_ddel_weak (dc : List (String × Val)) {q : List String} (hw : WEAK_REF ∉ q) (hq : q ≠ []) :
    (Val.dict (ddel dc WEAK_REF)).at? q = (Val.dict dc).at? q := by
  cases q with
  | nil => exact absurd rfl hq
  | cons k ks =>
    have : WEAK_REF ≠ k := fun h => hw (h ▸ List.mem_cons_self)
    simp [dget_ddel_ne _ this]

theorem at?_weakStrip (cn : Bool) (dc : List (String × Val)) {q : List String} (hw : WEAK_REF ∉ q) (hq : q ≠ []) :
    (Val.dict (if cn && dhas dc WEAK_REF then ddel dc WEAK_REF else dc)).at? q = (Val.dict dc).at? q := by
  split
  · exact at?_ddel_weak dc hw hq
  · rfl

/-- Insertion leaves unrelated paths alone (paths through the internal weak marker aside). -/
theorem insertPath_frame (value : Val) (cn : Bool) {p : List String} : ∀ {sd sd' : Val},
    insertPath value cn sd p = .ok sd' → ∀ q, Unrelated p q → WEAK_REF ∉ q → sd'.at? q = sd.at? q := by
  induction p with
  | nil => intro sd sd' h; simp [insertPath] at h
  | cons k ks ih =>
    intro sd sd' h q hq hw
    cases q with
    | nil => exact absurd hq not_unrelated_nil_right
    | cons k2 q =>
    cases hd : sd.isDict
    · exfalso
      cases ks with
      | nil => cases sd <;> simp_all [insertPath, pySetItem, Val.isDict]
      | cons k' ks => cases sd <;> simp_all [insertPath, pyGetItem, Val.isDict, bind, Except.bind]
    obtain ⟨d, rfl⟩ := (isDict_iff sd).1 hd
    cases ks with
    | nil =>
      simp [insertPath, pySetItem] at h; subst h
      by_cases hk : k = k2
      · subst hk; exact absurd (unrelated_cons_same.1 hq) not_unrelated_nil_left
      · simp [dget_dset_ne d _ hk]
    | cons k' ks =>
      rw [insertPath_cons_dict] at h
      have hw' : WEAK_REF ∉ q := fun h => hw (List.mem_cons_of_mem _ h)
      cases hc : (dget d k).getD (freshObj cn) <;> simp only [hc] at h <;>
        try (cases h; rfl)
      rename_i dc
      split at h
      · rename_i c' hins
        cases h
        have hq0 : k = k2 → q ≠ [] := by
          rintro rfl rfl; exact absurd (unrelated_cons_same.1 hq) not_unrelated_nil_right
        have hsub : k = k2 → c'.at? q = (Val.dict dc).at? q := by
          intro hk
          subst hk
          have := ih hins q (unrelated_cons_same.1 hq) hw'
          rw [this, at?_weakStrip cn dc hw' (hq0 rfl)]
        by_cases hk : k = k2
        · subst hk
          simp only [at?_dict_cons]
          rw [dget_dset_self]
          cases hg : dget d k with
          | none =>
            simp [hg] at hc
            simp [hsub rfl, ← hc, at?_freshObj cn (hq0 rfl) hw']
          | some c => simp [hg] at hc; subst hc; simp [hsub rfl]
        · have : dget (if dhas d k then d else dset d k (freshObj cn)) k2 = dget d k2 := by
            split <;> simp [dget_dset_ne d _ hk]
          simp [dget_dset_ne _ _ hk, this]
      · simp at h

theorem Reachable.isDict {d : Val} {p : List String} (hp : p ≠ []) (h : Reachable d p) : d.isDict = true := by
  exact h [] (by simp) (Ne.symm hp) d (by simp)

/-- Insertion at a reachable path succeeds and the value is found there. -/
theorem insertPath_reachable (value : Val) (cn : Bool) {p : List String} : ∀ {sd : Val},
    p ≠ [] → WEAK_REF ∉ p.dropLast → Reachable sd p →
    ∃ sd', insertPath value cn sd p = .ok sd' ∧ sd'.at? p = some value := by
  induction p with
  | nil => intro sd h; exact absurd rfl h
  | cons k ks ih =>
    intro sd hp hwk hr
    obtain ⟨d, rfl⟩ := (isDict_iff sd).1 (hr.isDict hp)
    cases ks with
    | nil => exact ⟨_, rfl, by simp⟩
    | cons k' ks =>
      rw [insertPath_cons_dict]
      have hdc : ∃ dc, (dget d k).getD (freshObj cn) = .dict dc := by
        cases hg : dget d k with
        | none => cases cn <;> simp [freshObj]
        | some c =>
          have := hr [k] (by simp) (by simp) c (by simp [hg])
          simpa using (isDict_iff c).1 this
      obtain ⟨dc, hdc⟩ := hdc
      simp only [hdc]
      have hwk' : WEAK_REF ∉ (k' :: ks).dropLast := by
        intro h; apply hwk; simp [List.dropLast]; right; simpa using h
      have hr' : Reachable (.dict (if cn && dhas dc WEAK_REF then ddel dc WEAK_REF else dc)) (k' :: ks) := by
        intro q hq hne v hv
        by_cases hq0 : q = []
        · subst hq0; simp at hv; subst hv; split <;> rfl
        · have hwq : WEAK_REF ∉ q := by
            intro hmem
            have : q <+: (k' :: ks).dropLast := by
              obtain ⟨t, ht⟩ := hq
              have : t ≠ [] := by rintro rfl; simp at ht; exact hne ht
              rw [← ht, List.dropLast_append_of_ne_nil this]
              exact List.prefix_append _ _
            exact hwk' (this.subset hmem)
          rw [at?_weakStrip cn dc hwq hq0] at hv
          cases hg : dget d k with
          | none =>
            simp [hg] at hdc
            rw [← hdc, at?_freshObj cn hq0 hwq] at hv
            simp at hv
          | some c =>
            simp [hg] at hdc; subst hdc
            exact hr (k :: q) (by simpa using hq) (by simpa using hne) v (by simp [hg, hv])
      obtain ⟨c', hc', hat⟩ := ih (by simp) hwk' hr'
      refine ⟨.dict (dset (if dhas d k then d else dset d k (freshObj cn)) k c'), by simp only [hc'], ?_⟩
      simp [hat]

/-- Ancestors of a present path are objects. -/
theorem reachable_of_present {p : List String} {sd v : Val} (h : sd.at? p = some v) : Reachable sd p := by
  intro q hq hne w hw
  obtain ⟨t, rfl⟩ := hq
  have ht : t ≠ [] := by rintro rfl; simp at hne
  rw [at?_append, hw] at h
  cases t with
  | nil => exact absurd rfl ht
  | cons k t =>
    cases hd : w.isDict with
    | true => rfl
    | false => simp [at?_cons_of_not_dict _ hd] at h

/-- Removal does not change which ancestors are objects. -/
theorem reachable_removePath {p : List String} {sd sd' : Val} {r : Option Val} (h : removePath sd p = .ok (sd', r))
    (hr : Reachable sd p) : Reachable sd' p := by
  intro q hq hne w hw
  have := (removePath_spec h).2.2.2.2 q hq hne
  rw [hw] at this
  cases hs : sd.at? q with
  | none => simp [hs] at this
  | some u => simp [hs] at this; rw [this]; exact hr q hq hne u hs

end HS
