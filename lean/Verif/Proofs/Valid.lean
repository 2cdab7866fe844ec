import Verif.Spec.Valid
import Verif.Proofs.Rewrite
import Verif.Proofs.Apply
/-!
# Lemmas on valid documents
-/
namespace HS

theorem validAt_iff (leaf : STy → Val → Prop) (fs : List (String × SFld)) (k : String) (x : Val) :
    ValidAt leaf fs k x ↔ ∃ f, dget fs k = some f ∧ Valid leaf f.type x := by
  induction fs with
  | nil => simp [ValidAt]
  | cons e fs ih =>
    obtain ⟨k', f⟩ := e
    cases f with
    | mk n t d h doc =>
      by_cases hk : k' = k
      · subst hk
        simp [ValidAt, ValidP, ValidS, dget, SFld.type]
      · simp [ValidAt, dget, hk, ih]

theorem valid_struct (leaf : STy → Val → Prop) (n : String) (fs : List (String × SFld)) (v : Option Int) (x : Val) :
    Valid leaf (.struct n fs v) x ↔ ∃ d, x = .dict d ∧ (dkeys d).Nodup ∧
      (∀ k y, dget d k = some y → Reserved k ∨ ∃ f, dget fs k = some f ∧ Valid leaf f.type y) ∧
      (dhas d WEAK_REF = false → ∀ k f, dget fs k = some f → (∃ y, dget d k = some y ∧ y.isWeak = false) ∨ Omit f) := by
  simp only [Valid, validAt_iff]

/-- all fields may be left out -/
def AllOmit (s : STy) : Prop := ∀ n fs v, s = .struct n fs v → ∀ k f, dget fs k = some f → Omit f

theorem Clean.weak {p : List String} (h : Clean p) : WEAK_REF ∉ p := fun hm => h _ hm (.inl rfl)

theorem strip_unwrap {n fs v} : ∀ {t : STy}, t.stripOption = .struct n fs v → t.unwrap = .struct n fs v
  | .option t, h => strip_unwrap (t := t) h
  | .struct .., h => h
  | .prim _, h | .list _, h | .tuple _, h | .dict _ _, h | .union _, h | .enum _ _, h | .literal _, h | .nothing, h => nomatch h

theorem valid_strip (leaf : STy → Val → Prop) {n fs v} {x : Val} : ∀ {t : STy}, t.stripOption = .struct n fs v →
    Valid leaf t x → x = .none ∨ Valid leaf (.struct n fs v) x
  | .option _, h, hx => hx.elim .inl (valid_strip leaf h)
  | .struct .., h, hx => by cases h; exact .inr hx
  | .prim _, h, _ | .list _, h, _ | .tuple _, h, _ | .dict _ _, h, _ | .union _, h, _ | .enum _ _, h, _ | .literal _, h, _ | .nothing, h, _ =>
    nomatch h

theorem valid_rewrap (leaf : STy → Val → Prop) {s : STy} {n fs v} {x : Val} (hx : Valid leaf s x) : ∀ {t : STy},
    t.stripOption = .struct n fs v → Valid leaf (s.rewrap t) x
  | .option _, h => .inr (valid_rewrap leaf hx h)
  | .struct .., _ => hx
  | .prim _, h | .list _, h | .tuple _, h | .dict _ _, h | .union _, h | .enum _ _, h | .literal _, h | .nothing, h => nomatch h

theorem valid_rewrap_none (leaf : STy → Val → Prop) {t s : STy} {n fs v} (h : t.stripOption = .struct n fs v)
    (hx : Valid leaf t .none) : Valid leaf (s.rewrap t) .none := by
  cases t with
  | option t => exact .inl rfl
  | struct =>
    obtain ⟨d, hd, -⟩ := (valid_struct ..).1 hx
    exact (nomatch hd)
  | _ => exact (nomatch h)

theorem omit_setType {g : SFld} {s : STy} (h : Omit g) (hs : ∀ n fs v, g.type = .struct n fs v → (∀ k f, dget fs k = some f → Omit f) → ∃ m gs w, s = .struct m gs w ∧ ∀ k f, dget gs k = some f → Omit f) :
    Omit (g.setType (s.rewrap g.type)) := by
  cases h with
  | dflt => exact .dflt
  | struct h =>
    obtain ⟨m, gs, w, rfl, hg⟩ := hs _ _ _ rfl h
    exact .struct hg

/-- removing a field leaves a struct, in which everything may be left out if that was so before -/
theorem remove_omit : ∀ (p : List String) {n fs v s' r}, StructPath (.struct n fs v) p → removeSchema (.struct n fs v) p = .ok (s', r) →
    ∃ fs', s' = .struct n fs' v ∧ ((∀ k f, dget fs k = some f → Omit f) → ∀ k f, dget fs' k = some f → Omit f) := by
  intro p
  induction p with
  | nil => intro n fs v s' r hp; exact (nomatch hp)
  | cons k ks ih =>
    intro n fs v s' r hp h
    cases ks with
    | nil =>
      simp only [removeSchema] at h
      cases hg : dget fs k with
      | none => rw [hg] at h; cases h; exact ⟨fs, rfl, fun h => h⟩
      | some f =>
        rw [hg] at h
        cases h
        refine ⟨_, rfl, fun ho q g hq => ?_⟩
        by_cases hk : k = q
        · subst hk; rw [dget_ddel_self] at hq; exact (nomatch hq)
        · rw [dget_ddel_ne _ hk] at hq; exact ho q g hq
    | cons k' ks =>
      simp only [removeSchema] at h
      cases hg : dget fs k with
      | none => rw [hg] at h; cases h; exact ⟨fs, rfl, fun h => h⟩
      | some f =>
        rw [hg] at h
        cases hp with
        | absent h0 => rw [hg] at h0; exact (nomatch h0)
        | @under _ _ _ _ _ _ f' h0 hp =>
          rw [hg] at h0; cases h0
          have hst : ∃ m gs w, f.type.stripOption = .struct m gs w := by
            cases hh : f.type.stripOption <;> rw [hh] at hp <;> first | exact ⟨_, _, _, rfl⟩ | exact (nomatch hp)
          obtain ⟨m, gs, w, hst⟩ := hst
          rw [hst] at hp
          simp only [bind, Except.bind, pure, Except.pure] at h
          rw [strip_unwrap hst] at h
          cases h1 : removeSchema (.struct m gs w) (k' :: ks) with
          | error e => rw [h1] at h; exact (nomatch h)
          | ok q =>
            obtain ⟨t', r'⟩ := q
            rw [h1] at h
            cases h
            obtain ⟨gs', rfl, ho'⟩ := ih hp h1
            refine ⟨_, rfl, fun ho q g hq => ?_⟩
            by_cases hk : k = q
            · subst hk
              rw [dget_dset_self] at hq
              cases hq
              refine omit_setType (ho _ _ hg) ?_
              intro n1 fs1 v1 h1 h2
              rw [h1] at hst
              cases hst
              exact ⟨m, gs', w, rfl, ho' h2⟩
            · rw [dget_dset_ne _ _ hk] at hq; exact ho q g hq

/-- inserting a field that may be left out -/
theorem insert_omit (f : SFld) (hf : Omit f) : ∀ (p : List String) {n fs v s'}, StructPath (.struct n fs v) p →
    insertSchema f (.struct n fs v) p = .ok s' →
    ∃ fs', s' = .struct n fs' v ∧ ((∀ k f, dget fs k = some f → Omit f) → ∀ k f, dget fs' k = some f → Omit f) := by
  intro p
  induction p with
  | nil => intro n fs v s' hp; exact (nomatch hp)
  | cons k ks ih =>
    intro n fs v s' hp h
    cases ks with
    | nil =>
      simp only [insertSchema] at h
      cases h
      refine ⟨_, rfl, fun ho q g hq => ?_⟩
      by_cases hk : k = q
      · subst hk; rw [dget_dset_self] at hq; cases hq; exact hf
      · rw [dget_dset_ne _ _ hk] at hq; exact ho q g hq
    | cons k' ks =>
      simp only [insertSchema, bind, Except.bind, pure, Except.pure] at h
      cases hg : dget fs k with
      | none =>
        rw [hg] at h
        simp only [Option.getD, freshField, SFld.type, STy.unwrap, SFld.setType] at h
        cases h1 : insertSchema f (.struct "" [] (some 0)) (k' :: ks) with
        | error e => rw [h1] at h; exact (nomatch h)
        | ok t' =>
          rw [h1] at h
          cases h
          have hp' : StructPath (.struct "" [] (some 0)) (k' :: ks) := by
            cases ks with
            | nil => exact .last
            | cons => exact .absent rfl
          obtain ⟨gs', rfl, ho'⟩ := ih hp' h1
          refine ⟨_, rfl, fun ho q g hq => ?_⟩
          by_cases hk : k = q
          · subst hk
            rw [dget_dset_self] at hq
            cases hq
            exact .struct (ho' (fun k f h => nomatch h))
          · rw [dget_dset_ne _ _ hk] at hq; exact ho q g hq
      | some g0 =>
        rw [hg] at h
        simp only [Option.getD] at h
        cases hp with
        | absent h0 => rw [hg] at h0; exact (nomatch h0)
        | @under _ _ _ _ _ _ f' h0 hp =>
          rw [hg] at h0; cases h0
          have hst : ∃ m gs w, g0.type.stripOption = .struct m gs w := by
            cases hh : g0.type.stripOption <;> rw [hh] at hp <;> first | exact ⟨_, _, _, rfl⟩ | exact (nomatch hp)
          obtain ⟨m, gs, w, hst⟩ := hst
          rw [hst] at hp
          rw [strip_unwrap hst] at h
          cases h1 : insertSchema f (.struct m gs w) (k' :: ks) with
          | error e => rw [h1] at h; exact (nomatch h)
          | ok t' =>
            rw [h1] at h
            cases h
            obtain ⟨gs', rfl, ho'⟩ := ih hp h1
            refine ⟨_, rfl, fun ho q g hq => ?_⟩
            by_cases hk : k = q
            · subst hk
              rw [dget_dset_self] at hq
              cases hq
              refine omit_setType (ho _ _ hg) ?_
              intro n1 fs1 v1 h1 h2
              rw [h1] at hst
              cases hst
              exact ⟨m, gs', w, rfl, ho' h2⟩
            · rw [dget_dset_ne _ _ hk] at hq; exact ho q g hq

/-- the struct on the way -/
theorem path_struct {n fs v k k' ks g} (hg : dget fs k = some g) (hp : StructPath (.struct n fs v) (k :: k' :: ks)) :
    ∃ m gs w, g.type.stripOption = .struct m gs w ∧ StructPath (.struct m gs w) (k' :: ks) := by
  cases hp with
  | absent h0 => rw [hg] at h0; exact (nomatch h0)
  | @under _ _ _ _ _ _ f' h0 hp =>
    rw [hg] at h0; cases h0
    cases hh : g.type.stripOption <;> rw [hh] at hp <;> first | exact ⟨_, _, _, rfl, hp⟩ | exact (nomatch hp)

theorem dhas_dset_ne {α : Type} (d : List (String × α)) {k q : String} (v : α) (h : k ≠ q) : dhas (dset d k v) q = dhas d q := by
  simp only [dhas, dget_dset_ne _ _ h]

theorem dhas_ddel_ne {α : Type} (d : List (String × α)) {k q : String} (h : k ≠ q) : dhas (ddel d k) q = dhas d q := by
  simp only [dhas, dget_ddel_ne _ h]

/-- Replacing the type of a field, and the value of its entry (if there is one), by others that belong together -/
theorem valid_change (leaf : STy → Val → Prop) {n fs v k g g'} {d d' : List (String × Val)} (hv : Valid leaf (.struct n fs v) (.dict d))
    (hg : dget fs k = some g) (hk : k ≠ WEAK_REF) (hn : (dkeys d').Nodup) (hd : ∀ q, q ≠ k → dget d' q = dget d q)
    (hx : ∀ x, dget d' k = some x → Valid leaf g'.type x)
    (hr : (∃ x, dget d k = some x ∧ x.isWeak = false) ∨ Omit g → (∃ x, dget d' k = some x ∧ x.isWeak = false) ∨ Omit g') :
    Valid leaf (.struct n (dset fs k g') v) (.dict d') := by
  obtain ⟨d0, h0, hn0, hk0, hr0⟩ := (valid_struct ..).1 hv
  cases h0
  refine (valid_struct ..).2 ⟨d', rfl, hn, ?_, ?_⟩
  · intro q y hy
    by_cases hq : k = q
    · subst hq
      exact .inr ⟨g', dget_dset_self .., hx y hy⟩
    · rw [hd q (Ne.symm hq)] at hy
      rcases hk0 q y hy with h | ⟨f, hf, hvf⟩
      · exact .inl h
      · exact .inr ⟨f, by rw [dget_dset_ne _ _ hq]; exact hf, hvf⟩
  · intro hw q f hf
    have hw' : dhas d WEAK_REF = false := by
      simp only [dhas, hd _ (Ne.symm hk)] at hw
      exact hw
    by_cases hq : k = q
    · subst hq
      rw [dget_dset_self] at hf
      cases hf
      exact hr (hr0 hw' _ _ hg)
    · rw [dget_dset_ne _ _ hq] at hf
      rcases hr0 hw' q f hf with ⟨y, hy, hy'⟩ | h
      · exact .inl ⟨y, by rw [hd q (Ne.symm hq)]; exact hy, hy'⟩
      · exact .inr h

theorem remove_valid (leaf : STy → Val → Prop) : ∀ (p : List String) {n fs v x s' r}, StructPath (.struct n fs v) p → Clean p →
    Valid leaf (.struct n fs v) x → removeSchema (.struct n fs v) p = .ok (s', r) →
    ∃ x' rv, removePath x p = .ok (x', rv) ∧ Valid leaf s' x' ∧ x'.isWeak = x.isWeak ∧
      (∀ y, rv = some y → ∃ f, r = some f ∧ Valid leaf f.type y) ∧
      (rv = none → x' = x) := by
  intro p
  induction p with
  | nil => intro n fs v x s' r hp; exact (nomatch hp)
  | cons k ks ih =>
    intro n fs v x s' r hp hw hv h
    have hkr : ¬ Reserved k := hw k List.mem_cons_self
    have hkw : k ≠ WEAK_REF := fun h => hkr (.inl h)
    obtain ⟨d, rfl, hnd, hkeys, hreq⟩ := (valid_struct ..).1 hv
    cases ks with
    | nil =>
      simp only [removeSchema] at h
      rw [removePath_single_dict]
      cases hg : dget fs k with
      | none =>
        rw [hg] at h
        cases h
        have hdk : dget d k = none := by
          cases hh : dget d k with
          | none => rfl
          | some y =>
            rcases hkeys k y hh with h | ⟨f, hf, -⟩
            · exact absurd h hkr
            · rw [hg] at hf; exact (nomatch hf)
        rw [hdk]
        exact ⟨_, _, rfl, hv, rfl, (fun y h => nomatch h), fun _ => rfl⟩
      | some f =>
        rw [hg] at h
        cases h
        cases hdk : dget d k with
        | none =>
          refine ⟨_, _, rfl, ?_, rfl, (fun y h => nomatch h), fun _ => rfl⟩
          refine (valid_struct ..).2 ⟨d, rfl, hnd, ?_, ?_⟩
          · intro q y hy
            rcases hkeys q y hy with h | ⟨f', hf', hvf⟩
            · exact .inl h
            · refine .inr ⟨f', ?_, hvf⟩
              rw [dget_ddel_ne]
              · exact hf'
              · rintro rfl; rw [hdk] at hy; exact (nomatch hy)
          · intro hw' q f' hf'
            by_cases hq : k = q
            · subst hq; rw [dget_ddel_self] at hf'; exact (nomatch hf')
            · rw [dget_ddel_ne _ hq] at hf'
              exact hreq hw' q f' hf'
        | some y =>
          refine ⟨_, _, rfl, ?_, ?_, ?_, fun h => nomatch h⟩
          · refine (valid_struct ..).2 ⟨_, rfl, nodup_ddel _ _ hnd, ?_, ?_⟩
            · intro q z hz
              by_cases hq : k = q
              · subst hq; rw [dget_ddel_self] at hz; exact (nomatch hz)
              · rw [dget_ddel_ne _ hq] at hz
                rcases hkeys q z hz with h | ⟨f', hf', hvf⟩
                · exact .inl h
                · exact .inr ⟨f', by rw [dget_ddel_ne _ hq]; exact hf', hvf⟩
            · intro hw' q f' hf'
              rw [dhas_ddel_ne _ hkw] at hw'
              by_cases hq : k = q
              · subst hq; rw [dget_ddel_self] at hf'; exact (nomatch hf')
              · rw [dget_ddel_ne _ hq] at hf' ⊢
                exact hreq hw' q f' hf'
          · exact dhas_ddel_ne _ hkw
          · intro z hz
            cases hz
            rcases hkeys k y hdk with h | ⟨f', hf', hvf⟩
            · exact absurd h hkr
            · rw [hg] at hf'
              cases hf'
              exact ⟨f, rfl, hvf⟩
    | cons k' ks =>
      have hw' : Clean (k' :: ks) := fun q h => hw q (List.mem_cons_of_mem _ h)
      simp only [removeSchema] at h
      rw [removePath_cons_dict]
      cases hg : dget fs k with
      | none =>
        rw [hg] at h
        cases h
        have hdk : dget d k = none := by
          cases hh : dget d k with
          | none => rfl
          | some y =>
            rcases hkeys k y hh with h | ⟨f, hf, -⟩
            · exact absurd h hkr
            · rw [hg] at hf; exact (nomatch hf)
        rw [hdk]
        exact ⟨_, _, rfl, hv, rfl, (fun y h => nomatch h), fun _ => rfl⟩
      | some g =>
        rw [hg] at h
        obtain ⟨m, gs, w, hst, hp'⟩ := path_struct hg hp
        simp only [bind, Except.bind, pure, Except.pure] at h
        rw [strip_unwrap hst] at h
        cases h1 : removeSchema (.struct m gs w) (k' :: ks) with
        | error e => rw [h1] at h; exact (nomatch h)
        | ok q =>
          obtain ⟨t', r'⟩ := q
          rw [h1] at h
          cases h
          obtain ⟨gs', rfl, ho'⟩ := remove_omit _ hp' h1
          have homit : Omit g → Omit (g.setType ((STy.struct m gs' w).rewrap g.type)) := by
            intro ho
            refine omit_setType ho ?_
            intro n1 fs1 v1 h1 h2
            rw [h1] at hst
            cases hst
            exact ⟨m, gs', w, rfl, ho' h2⟩
          have htype : (g.setType ((STy.struct m gs' w).rewrap g.type)).type = (STy.struct m gs' w).rewrap g.type := by cases g; rfl
          cases hdk : dget d k with
          | none =>
            refine ⟨_, _, rfl, valid_change leaf hv hg hkw hnd (fun _ _ => rfl) ?_ ?_, rfl, (fun y h => nomatch h), fun _ => rfl⟩
            · intro z hz; rw [hdk] at hz; exact (nomatch hz)
            · rintro (⟨z, hz, -⟩ | ho)
              · rw [hdk] at hz; exact (nomatch hz)
              · exact .inr (homit ho)
          | some y =>
            have hvy : Valid leaf g.type y := by
              rcases hkeys k y hdk with h | ⟨f', hf', hvf⟩
              · exact absurd h hkr
              · rw [hg] at hf'; cases hf'; exact hvf
            rcases valid_strip leaf hst hvy with rfl | hvs
            · simp only [Val.isNone, if_true]
              refine ⟨_, _, rfl, valid_change leaf hv hg hkw hnd (fun _ _ => rfl) ?_ ?_, rfl, (fun y h => nomatch h), fun _ => rfl⟩
              · intro z hz
                rw [hdk] at hz
                cases hz
                rw [htype]
                exact valid_rewrap_none leaf hst hvy
              · intro _
                exact .inl ⟨_, hdk, rfl⟩
            · obtain ⟨dy, rfl, -⟩ := (valid_struct ..).1 hvs
              obtain ⟨y', rv, e1, e2, e3, e4, e5⟩ := ih hp' hw' hvs h1
              simp only [Val.isNone, Bool.false_eq_true, if_false, e1]
              refine ⟨_, _, rfl, valid_change leaf hv hg hkw (nodup_dset _ _ _ hnd) (fun q hq => dget_dset_ne _ _ (Ne.symm hq)) ?_ ?_,
                dhas_dset_ne _ _ hkw, ?_, ?_⟩
              · intro z hz
                rw [dget_dset_self] at hz
                cases hz
                rw [htype]
                exact valid_rewrap leaf e2 hst
              · rintro (⟨z, hz, hz'⟩ | ho)
                · rw [hdk] at hz
                  cases hz
                  exact .inl ⟨_, dget_dset_self .., e3.trans hz'⟩
                · exact .inr (homit ho)
              · intro z hz
                exact e4 z hz
              · intro hr
                rw [e5 hr, dset_same hdk]

theorem insert_struct (f : SFld) : ∀ (p : List String) {n fs v s'}, StructPath (.struct n fs v) p →
    insertSchema f (.struct n fs v) p = .ok s' → ∃ fs', s' = .struct n fs' v := by
  intro p n fs v s' hp h
  match p, hp with
  | [k], _ => simp only [insertSchema] at h; cases h; exact ⟨_, rfl⟩
  | k :: k' :: ks, _ =>
    simp only [insertSchema, bind, Except.bind, pure, Except.pure] at h
    cases h1 : insertSchema f ((dget fs k).getD (freshField k)).type.unwrap (k' :: ks) with
    | error e => rw [h1] at h; exact (nomatch h)
    | ok t' => rw [h1] at h; cases h; exact ⟨_, rfl⟩

theorem fresh_path (k : String) (ks : List String) : StructPath (.struct "" [] (some 0)) (k :: ks) := by
  cases ks with
  | nil => exact .last
  | cons => exact .absent rfl

theorem valid_empty (leaf : STy → Val → Prop) {n fs v} (h : ∀ k f, dget fs k = some f → Omit f) : Valid leaf (.struct n fs v) (.dict []) :=
  (valid_struct ..).2 ⟨[], rfl, List.nodup_nil, (fun _ _ h => nomatch h), fun _ k f hf => .inr (h k f hf)⟩

theorem valid_weak (leaf : STy → Val → Prop) {n fs v} : Valid leaf (.struct n fs v) (.dict [(WEAK_REF, .bool true)]) := by
  refine (valid_struct ..).2 ⟨_, rfl, by simp [dkeys], ?_, ?_⟩
  · intro k y hy
    by_cases hk : WEAK_REF = k
    · exact .inl (.inl hk.symm)
    · simp [dget, hk] at hy
  · intro h
    exact absurd h (by simp [dhas, dget])

theorem valid_unmark (leaf : STy → Val → Prop) {n fs v d} (hv : Valid leaf (.struct n fs v) (.dict d))
    (h : ∀ k f, dget fs k = some f → Omit f) : Valid leaf (.struct n fs v) (.dict (ddel d WEAK_REF)) := by
  obtain ⟨d0, h0, hn0, hk0, hr0⟩ := (valid_struct ..).1 hv
  cases h0
  refine (valid_struct ..).2 ⟨_, rfl, nodup_ddel _ _ hn0, ?_, fun _ k f hf => .inr (h k f hf)⟩
  intro k y hy
  by_cases hk : WEAK_REF = k
  · exact .inl (.inl hk.symm)
  · rw [dget_ddel_ne _ hk] at hy
    exact hk0 k y hy

theorem room_unmark {s d p} (h : Room s (.dict d) p) (hw : WEAK_REF ∉ p) : Room s (.dict (ddel d WEAK_REF)) p := by
  cases h with
  | last => exact .last
  | fresh h => exact .fresh h
  | step h1 h2 h3 h4 h5 =>
    have hk : WEAK_REF ≠ _ := fun h => hw (h ▸ List.mem_cons_self)
    refine .step h1 h2 ?_ ?_ ?_
    · rw [dget_ddel_ne _ hk]; exact h3
    · rw [dget_ddel_ne _ hk]; exact h4
    · rw [dget_ddel_ne _ hk]; exact h5

/-- a valid value of the field is stored at the path -/
theorem insert_valid (leaf : STy → Val → Prop) (f : SFld) (y : Val) (cn : Bool) (hy : Valid leaf f.type y) (hyw : y.isWeak = false ∨ Omit f)
    (hcn : cn = false → Omit f) : ∀ (p : List String) {n fs v x s'}, StructPath (.struct n fs v) p → Clean p →
    Valid leaf (.struct n fs v) x → insertSchema f (.struct n fs v) p = .ok s' → (cn = true → Room (.struct n fs v) x p) →
    ∃ x', insertPath y cn x p = .ok x' ∧ Valid leaf s' x' ∧ x'.isWeak = x.isWeak := by
  intro p
  induction p with
  | nil => intro n fs v x s' hp; exact (nomatch hp)
  | cons k ks ih =>
    intro n fs v x s' hp hw hv h hroom
    have hkr : ¬ Reserved k := hw k List.mem_cons_self
    have hkw : k ≠ WEAK_REF := fun h => hkr (.inl h)
    obtain ⟨d, rfl, hnd, hkeys, hreq⟩ := (valid_struct ..).1 hv
    cases ks with
    | nil =>
      simp only [insertSchema] at h
      cases h
      refine ⟨.dict (dset d k y), rfl, ?_, dhas_dset_ne _ _ hkw⟩
      refine (valid_struct ..).2 ⟨_, rfl, nodup_dset _ _ _ hnd, ?_, ?_⟩
      · intro q z hz
        by_cases hq : k = q
        · subst hq
          rw [dget_dset_self] at hz
          cases hz
          exact .inr ⟨f, dget_dset_self .., hy⟩
        · rw [dget_dset_ne _ _ hq] at hz
          rcases hkeys q z hz with h | ⟨f', hf', hvf⟩
          · exact .inl h
          · exact .inr ⟨f', by rw [dget_dset_ne _ _ hq]; exact hf', hvf⟩
      · intro hw' q f' hf'
        rw [dhas_dset_ne _ _ hkw] at hw'
        by_cases hq : k = q
        · subst hq
          rw [dget_dset_self] at hf'
          cases hf'
          exact hyw.imp (fun h => ⟨y, dget_dset_self .., h⟩) id
        · rw [dget_dset_ne _ _ hq] at hf' ⊢
          exact hreq hw' q f' hf'
    | cons k' ks =>
      have hw' : Clean (k' :: ks) := fun q h => hw q (List.mem_cons_of_mem _ h)
      simp only [insertSchema, bind, Except.bind, pure, Except.pure] at h
      rw [insertPath_cons_dict]
      cases hg : dget fs k with
      | none =>
        rw [hg] at h
        simp only [Option.getD, freshField, SFld.type, STy.unwrap, SFld.setType] at h
        have hdk : dget d k = none := by
          cases hh : dget d k with
          | none => rfl
          | some y =>
            rcases hkeys k y hh with h | ⟨f, hf, -⟩
            · exact absurd h hkr
            · rw [hg] at hf; exact (nomatch hf)
        have hhas : dhas d k = false := by simp [dhas, hdk]
        cases h1 : insertSchema f (.struct "" [] (some 0)) (k' :: ks) with
        | error e => rw [h1] at h; exact (nomatch h)
        | ok t' =>
          rw [h1] at h
          cases h
          obtain ⟨gs', rfl⟩ := insert_struct f _ (fresh_path ..) h1
          have key : ∀ dc : List (String × Val), Valid leaf (.struct "" [] (some 0)) (.dict dc) →
              (cn = false → dhas dc WEAK_REF = true) → (cn = true → dhas dc WEAK_REF = false) →
              ∃ x', (match insertPath y cn (.dict dc) (k' :: ks) with
                | .ok c' => (Except.ok (.dict (dset (if dhas d k then d else dset d k (freshObj cn)) k c')) : Except Err Val)
                | .error e => .error e) = .ok x' ∧
                Valid leaf (.struct n (dset fs k (.mk k (.struct "" gs' (some 0)) .none false .none)) v) x' ∧ x'.isWeak = (Val.dict d).isWeak := by
            intro dc hvc hc1 hc2
            obtain ⟨c', e1, e2, e3⟩ := ih (fresh_path ..) hw' hvc h1 (fun _ => by
              cases ks with
              | nil => exact .last
              | cons => exact .fresh rfl)
            rw [e1, hhas]
            simp only [Bool.false_eq_true, if_false]
            refine ⟨_, rfl, ?_, ?_⟩
            · refine (valid_struct ..).2 ⟨_, rfl, nodup_dset _ _ _ (nodup_dset _ _ _ hnd), ?_, ?_⟩
              · intro q z hz
                by_cases hq : k = q
                · subst hq
                  rw [dget_dset_self] at hz
                  cases hz
                  exact .inr ⟨_, dget_dset_self .., e2⟩
                · rw [dget_dset_ne _ _ hq, dget_dset_ne _ _ hq] at hz
                  rcases hkeys q z hz with h | ⟨f', hf', hvf⟩
                  · exact .inl h
                  · exact .inr ⟨f', by rw [dget_dset_ne _ _ hq]; exact hf', hvf⟩
              · intro hw' q f' hf'
                rw [dhas_dset_ne _ _ hkw, dhas_dset_ne _ _ hkw] at hw'
                by_cases hq : k = q
                · subst hq
                  rw [dget_dset_self] at hf'
                  cases hf'
                  cases cn with
                  | true => exact .inl ⟨c', dget_dset_self .., e3.trans (hc2 rfl)⟩
                  | false =>
                    obtain ⟨gs2, h2, ho⟩ := insert_omit f (hcn rfl) _ (fresh_path ..) h1
                    cases h2
                    exact .inr (.struct (ho (fun k f h => nomatch h)))
                · rw [dget_dset_ne _ _ hq] at hf'
                  rw [dget_dset_ne _ _ hq, dget_dset_ne _ _ hq]
                  exact hreq hw' q f' hf'
            · simp only [Val.isWeak]
              rw [dhas_dset_ne _ _ hkw, dhas_dset_ne _ _ hkw]
          rw [hdk]
          cases cn with
          | true =>
            simp only [Option.getD, freshObj, if_true]
            have : (if (true && dhas ([] : List (String × Val)) WEAK_REF) = true then ddel ([] : List (String × Val)) WEAK_REF else []) = [] := rfl
            rw [this]
            exact key [] (valid_empty leaf (fun k f h => nomatch h)) (fun h => nomatch h) (fun _ => rfl)
          | false =>
            simp only [Option.getD, freshObj, Bool.false_eq_true, if_false, Bool.false_and]
            exact key _ (valid_weak leaf) (fun _ => by simp [dhas, dget]) (fun h => nomatch h)
      | some g =>
        rw [hg] at h
        simp only [Option.getD] at h
        obtain ⟨m, gs, w, hst, hp'⟩ := path_struct hg hp
        rw [strip_unwrap hst] at h
        cases h1 : insertSchema f (.struct m gs w) (k' :: ks) with
        | error e => rw [h1] at h; exact (nomatch h)
        | ok t' =>
          rw [h1] at h
          cases h
          obtain ⟨gs', rfl⟩ := insert_struct f _ hp' h1
          have homit : cn = false → Omit g → Omit (g.setType ((STy.struct m gs' w).rewrap g.type)) := by
            intro hc ho
            refine omit_setType ho ?_
            intro n1 fs1 v1 h3 h4
            obtain ⟨gs2, h5, ho'⟩ := insert_omit f (hcn hc) _ hp' h1
            cases h5
            rw [h3] at hst
            cases hst
            exact ⟨m, gs', w, rfl, ho' h4⟩
          have htype : (g.setType ((STy.struct m gs' w).rewrap g.type)).type = (STy.struct m gs' w).rewrap g.type := by cases g; rfl
          -- the value below is a dict
          have key : ∀ (dc : List (String × Val)), Valid leaf (.struct m gs w) (.dict dc) →
              (cn = true → dhas dc WEAK_REF = false) → (cn = false → dhas dc WEAK_REF = true → ∀ z, dget d k = some z → z.isWeak = true) →
              (cn = true → Room (.struct m gs w) (.dict dc) (k' :: ks)) →
              ∃ x', (match insertPath y cn (.dict dc) (k' :: ks) with
                | .ok c' => (Except.ok (.dict (dset (if dhas d k then d else dset d k (freshObj cn)) k c')) : Except Err Val)
                | .error e => .error e) = .ok x' ∧
                Valid leaf (.struct n (dset fs k (g.setType ((STy.struct m gs' w).rewrap g.type))) v) x' ∧ x'.isWeak = (Val.dict d).isWeak := by
            intro dc hvc hc1 hc2 hr
            obtain ⟨c', e1, e2, e3⟩ := ih hp' hw' hvc h1 hr
            rw [e1]
            have hset : ∀ q, q ≠ k → dget (dset (if dhas d k then d else dset d k (freshObj cn)) k c') q = dget d q := by
              intro q hq
              rw [dget_dset_ne _ _ (Ne.symm hq)]
              split
              · rfl
              · rw [dget_dset_ne _ _ (Ne.symm hq)]
            refine ⟨_, rfl, valid_change leaf hv hg hkw ?_ hset ?_ ?_, ?_⟩
            · refine nodup_dset _ _ _ ?_
              split
              · exact hnd
              · exact nodup_dset _ _ _ hnd
            · intro z hz
              rw [dget_dset_self] at hz
              cases hz
              rw [htype]
              exact valid_rewrap leaf e2 hst
            · intro ho
              cases hwc : dhas dc WEAK_REF with
              | false => exact .inl ⟨c', dget_dset_self .., e3.trans hwc⟩
              | true =>
                cases cn with
                | true => rw [hc1 rfl] at hwc; exact (nomatch hwc)
                | false =>
                  rcases ho with ⟨z, hz, hz'⟩ | ho
                  · rw [hc2 rfl hwc z hz] at hz'; exact (nomatch hz')
                  · exact .inr (homit rfl ho)
            · exact congrArg Option.isSome (hset _ (Ne.symm hkw))
          have room : cn = true → (∀ x, dget d k = some x → x.isWeak = true → ∀ k f, dget gs k = some f → Omit f) ∧
              (dget d k = none → ∀ k f, dget gs k = some f → Omit f) ∧ Room (.struct m gs w) ((dget d k).getD (.dict [])) (k' :: ks) := by
            intro hc
            cases hroom hc with
            | fresh h0 => rw [hg] at h0; exact (nomatch h0)
            | step a1 a2 a3 a4 a5 =>
              rw [hg] at a1
              cases a1
              rw [hst] at a2
              cases a2
              exact ⟨a3, a4, a5⟩
          cases hdk : dget d k with
          | none =>
            cases cn with
            | true =>
              obtain ⟨a3, a4, a5⟩ := room rfl
              rw [hdk] at a5
              simp only [Option.getD, freshObj, if_true]
              have : (if (true && dhas ([] : List (String × Val)) WEAK_REF) = true then ddel ([] : List (String × Val)) WEAK_REF else []) = [] := rfl
              rw [this]
              exact key [] (valid_empty leaf (a4 hdk)) (fun _ => rfl) (fun h => nomatch h) (fun _ => a5)
            | false =>
              simp only [Option.getD, freshObj, Bool.false_eq_true, if_false, Bool.false_and]
              exact key _ (valid_weak leaf) (fun h => nomatch h) (fun _ _ z hz => by rw [hdk] at hz; exact (nomatch hz)) (fun h => nomatch h)
          | some z =>
            have hvz : Valid leaf g.type z := by
              rcases hkeys k z hdk with h | ⟨f', hf', hvf⟩
              · exact absurd h hkr
              · rw [hg] at hf'; cases hf'; exact hvf
            simp only [Option.getD]
            rcases valid_strip leaf hst hvz with rfl | hvs
            · refine ⟨_, rfl, valid_change leaf hv hg hkw hnd (fun _ _ => rfl) ?_ (fun _ => .inl ⟨_, hdk, rfl⟩), rfl⟩
              intro u hu
              rw [hdk] at hu
              cases hu
              rw [htype]
              exact valid_rewrap_none leaf hst hvz
            · obtain ⟨dz, rfl, -⟩ := (valid_struct ..).1 hvs
              cases cn with
              | true =>
                obtain ⟨a3, a4, a5⟩ := room rfl
                rw [hdk] at a5
                cases hwz : dhas dz WEAK_REF with
                | true =>
                  have he : (if (true && dhas dz WEAK_REF) = true then ddel dz WEAK_REF else dz) = ddel dz WEAK_REF := by simp [hwz]
                  dsimp only
                  rw [he]
                  exact key _ (valid_unmark leaf hvs (a3 _ hdk hwz)) (fun _ => by simp [dhas]) (fun h => nomatch h)
                    (fun _ => room_unmark a5 hw'.weak)
                | false =>
                  have he : (if (true && dhas dz WEAK_REF) = true then ddel dz WEAK_REF else dz) = dz := by simp [hwz]
                  dsimp only
                  rw [he]
                  exact key _ hvs (fun _ => hwz) (fun h => nomatch h) (fun _ => a5)
              | false =>
                simp only [Bool.false_and, Bool.false_eq_true, if_false]
                exact key _ hvs (fun h => nomatch h) (fun _ h u hu => by rw [hdk] at hu; cases hu; exact h) (fun h => nomatch h)

theorem NewPath.struct {s p} (h : NewPath s p) : StructPath s p := by
  induction h with
  | last => exact .last
  | absent h => exact .absent h
  | under h _ ih => exact .under h ih

/-- the document has no value for the new field, which may be left out -/
theorem insert_absent (leaf : STy → Val → Prop) (f : SFld) (hf : Omit f) : ∀ (p : List String) {n fs v x s'},
    NewPath (.struct n fs v) p → Clean p → Valid leaf (.struct n fs v) x → insertSchema f (.struct n fs v) p = .ok s' →
    Valid leaf s' x := by
  intro p
  induction p with
  | nil => intro n fs v x s' hp; exact (nomatch hp)
  | cons k ks ih =>
    intro n fs v x s' hp hw hv h
    have hkr : ¬ Reserved k := hw k List.mem_cons_self
    have hkw : k ≠ WEAK_REF := fun h => hkr (.inl h)
    obtain ⟨d, rfl, hnd, hkeys, hreq⟩ := (valid_struct ..).1 hv
    -- a new field
    have new : ∀ g : SFld, dget fs k = none → Omit g → Valid leaf (.struct n (dset fs k g) v) (.dict d) := by
      intro g hg ho
      refine (valid_struct ..).2 ⟨d, rfl, hnd, ?_, ?_⟩
      · intro q z hz
        rcases hkeys q z hz with h | ⟨f', hf', hvf⟩
        · exact .inl h
        · refine .inr ⟨f', ?_, hvf⟩
          rw [dget_dset_ne]
          · exact hf'
          · rintro rfl; rw [hg] at hf'; exact (nomatch hf')
      · intro hw' q f' hf'
        by_cases hq : k = q
        · subst hq
          rw [dget_dset_self] at hf'
          cases hf'
          exact .inr ho
        · rw [dget_dset_ne _ _ hq] at hf'
          exact hreq hw' q f' hf'
    cases ks with
    | nil =>
      simp only [insertSchema] at h
      cases h
      cases hp with
      | last h0 => exact new f h0 hf
    | cons k' ks =>
      have hw' : Clean (k' :: ks) := fun q h => hw q (List.mem_cons_of_mem _ h)
      simp only [insertSchema, bind, Except.bind, pure, Except.pure] at h
      cases hg : dget fs k with
      | none =>
        rw [hg] at h
        simp only [Option.getD, freshField, SFld.type, STy.unwrap, SFld.setType] at h
        cases h1 : insertSchema f (.struct "" [] (some 0)) (k' :: ks) with
        | error e => rw [h1] at h; exact (nomatch h)
        | ok t' =>
          rw [h1] at h
          cases h
          obtain ⟨gs', rfl, ho⟩ := insert_omit f hf _ (fresh_path ..) h1
          exact new _ hg (.struct (ho (fun k f h => nomatch h)))
      | some g =>
        rw [hg] at h
        simp only [Option.getD] at h
        obtain ⟨m, gs, w, hst, hp'⟩ := path_struct hg hp.struct
        have hp'' : NewPath (.struct m gs w) (k' :: ks) := by
          cases hp with
          | absent h0 => rw [hg] at h0; exact (nomatch h0)
          | under h0 h1 => rw [hg] at h0; cases h0; rw [hst] at h1; exact h1
        rw [strip_unwrap hst] at h
        cases h1 : insertSchema f (.struct m gs w) (k' :: ks) with
        | error e => rw [h1] at h; exact (nomatch h)
        | ok t' =>
          rw [h1] at h
          cases h
          obtain ⟨gs', rfl, ho⟩ := insert_omit f hf _ hp' h1
          have htype : (g.setType ((STy.struct m gs' w).rewrap g.type)).type = (STy.struct m gs' w).rewrap g.type := by cases g; rfl
          refine valid_change leaf hv hg hkw hnd (fun _ _ => rfl) ?_ ?_
          · intro z hz
            rw [htype]
            have hvz : Valid leaf g.type z := by
              rcases hkeys k z hz with h | ⟨f', hf', hvf⟩
              · exact absurd h hkr
              · rw [hg] at hf'; cases hf'; exact hvf
            rcases valid_strip leaf hst hvz with rfl | hvs
            · exact valid_rewrap_none leaf hst hvz
            · exact valid_rewrap leaf (ih hp'' hw' hvs h1) hst
          · rintro (h | h)
            · exact .inl h
            · refine .inr (omit_setType h ?_)
              intro n1 fs1 v1 h3 h4
              rw [h3] at hst
              cases hst
              exact ⟨m, gs', w, rfl, ho h4⟩

theorem strip_rewrap {m gs w n fs v} : ∀ {t : STy}, t.stripOption = .struct n fs v →
    ((STy.struct m gs w).rewrap t).stripOption = .struct m gs w
  | .option t, h => strip_rewrap (t := t) h
  | .struct .., _ => rfl
  | .prim _, h | .list _, h | .tuple _, h | .dict _ _, h | .union _, h | .enum _ _, h | .literal _, h | .nothing, h => nomatch h

theorem rewrap_rewrap {m gs w n fs v} {s : STy} : ∀ {t : STy}, t.stripOption = .struct n fs v →
    s.rewrap ((STy.struct m gs w).rewrap t) = s.rewrap t
  | .option t, h => by
    show STy.option _ = STy.option _
    rw [rewrap_rewrap (t := t) h]
  | .struct .., _ => rfl
  | .prim _, h | .list _, h | .tuple _, h | .dict _ _, h | .union _, h | .enum _ _, h | .literal _, h | .nothing, h => nomatch h

theorem setType_type (g : SFld) (t : STy) : (g.setType t).type = t := by cases g; rfl

theorem setType_setType (g : SFld) (t t' : STy) : (g.setType t).setType t' = g.setType t' := by cases g; rfl

theorem dset_dset {α : Type} (d : List (String × α)) (k : String) (a b : α) : dset (dset d k a) k b = dset d k b := by
  induction d with
  | nil => simp [dset]
  | cons e d ih =>
    obtain ⟨k', v⟩ := e
    by_cases h : k' = k
    · simp [dset, h]
    · simp [dset, h, ih]

/-- what removing a field from a schema does -/
theorem remove_field : ∀ (p : List String) {n fs v f}, SField (.struct n fs v) p f →
    StructPath (.struct n fs v) p ∧ ∃ fs', removeSchema (.struct n fs v) p = .ok (.struct n fs' v, some f) ∧
      NewPath (.struct n fs' v) p := by
  intro p
  induction p with
  | nil => intro n fs v f h; exact (nomatch h)
  | cons k ks ih =>
    intro n fs v f h
    cases h with
    | here hg =>
      refine ⟨.last, ddel fs k, by simp only [removeSchema, hg], .last (dget_ddel_self ..)⟩
    | @under _ _ _ _ k' ks g _ hg h =>
      have hst : ∃ m gs w, g.type.stripOption = .struct m gs w := by
        cases hh : g.type.stripOption <;> rw [hh] at h <;> first | exact ⟨_, _, _, rfl⟩ | exact (nomatch h)
      obtain ⟨m, gs, w, hst⟩ := hst
      rw [hst] at h
      obtain ⟨h1, gs', h2, h3⟩ := ih h
      refine ⟨.under hg (hst ▸ h1), dset fs k (g.setType ((STy.struct m gs' w).rewrap g.type)), ?_, .under (dget_dset_self ..) ?_⟩
      · simp only [removeSchema, hg, strip_unwrap hst, h2, bind, Except.bind, pure, Except.pure]
      · rw [setType_type, strip_rewrap hst]
        exact h3

theorem insert_field (f : SFld) : ∀ (p : List String) {n fs v s'}, StructPath (.struct n fs v) p →
    insertSchema f (.struct n fs v) p = .ok s' → SField s' p f := by
  intro p
  induction p with
  | nil => intro n fs v s' hp; exact (nomatch hp)
  | cons k ks ih =>
    intro n fs v s' hp h
    cases ks with
    | nil =>
      simp only [insertSchema] at h
      cases h
      exact .here (dget_dset_self ..)
    | cons k' ks =>
      simp only [insertSchema, bind, Except.bind, pure, Except.pure] at h
      have key : ∀ g : SFld, (dget fs k).getD (freshField k) = g → (∃ m gs w, g.type.stripOption = .struct m gs w ∧
          StructPath (.struct m gs w) (k' :: ks)) → SField s' (k :: k' :: ks) f := by
        rintro g hg ⟨m, gs, w, hst, hp'⟩
        rw [hg, strip_unwrap hst] at h
        cases h1 : insertSchema f (.struct m gs w) (k' :: ks) with
        | error e => rw [h1] at h; exact (nomatch h)
        | ok t' =>
          rw [h1] at h
          cases h
          obtain ⟨gs', rfl⟩ := insert_struct f _ hp' h1
          refine .under (dget_dset_self ..) ?_
          rw [setType_type, strip_rewrap hst]
          exact ih hp' h1
      cases hg : dget fs k with
      | none => exact key (freshField k) (by rw [hg]; rfl) ⟨"", [], some 0, rfl, fresh_path ..⟩
      | some g => exact key g (by rw [hg]; rfl) (path_struct hg hp)

theorem retype_omit (f' : SFld) : ∀ (p : List String) {n fs v f s1 n' fs' v'}, SField (.struct n fs v) p f →
    removeSchema (.struct n fs v) p = .ok (s1, some f) → insertSchema f' s1 p = .ok (.struct n' fs' v') → (Omit f → Omit f') →
    (∀ k f, dget fs k = some f → Omit f) → ∀ k f, dget fs' k = some f → Omit f := by
  intro p
  induction p with
  | nil => intro n fs v f s1 n' fs' v' h; exact (nomatch h)
  | cons k ks ih =>
    intro n fs v f s1 n' fs' v' hf h1 h2 ho hall q f2 hf2
    cases hf with
    | here hg =>
      simp only [removeSchema, hg] at h1
      cases h1
      simp only [insertSchema] at h2
      cases h2
      by_cases hq : k = q
      · subst hq
        rw [dget_dset_self] at hf2
        cases hf2
        exact ho (hall _ _ hg)
      · rw [dget_dset_ne _ _ hq, dget_ddel_ne _ hq] at hf2
        exact hall _ _ hf2
    | @under _ _ _ _ k' ks g _ hg h =>
      have hst : ∃ m gs w, g.type.stripOption = .struct m gs w := by
        cases hh : g.type.stripOption <;> rw [hh] at h <;> first | exact ⟨_, _, _, rfl⟩ | exact (nomatch h)
      obtain ⟨m, gs, w, hst⟩ := hst
      rw [hst] at h
      obtain ⟨h3, gs', h4, h5⟩ := remove_field _ h
      simp only [removeSchema, hg, strip_unwrap hst, h4, bind, Except.bind, pure, Except.pure] at h1
      cases h1
      simp only [insertSchema, dget_dset_self, Option.getD, setType_type, strip_unwrap (strip_rewrap (m := m) (gs := gs') (w := w) hst), bind, Except.bind,
        pure, Except.pure] at h2
      cases h6 : insertSchema f' (.struct m gs' w) (k' :: ks) with
      | error e => rw [h6] at h2; exact (nomatch h2)
      | ok t' =>
        rw [h6] at h2
        obtain ⟨gs2, rfl⟩ := insert_struct f' _ h5.struct h6
        dsimp only at h2
        rw [dset_dset, setType_setType, rewrap_rewrap hst] at h2
        cases h2
        by_cases hq : k = q
        · subst hq
          rw [dget_dset_self] at hf2
          cases hf2
          refine omit_setType (hall _ _ hg) ?_
          intro n1 fs1 v1 h8 h9
          rw [h8] at hst
          cases hst
          exact ⟨m, gs2, w, rfl, ih h h4 h6 ho h9⟩
        · rw [dget_dset_ne _ _ hq] at hf2
          exact hall _ _ hf2

/-- the type of a field is replaced by one that its value also fits -/
theorem retype (leaf : STy → Val → Prop) (f' : SFld) : ∀ (p : List String) {n fs v f x s1 s'}, SField (.struct n fs v) p f → Clean p →
    Valid leaf (.struct n fs v) x → removeSchema (.struct n fs v) p = .ok (s1, some f) → insertSchema f' s1 p = .ok s' → (Omit f → Omit f') →
    (∀ y, x.at? p = some y → Valid leaf f'.type y) → Valid leaf s' x := by
  intro p
  induction p with
  | nil => intro n fs v f x s1 s' h; exact (nomatch h)
  | cons k ks ih =>
    intro n fs v f x s1 s' hf hw hv h1 h2 ho hy
    have hkr : ¬ Reserved k := hw k List.mem_cons_self
    have hkw : k ≠ WEAK_REF := fun h => hkr (.inl h)
    obtain ⟨d, rfl, hnd, hkeys, hreq⟩ := (valid_struct ..).1 hv
    cases hf with
    | here hg =>
      simp only [removeSchema, hg] at h1
      cases h1
      simp only [insertSchema] at h2
      cases h2
      refine (valid_struct ..).2 ⟨d, rfl, hnd, ?_, ?_⟩
      · intro q z hz
        by_cases hq : k = q
        · subst hq
          exact .inr ⟨f', dget_dset_self .., hy z (by simp [hz])⟩
        · rcases hkeys q z hz with h | ⟨f2, hf2, hvf⟩
          · exact .inl h
          · exact .inr ⟨f2, by rw [dget_dset_ne _ _ hq, dget_ddel_ne _ hq]; exact hf2, hvf⟩
      · intro hw' q f2 hf2
        by_cases hq : k = q
        · subst hq
          rw [dget_dset_self] at hf2
          cases hf2
          exact (hreq hw' k f hg).imp id ho
        · rw [dget_dset_ne _ _ hq, dget_ddel_ne _ hq] at hf2
          exact hreq hw' q f2 hf2
    | @under _ _ _ _ k' ks g _ hg h =>
      have hw' : Clean (k' :: ks) := fun q h => hw q (List.mem_cons_of_mem _ h)
      have hst : ∃ m gs w, g.type.stripOption = .struct m gs w := by
        cases hh : g.type.stripOption <;> rw [hh] at h <;> first | exact ⟨_, _, _, rfl⟩ | exact (nomatch h)
      obtain ⟨m, gs, w, hst⟩ := hst
      rw [hst] at h
      obtain ⟨h3, gs', h4, h5⟩ := remove_field _ h
      simp only [removeSchema, hg, strip_unwrap hst, h4, bind, Except.bind, pure, Except.pure] at h1
      cases h1
      simp only [insertSchema, dget_dset_self, Option.getD, setType_type, strip_unwrap (strip_rewrap (m := m) (gs := gs') (w := w) hst), bind, Except.bind,
        pure, Except.pure] at h2
      cases h6 : insertSchema f' (.struct m gs' w) (k' :: ks) with
      | error e => rw [h6] at h2; exact (nomatch h2)
      | ok t' =>
        rw [h6] at h2
        cases h2
        obtain ⟨gs2, rfl⟩ := insert_struct f' _ h5.struct h6
        rw [dset_dset, setType_setType, rewrap_rewrap hst]
        have omit_under := retype_omit f' _ h h4 h6 ho
        refine valid_change leaf hv hg hkw hnd (fun _ _ => rfl) ?_ ?_
        · intro z hz
          rw [setType_type]
          have hvz : Valid leaf g.type z := by
            rcases hkeys k z hz with h | ⟨f', hf', hvf⟩
            · exact absurd h hkr
            · rw [hg] at hf'; cases hf'; exact hvf
          rcases valid_strip leaf hst hvz with rfl | hvs
          · exact valid_rewrap_none leaf hst hvz
          · exact valid_rewrap leaf (ih h hw' hvs h4 h6 ho (fun y hy' => hy y (by simp [hz, hy']))) hst
        · rintro (h7 | h7)
          · exact .inl h7
          · refine .inr (omit_setType h7 ?_)
            intro n1 fs1 v1 h8 h9
            rw [h8] at hst
            cases hst
            exact ⟨m, gs2, w, rfl, omit_under h9⟩

theorem parents_cons {x : Val} {k k' ks} (h : Parents x (k :: k' :: ks)) :
    ∃ d z, x = .dict d ∧ dhas d WEAK_REF = false ∧ dget d k = some z ∧ z.isWeak = false ∧ Parents z (k' :: ks) := by
  obtain ⟨x0, hx0, hw0⟩ := h [] (by simp) (by simp)
  obtain ⟨z, hz, hw⟩ := h [k] (by simp) (by simp)
  cases x with
  | dict d =>
    simp at hx0
    subst hx0
    have hz' : dget d k = some z := by simpa using hz
    refine ⟨d, z, rfl, hw0, hz', hw, fun q hq hne => ?_⟩
    obtain ⟨y, hy, hyw⟩ := h (k :: q) (by simpa using hq) (by simpa using hne)
    exact ⟨y, by simpa [hz'] using hy, hyw⟩
  | _ => exact (nomatch hz)

theorem parents_room : ∀ (p : List String) {n fs v x}, StructPath (.struct n fs v) p → Parents x p → Room (.struct n fs v) x p := by
  intro p
  induction p with
  | nil => intro n fs v x hp; exact (nomatch hp)
  | cons k ks ih =>
    intro n fs v x hp h
    cases hp with
    | last => exact .last
    | absent h0 => exact .fresh h0
    | @under _ _ _ _ k' ks f h0 hp =>
      have hst : ∃ m gs w, f.type.stripOption = .struct m gs w := by
        cases hh : f.type.stripOption <;> rw [hh] at hp <;> first | exact ⟨_, _, _, rfl⟩ | exact (nomatch hp)
      obtain ⟨m, gs, w, hst⟩ := hst
      rw [hst] at hp
      obtain ⟨d, z, rfl, -, hz, hw, hpar⟩ := parents_cons h
      refine .step h0 hst ?_ ?_ ?_
      · intro x hx hxw
        rw [hz] at hx; cases hx
        rw [hw] at hxw; exact (nomatch hxw)
      · intro h; rw [hz] at h; exact (nomatch h)
      · rw [hz]; exact ih hp hpar

theorem parents_remove : ∀ (p : List String) {x x' r}, WEAK_REF ∉ p → Parents x p → removePath x p = .ok (x', r) → Parents x' p := by
  intro p
  induction p with
  | nil => intro x x' r _ _ h; exact (nomatch h)
  | cons k ks ih =>
    intro x x' r hwp hpar h
    have hkw : k ≠ WEAK_REF := fun h => hwp (h ▸ List.mem_cons_self)
    cases ks with
    | nil =>
      intro q hq hne
      have : q = [] := by
        obtain ⟨t, ht⟩ := hq
        cases q with
        | nil => rfl
        | cons a q => simp at ht; obtain ⟨rfl, rfl, rfl⟩ := ht; exact absurd rfl hne
      subst this
      obtain ⟨z, hz, hw⟩ := hpar [] (by simp) (by simp)
      simp at hz
      subst hz
      refine ⟨x', by simp, ?_⟩
      cases x with
      | dict d =>
        rw [removePath_single_dict] at h
        cases hg : dget d k with
        | none => rw [hg] at h; cases h; exact hw
        | some y => rw [hg] at h; cases h; simpa [Val.isWeak, dhas_ddel_ne _ hkw] using hw
      | _ => simp [removePath] at h; obtain ⟨rfl, -⟩ := h; rfl
    | cons k' ks =>
      obtain ⟨d, z, rfl, hw0, hz, hw, hpar'⟩ := parents_cons hpar
      rw [removePath_cons_dict, hz] at h
      dsimp only at h
      split at h
      · cases h; exact hpar
      · cases h1 : removePath z (k' :: ks) with
        | error e => rw [h1] at h; exact (nomatch h)
        | ok q =>
          rw [h1] at h
          obtain ⟨z', r'⟩ := q
          cases h
          have hz' := ih (fun h => hwp (List.mem_cons_of_mem _ h)) hpar' h1
          intro q hq hne
          cases q with
          | nil => exact ⟨.dict (dset d k z'), by simp, by simpa [Val.isWeak, dhas_dset_ne _ _ hkw] using hw0⟩
          | cons a q =>
            rw [List.cons_prefix_cons] at hq
            obtain ⟨rfl, hq⟩ := hq
            obtain ⟨y, hy, hyw⟩ := hz' q hq (by rintro rfl; exact hne rfl)
            exact ⟨y, by simpa [dget_dset_self] using hy, hyw⟩

theorem insert_present (y : Val) : ∀ (p : List String) {x}, Parents x p → insertPath y false x p = insertPath y true x p := by
  intro p
  induction p with
  | nil => intro x _; rfl
  | cons k ks ih =>
    intro x hpar
    cases ks with
    | nil => rfl
    | cons k' ks =>
      obtain ⟨d, z, rfl, hw0, hz, hw, hpar'⟩ := parents_cons hpar
      have hd : dhas d k = true := by simp [dhas, hz]
      rw [insertPath_cons_dict, insertPath_cons_dict, hz]
      dsimp only [Option.getD]
      cases z with
      | dict dc =>
        have hw' : dhas dc WEAK_REF = false := hw
        simp only [hw', Bool.and_false]
        rw [show (if (false = true) then ddel dc WEAK_REF else dc) = dc from rfl, ih hpar', if_pos hd, if_pos hd]
      | _ => rfl

end HS
