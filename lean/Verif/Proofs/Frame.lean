import Verif.Proofs.Rewrite
import Verif.Proofs.FromDict
import Verif.Spec.Fields
import Verif.Props.FromDict
import Verif.Props.Rewrite
/-!
# Rules leave unrelated paths alone; from documents to attributes
-/
namespace HS

/-- the paths a rule mentions -/
def Rule.paths : Rule → List (List String)
  | .rename old new => [old, new]
  | .delete p | .mapValue p _ _ | .changeDefault p _ _ | .addDefault p _ | .checkValue p _ | .rejectValues p _ => [p]

/-- all proper ancestors of `p` are objects, and those below the root are not marked weak -/
def Solid (sd : Val) (p : List String) : Prop :=
  ∀ q, q <+: p → q ≠ p → ∃ d, sd.at? q = some (.dict d) ∧ (q ≠ [] → dget d WEAK_REF = none)

/-- `p'` is not a proper ancestor of `p` -/
def NotAbove (p' p : List String) : Prop := p' <+: p → p' = p

theorem Unrelated.notAbove {p' p : List String} (h : Unrelated p' p) : NotAbove p' p := fun h' => absurd h' h.1

theorem insertPath_isDict {value : Val} {cn : Bool} {p : List String} {d : List (String × Val)} {sd' : Val}
    (h : insertPath value cn (.dict d) p = .ok sd') : ∃ d', sd' = .dict d' ∧ ∀ j, p.head? ≠ some j → dget d' j = dget d j := by
  match p with
  | [] => simp [insertPath] at h
  | [k] =>
    simp only [insertPath, pySetItem, Except.ok.injEq] at h
    exact ⟨_, h.symm, fun j hj => dget_dset_ne _ _ (by simpa using hj)⟩
  | k :: k' :: ks =>
    rw [insertPath_cons_dict] at h
    split at h
    · split at h
      · simp only [Except.ok.injEq] at h
        refine ⟨_, h.symm, fun j hj => ?_⟩
        rw [dget_dset_ne _ _ (by simpa using hj)]
        split
        · rfl
        · rw [dget_dset_ne _ _ (by simpa using hj)]
      · simp at h
    · simp only [Except.ok.injEq] at h
      exact ⟨_, h.symm, fun _ _ => rfl⟩

theorem solid_cons {d : List (String × Val)} {k k' : String} {ks : List String} :
    Solid (.dict d) (k :: k' :: ks) ↔ ∃ dc, dget d k = some (.dict dc) ∧ dget dc WEAK_REF = none ∧ Solid (.dict dc) (k' :: ks) := by
  constructor
  · intro h
    obtain ⟨dc, h1, h2⟩ := h [k] (by simp) (by simp)
    have h1' : dget d k = some (.dict dc) := by
      simp only [at?_dict_cons] at h1
      cases hd : dget d k with
      | none => simp [hd] at h1
      | some c => simpa [hd] using h1
    refine ⟨dc, h1', h2 (by simp), ?_⟩
    intro q hq hne
    obtain ⟨d', h3, h4⟩ := h (k :: q) (by simpa using hq) (by simpa using hne)
    simp only [at?_dict_cons, h1', Option.bind_some] at h3
    exact ⟨d', h3, fun _ => h4 (by simp)⟩
  · rintro ⟨dc, h1, h2, h3⟩ q hq hne
    cases q with
    | nil => exact ⟨d, by simp, by simp⟩
    | cons j q =>
      obtain ⟨rfl, hq'⟩ : j = k ∧ q <+: k' :: ks := by simpa using hq
      obtain ⟨d', h4, h5⟩ := h3 q hq' (by simpa using hne)
      refine ⟨d', by simp [h1, h4], fun _ => ?_⟩
      cases q with
      | nil => simp at h4; subst h4; exact h2
      | cons _ _ => exact h5 (by simp)

theorem solid_single {d : List (String × Val)} {k : String} : Solid (.dict d) [k] := by
  intro q hq hne
  cases q with
  | nil => exact ⟨d, by simp, by simp⟩
  | cons j q =>
    have : q = [] := by simpa using (by simpa using hq : j = k ∧ q <+: []).2
    subst this
    simp at hq hne
    exact absurd hq hne

theorem solid_isDict {sd : Val} {p : List String} (hp : p ≠ []) (h : Solid sd p) : ∃ d, sd = .dict d := by
  obtain ⟨d, hd, _⟩ := h [] (by simp) (Ne.symm hp)
  exact ⟨d, by simpa using hd⟩

theorem solid_insert {value : Val} {cn : Bool} : ∀ {p' p : List String} {sd sd' : Val},
    insertPath value cn sd p' = .ok sd' → NotAbove p' p → WEAK_REF ∉ p' → p ≠ [] → Solid sd p → Solid sd' p := by
  intro p'
  induction p' with
  | nil => intro p sd sd' h; simp [insertPath] at h
  | cons k ks ih =>
    intro p sd sd' h hna hw hp hs
    obtain ⟨d, rfl⟩ := solid_isDict hp hs
    obtain ⟨d', rfl, hsame⟩ := insertPath_isDict h
    cases p with
    | nil => exact absurd rfl hp
    | cons j js =>
      cases js with
      | nil => exact solid_single
      | cons j' js =>
        obtain ⟨dc, h1, h2, h3⟩ := solid_cons.1 hs
        by_cases e : j = k
        · subst e
          cases ks with
          | nil => exact absurd (hna (by simp)) (by simp)
          | cons k' ks =>
            rw [insertPath_cons_dict] at h
            simp only [h1, Option.getD_some, dhas, h2, Option.isSome_none, Bool.and_false, if_false, Option.isSome_some,
              if_true, Bool.false_eq_true] at h
            split at h
            · rename_i c' hc'
              simp only [Except.ok.injEq, Val.dict.injEq] at h
              subst h
              have hw' : WEAK_REF ∉ k' :: ks := fun hm => hw (List.mem_cons_of_mem _ hm)
              obtain ⟨dc', rfl, hsame'⟩ := insertPath_isDict hc'
              refine solid_cons.2 ⟨dc', dget_dset_self _ _ _, ?_, ih hc' ?_ hw' (by simp) h3⟩
              · rw [hsame' WEAK_REF (by simp; intro e; exact hw' (by simp [e])), h2]
              · intro hpre
                have := hna (by simpa using hpre)
                simpa using this
            · simp at h
        · refine solid_cons.2 ⟨dc, ?_, h2, h3⟩
          rw [hsame j (by simp; exact fun h => e h.symm), h1]

theorem prefix_append_single {p q : List String} {w : String} (h : p <+: q ++ [w]) : p <+: q ∨ p = q ++ [w] := by
  obtain ⟨t, ht⟩ := h
  rcases List.eq_nil_or_concat t with rfl | ⟨t', a, rfl⟩
  · right; simpa using ht
  · left
    rw [List.concat_eq_append, ← List.append_assoc] at ht
    exact ⟨t', (List.append_inj' ht rfl).1⟩

theorem prefix_proper_trans {p' q p : List String} (h : p' <+: q) (hq : q <+: p) (hne : q ≠ p) (hna : NotAbove p' p) : False := by
  have := hna (h.trans hq)
  subst this
  have hl := hq.length_le
  have hl' := h.length_le
  exact hne (hq.eq_of_length (by omega))

theorem solid_remove {p' p : List String} {sd sd' : Val} {r : Option Val} (h : removePath sd p' = .ok (sd', r))
    (hna : NotAbove p' p) (hw : WEAK_REF ∉ p') (hs : Solid sd p) : Solid sd' p := by
  obtain ⟨h1, h2, h3, h4, h5⟩ := removePath_spec h
  intro q hq hne
  obtain ⟨d, hd, hwd⟩ := hs q hq hne
  have hmap : (sd'.at? q).map Val.isDict = some true := by
    by_cases hu : q <+: p'
    · have hne' : q ≠ p' := fun e => prefix_proper_trans (p' := p') (q := q) (e ▸ List.prefix_refl _) hq hne hna
      rw [h5 q hu hne', hd]; rfl
    · have : Unrelated p' q := ⟨fun hp => prefix_proper_trans hp hq hne hna, hu⟩
      rw [h4 q this, hd]; rfl
  cases hat : sd'.at? q with
  | none => simp [hat] at hmap
  | some c =>
    simp [hat] at hmap
    obtain ⟨d', rfl⟩ := (isDict_iff c).1 hmap
    refine ⟨d', rfl, fun hq0 => ?_⟩
    have hu : Unrelated p' (q ++ [WEAK_REF]) := by
      constructor
      · intro hp
        rcases prefix_append_single hp with h' | h'
        · exact prefix_proper_trans h' hq hne hna
        · exact hw (by rw [h']; simp)
      · intro hp; exact hw (hp.subset (by simp))
    have := h4 _ hu
    rw [at?_append, at?_append, hat, hd] at this
    simp only [Option.bind_some, at?_dict_cons, hwd hq0, Option.bind_none] at this
    cases hx : dget d' WEAK_REF with
    | none => rfl
    | some v => simp [hx] at this

/-- every rule either leaves the document, or removes one of its paths and possibly inserts at one of its paths -/
theorem rule_steps {r : Rule} {sd sd' : Val} (h : r.apply sd = .ok sd') :
    sd' = sd ∨ ∃ p1 ∈ r.paths, ∃ sd1 r1, removePath sd p1 = .ok (sd1, r1) ∧
      (sd' = sd1 ∨ ∃ p2 ∈ r.paths, ∃ v cn, insertPath v cn sd1 p2 = .ok sd') := by
  cases r with
  | rename old new =>
    simp only [Rule.apply, bind, Except.bind, pure, Except.pure] at h
    split at h
    · simp at h
    · rename_i x hx
      refine .inr ⟨old, by simp [Rule.paths], x.1, x.2, hx, ?_⟩
      split at h
      · exact .inr ⟨new, by simp [Rule.paths], _, _, h⟩
      · simp only [Except.ok.injEq] at h; exact .inl h.symm
  | delete p =>
    simp only [Rule.apply, bind, Except.bind, pure, Except.pure] at h
    split at h
    · simp at h
    · rename_i x hx
      simp only [Except.ok.injEq] at h
      exact .inr ⟨p, by simp [Rule.paths], x.1, x.2, hx, .inl h.symm⟩
  | mapValue p f _ =>
    simp only [Rule.apply, bind, Except.bind, pure, Except.pure] at h
    split at h
    · simp at h
    · rename_i x hx
      refine .inr ⟨p, by simp [Rule.paths], x.1, x.2, hx, ?_⟩
      split at h
      · split at h
        · simp at h
        · exact .inr ⟨p, by simp [Rule.paths], _, _, h⟩
      · simp only [Except.ok.injEq] at h; exact .inl h.symm
  | changeDefault p old new =>
    simp only [Rule.apply, bind, Except.bind] at h
    split at h
    · simp at h
    · rename_i x hx
      refine .inr ⟨p, by simp [Rule.paths], x.1, x.2, hx, ?_⟩
      split at h
      · split at h
        · exact .inr ⟨p, by simp [Rule.paths], _, _, h⟩
        · exact .inr ⟨p, by simp [Rule.paths], _, _, h⟩
      · exact .inr ⟨p, by simp [Rule.paths], _, _, h⟩
  | addDefault p d =>
    simp only [Rule.apply, bind, Except.bind] at h
    split at h
    · simp at h
    · rename_i x hx
      refine .inr ⟨p, by simp [Rule.paths], x.1, x.2, hx, ?_⟩
      split at h
      · exact .inr ⟨p, by simp [Rule.paths], _, _, h⟩
      · exact .inr ⟨p, by simp [Rule.paths], _, _, h⟩
  | checkValue p al =>
    simp only [Rule.apply, bind, Except.bind, pure, Except.pure] at h
    left
    split at h
    · simp at h
    · split at h
      · split at h
        · simp at h
        · split at h
          · simp [throw, throwThe, MonadExceptOf.throw] at h
          · simp only [Except.ok.injEq] at h; exact h.symm
      · simp only [Except.ok.injEq] at h; exact h.symm
  | rejectValues p bad =>
    simp only [Rule.apply, bind, Except.bind, pure, Except.pure] at h
    split at h
    · simp at h
    · rename_i x hx
      refine .inr ⟨p, by simp [Rule.paths], x.1, x.2, hx, .inl ?_⟩
      split at h
      · split at h
        · simp at h
        · split at h
          · simp [throw, throwThe, MonadExceptOf.throw] at h
          · simp only [Except.ok.injEq] at h; exact h.symm
      · simp only [Except.ok.injEq] at h; exact h.symm

/-- A rule changes nothing at paths unrelated to its own. -/
theorem rule_frame {r : Rule} {sd sd' : Val} (h : r.apply sd = .ok sd') {p : List String} (hp : WEAK_REF ∉ p)
    (hu : ∀ p' ∈ r.paths, Unrelated p' p) : sd'.at? p = sd.at? p := by
  rcases rule_steps h with rfl | ⟨p1, hp1, sd1, r1, hr, rfl | ⟨p2, hp2, v, cn, hi⟩⟩
  · rfl
  · exact (removePath_spec hr).2.2.2.1 p (hu p1 hp1)
  · rw [insertPath_frame _ _ hi p (hu p2 hp2) hp, (removePath_spec hr).2.2.2.1 p (hu p1 hp1)]

theorem rule_solid {r : Rule} {sd sd' : Val} (h : r.apply sd = .ok sd') {p : List String} (hp : p ≠ [])
    (hu : ∀ p' ∈ r.paths, NotAbove p' p ∧ WEAK_REF ∉ p') (hs : Solid sd p) : Solid sd' p := by
  rcases rule_steps h with rfl | ⟨p1, hp1, sd1, r1, hr, rfl | ⟨p2, hp2, v, cn, hi⟩⟩
  · exact hs
  · exact solid_remove hr (hu p1 hp1).1 (hu p1 hp1).2 hs
  · exact solid_insert hi (hu p2 hp2).1 (hu p2 hp2).2 hp (solid_remove hr (hu p1 hp1).1 (hu p1 hp1).2 hs)

/-- the rules that run for a document of version `v0`, in order -/
def VerInfo.rulesFrom (vi : VerInfo) (v0 : Int) : List Rule := (rangeI v0 vi.version).flatMap vi.rulesAt

theorem applyRules_frame {p : List String} (hp : WEAK_REF ∉ p) (hp0 : p ≠ []) : ∀ {rs : List Rule} {sd sd' : Val},
    applyRules rs sd = .ok sd' → (∀ r ∈ rs, ∀ p' ∈ r.paths, Unrelated p' p ∧ WEAK_REF ∉ p') →
    sd'.at? p = sd.at? p ∧ (Solid sd p → Solid sd' p) := by
  intro rs
  induction rs with
  | nil => intro sd sd' h _; simp [applyRules] at h; subst h; exact ⟨rfl, id⟩
  | cons r rs ih =>
    intro sd sd' h hu
    simp only [applyRules, bind, Except.bind] at h
    split at h
    · simp at h
    · rename_i sd1 h1
      obtain ⟨ih1, ih2⟩ := ih h (fun r hr => hu r (List.mem_cons_of_mem _ hr))
      have hr := hu r (by simp)
      exact ⟨by rw [ih1, rule_frame h1 hp (fun p' h => (hr p' h).1)],
        fun hs => ih2 (rule_solid h1 hp0 (fun p' h => ⟨(hr p' h).1.notAbove, (hr p' h).2⟩) hs)⟩

theorem versionHook_rules {am : Bool} {vi : VerInfo} {d : List (String × Val)} {v0 : Int} {v : Val}
    (hv : dget d "version" = some (.int v0)) (h : versionHook am vi (.dict d) = .ok v) :
    applyRules (vi.rulesFrom v0) (.dict (ddel d "version")) = .ok v := by
  simp only [versionHook, hv, VerInfo.upgradeAny, Val.asRangeInt, VerInfo.applyUpgrades, bind, Except.bind] at h
  split at h
  · rw [upgradeLoop_eq] at h; exact h
  · simp at h

/-! ## from the document to the object -/

theorem itemsLoop_dget {f : String → Val → Option Res} {ig : Bool} : ∀ {d kw es},
    itemsLoop f ig d = .ok (kw, es) → ∀ {k x}, dget d k = some x → k ≠ NAME_KEY → x.isWeak = false → (f k x).isSome = true →
      ∃ v es', dget kw k = some v ∧ f k x = some (.ok (v, es')) := by
  intro d
  induction d with
  | nil => intro kw es _ k x h; simp at h
  | cons e d ih =>
    intro kw es h k x hk hn hw hf
    obtain ⟨j, y⟩ := e
    simp only [itemsLoop] at h
    by_cases e : j = k
    · subst e
      simp only [dget, if_true, Option.some.injEq] at hk
      subst hk
      obtain ⟨r, hr⟩ := Option.isSome_iff_exists.1 hf
      simp only [hn, if_false, hw, Bool.false_eq_true, hr, bind, Except.bind, pure, Except.pure] at h
      split at h
      · simp at h
      · rename_i _ x1
        split at h
        · simp at h
        · simp only [Except.ok.injEq, Prod.mk.injEq] at h
          rw [hr, ← h.1]
          exact ⟨x1.1, x1.2, by simp [dget], rfl⟩
    · simp only [dget, e, if_false] at hk
      split at h
      · exact ih h hk hn hw hf
      · split at h
        · exact ih h hk hn hw hf
        · split at h
          · split at h
            · exact ih h hk hn hw hf
            · simp at h
          · simp only [bind, Except.bind, pure, Except.pure] at h
            split at h
            · simp at h
            · split at h
              · simp at h
              · rename_i x2 hx2
                obtain ⟨v, es', h1, h2⟩ := ih (kw := x2.1) (es := x2.2) hx2 hk hn hw hf
                simp only [Except.ok.injEq, Prod.mk.injEq] at h
                rw [← h.1]
                exact ⟨v, es', by simp [dget, e, h1], h2⟩

theorem fillFields_find {kw : List (String × Val)} : ∀ {fs kvs}, fillFields kw fs = .ok kvs → ∀ {k : String} {f : Fld},
    fs.find? (fun f => f.name == k) = some f → ∃ v, dget kvs k = some v ∧ fieldValue kw f = .ok v := by
  intro fs
  induction fs with
  | nil => intro kvs _ k f h; simp at h
  | cons g fs ih =>
    intro kvs h k f hf
    simp only [fillFields, bind, Except.bind, pure, Except.pure] at h
    split at h
    · simp at h
    · rename_i v hv
      split at h
      · simp at h
      · rename_i rest hrest
        simp only [Except.ok.injEq] at h
        subst h
        by_cases e : g.name = k
        · simp [List.find?, e] at hf
          subst hf
          exact ⟨v, by simp [dget, e], hv⟩
        · have : (g.name == k) = false := by simp [e]
          simp only [List.find?, this] at hf
          obtain ⟨v', h1, h2⟩ := ih hrest hf
          exact ⟨v', by simp [dget, e, h1], h2⟩

theorem fdField_find (c : DCfg) {k : String} (path : String) (x : Val) : ∀ {fs : List Fld} {f : Fld},
    fs.find? (fun f => f.name == k) = some f → fdField c fs k path x = some (fromDict c f.ty false path x) := by
  intro fs
  induction fs with
  | nil => intro f h; simp at h
  | cons g fs ih =>
    intro f hf
    obtain ⟨n, t, d⟩ := g
    by_cases e : n = k
    · simp [List.find?, Fld.name, e] at hf
      subst hf
      simp [fdField, fdFld, e, Fld.ty]
    · have : ((Fld.mk n t d).name == k) = false := by simp [e, Fld.name]
      simp only [List.find?, this] at hf
      simp [fdField, fdFld, e, ih hf]

theorem fromDict_strips (c : DCfg) {t u : PyTy} (h : Strips t u) (ig : Bool) (path : String) (d : List (String × Val)) :
    fromDict c t ig path (.dict d) = fromDict c u ig path (.dict d) := by
  induction h with
  | refl => rfl
  | opt _ ih => simp [PyTy.optional, fromDict, isOptionalArgs, PyTy.isNoneT, Val.isNone, fdHead, ih]

/-- What a loaded object holds at a path at which the document sets a value. -/
theorem fromDict_attr (c : DCfg) {fs : List Fld} {p : List String} {t : PyTy} (hf : FieldAtU fs p t) :
    ∀ (n : String) (ig : Bool) (path : String) (doc : Val) (v : Val) (es : List Ev) (x : Val),
    fromDict c (.data n fs .none) ig path doc = .ok (v, es) → Solid doc p → doc.at? p = some x → x.isWeak = false →
    NAME_KEY ∉ p → ∃ y es' path', v.attr p = some y ∧ fromDict c t false path' x = .ok (y, es') := by
  induction hf with
  | @here fs k f hfind =>
    intro n ig path doc v es x h hs hx hw hn
    obtain ⟨d, rfl⟩ := solid_isDict (by simp) hs
    rw [fromDict_data_dict] at h
    simp only [bind, Except.bind, pure, Except.pure] at h
    split at h
    · simp at h
    · rename_i kw hkw
      split at h
      · simp at h
      · rename_i kvs hkvs
        simp only [Except.ok.injEq, Prod.mk.injEq] at h
        have hx' : dget d k = some x := by
          simp only [at?_dict_cons] at hx
          cases hd : dget d k with
          | none => simp [hd] at hx
          | some c => simpa [hd] using hx
        obtain ⟨y, es', h1, h2⟩ := itemsLoop_dget (kw := kw.1) (es := kw.2) hkw hx' (fun e => hn (by simp [e])) hw (by simp [fdField_find c _ x hfind])
        obtain ⟨y', h3, h4⟩ := fillFields_find hkvs hfind
        have hname : f.name = k := by simpa using List.find?_some hfind
        simp only [fieldValue, hname, h1, Except.ok.injEq] at h4
        subst h4
        rw [fdField_find c _ x hfind, Option.some.injEq] at h2
        exact ⟨y, es', _, by rw [← h.1]; simp [Val.attr, h3], h2⟩
  | @there fs k k' ks f n' fs' t hfind hst _ ih =>
    intro n ig path doc v es x h hs hx hw hn
    obtain ⟨d, rfl⟩ := solid_isDict (by simp) hs
    obtain ⟨dc, hdc, hdw, hs'⟩ := solid_cons.1 hs
    rw [fromDict_data_dict] at h
    simp only [bind, Except.bind, pure, Except.pure] at h
    split at h
    · simp at h
    · rename_i kw hkw
      split at h
      · simp at h
      · rename_i kvs hkvs
        simp only [Except.ok.injEq, Prod.mk.injEq] at h
        have hweak : (Val.dict dc).isWeak = false := by simp [Val.isWeak, dhas, hdw]
        obtain ⟨y, es', h1, h2⟩ := itemsLoop_dget (kw := kw.1) (es := kw.2) hkw hdc (fun e => hn (by simp [e])) hweak (by simp [fdField_find c _ _ hfind])
        obtain ⟨y', h3, h4⟩ := fillFields_find hkvs hfind
        have hname : f.name = k := by simpa using List.find?_some hfind
        simp only [fieldValue, hname, h1, Except.ok.injEq] at h4
        subst h4
        rw [fdField_find c _ _ hfind, Option.some.injEq, fromDict_strips c hst] at h2
        simp only [at?_dict_cons, hdc, Option.bind_some] at hx
        obtain ⟨z, es'', path', h5, h6⟩ := ih n' false _ _ _ _ x h2 hs' hx hw (fun hm => hn (List.mem_cons_of_mem _ hm))
        exact ⟨z, es'', path', by rw [← h.1]; simp [Val.attr, h3, h5], h6⟩

end HS
