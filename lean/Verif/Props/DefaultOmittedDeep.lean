import Verif.Props.DefaultOmitted
import Verif.Props.DefaultAdvice
import Verif.Proofs.OrderLoad

/-!
# `ChangeDefault` and `AddDefault` for a field of a section left out, at any depth: C22
-/

namespace HS

/-- inserting a default below a missing or weak object, inside objects that are there, leaves a weak object -/
theorem weakAt_insert (v : Val) (k : String) (ks : List String) (hw : WEAK_REF ≠ k) : ∀ (q : List String) (sd sd' : Val), q ≠ [] →
    insertPath v false sd (q ++ k :: ks) = .ok sd' → Solid sd q → (∀ x, sd.at? q = some x → x.isWeak = true) →
    ∀ x, sd'.at? q = some x → x.isWeak = true
  | [], _, _, hq, _, _, _ => absurd rfl hq
  | [g], sd, sd', _, h, _, ho => omittedAt_insert v g k ks hw sd sd' h ho
  | g :: g' :: gs, sd, sd', _, h, hs, ho => by
    obtain ⟨d, rfl⟩ := solid_isDict (by simp) hs
    obtain ⟨dc, hdc, hdw, hs'⟩ := solid_cons.1 hs
    rw [List.cons_append, List.cons_append, insertPath_cons_dict, hdc] at h
    simp only [Option.getD_some, Bool.false_and, Bool.false_eq_true, if_false] at h
    split at h
    · rename_i c' hi
      cases h
      intro x hx
      simp only [at?_dict_cons, dget_dset_self, Option.bind_some] at hx
      exact weakAt_insert v k ks hw (g' :: gs) (.dict dc) c' (by simp) hi hs'
        (fun y hy => ho y (by simpa [hdc] using hy)) x hx
    · exact (nomatch h)

/-- a rule that does not concern the section `q`, or a `ChangeDefault` or `AddDefault` of something inside it -/
def DefaultBelow (q : List String) (r : Rule) : Prop :=
  (∀ p ∈ r.paths, Unrelated p q ∧ WEAK_REF ∉ p) ∨ ∃ k ks old, (r = .addDefault (q ++ k :: ks) old ∨ ∃ new, r = .changeDefault (q ++ k :: ks) old new) ∧
    WEAK_REF ∉ k :: ks

theorem weakAt_rules (q : List String) (hq : q ≠ []) (hqw : WEAK_REF ∉ q) : ∀ (rs : List Rule) (sd sd' : Val),
    (∀ r ∈ rs, DefaultBelow q r) → rs.Pairwise (fun r s => ∀ p ∈ r.paths, ∀ p' ∈ s.paths, Unrelated p p' ∨ Unrelated p q) →
    (∀ r ∈ rs, ∀ p ∈ r.paths, q <+: p → sd.at? p = .none) → applyRules rs sd = .ok sd' → Solid sd q →
    (∀ x, sd.at? q = some x → x.isWeak = true) → Solid sd' q ∧ ∀ x, sd'.at? q = some x → x.isWeak = true
  | [], sd, sd', _, _, _, h, hs, ho => by simp [applyRules] at h; subst h; exact ⟨hs, ho⟩
  | r :: rs, sd, sd', hr, hp, ha, h, hs, ho => by
    simp only [applyRules, bind, Except.bind] at h
    split at h
    · exact (nomatch h)
    rename_i sd1 h1
    obtain ⟨hp1, hp2⟩ := List.pairwise_cons.1 hp
    have hr' := fun s hs => hr s (List.mem_cons_of_mem _ hs)
    have hpaths : ∀ p ∈ r.paths, NotAbove p q ∧ WEAK_REF ∉ p := by
      intro p hpr
      rcases hr r (List.mem_cons_self ..) with hu | ⟨k, ks, o, hs', hw⟩
      · exact ⟨(hu p hpr).1.notAbove, (hu p hpr).2⟩
      · have hpe : p = q ++ k :: ks := by rcases hs' with rfl | ⟨n, rfl⟩ <;> simpa [Rule.paths] using hpr
        subst hpe
        refine ⟨fun hpre => ?_, ?_⟩
        · have := hpre.length_le
          simp at this
        · rw [List.mem_append, not_or]; exact ⟨hqw, hw⟩
    refine weakAt_rules q hq hqw rs sd1 sd' hr' hp2 ?_ h (rule_solid h1 hq hpaths hs) ?_
    · intro s hs2 p' hp' hgq
      have hw' : WEAK_REF ∉ p' := by
        rcases hr' s hs2 with hu | ⟨k, ks, o, hs', hw⟩
        · exact (hu p' hp').2
        · have hq' : p' = q ++ k :: ks := by
            rcases hs' with rfl | ⟨n, rfl⟩ <;> simpa [Rule.paths] using hp'
          subst hq'
          rw [List.mem_append, not_or]; exact ⟨hqw, hw⟩
      rw [rule_frame h1 hw' ?_]
      · exact ha s (List.mem_cons_of_mem _ hs2) p' hp' hgq
      · intro p hpr
        rcases hp1 s hs2 p hpr p' hp' with hu | hu
        · exact hu
        · refine ⟨fun hpq => ?_, fun hqp => hu.2 (hgq.trans hqp)⟩
          rcases List.prefix_or_prefix_of_prefix hpq hgq with h' | h'
          · exact hu.1 h'
          · exact hu.2 h'
    · rcases hr r (List.mem_cons_self ..) with hu | ⟨k, ks, o, hs', hw⟩
      · intro x hx
        rw [rule_frame h1 hqw (fun p hp => (hu p hp).1)] at hx
        exact ho x hx
      · have hab := ha r (List.mem_cons_self ..) (q ++ k :: ks) (by rcases hs' with rfl | ⟨n, rfl⟩ <;> simp [Rule.paths]) (by simp)
        rcases hs' with rfl | ⟨n, rfl⟩ <;>
        · simp only [Rule.apply, bind, Except.bind] at h1
          split at h1
          · exact (nomatch h1)
          rename_i z hz
          obtain ⟨sd2, r2⟩ := z
          obtain ⟨hr1, hr2, _⟩ := removePath_spec hz
          rw [hab] at hr1
          subst hr1
          have := hr2 rfl
          subst this
          exact weakAt_insert o k ks (fun e => hw (by simp [e])) q _ _ hq h1 hs ho

/-- a field that the document leaves out or that is a weak object in it, in an object that it gives, has its default -/
theorem fromDict_attr_omitted (c : DCfg) {fs : List Fld} {p : List String} {f : Fld} (hf : FieldIs fs p f) :
    ∀ (n : String) (ig : Bool) (path : String) (doc : Val) (v : Val) (es : List Ev),
    fromDict c (.data n fs .none) ig path doc = .ok (v, es) → Plain doc → Solid doc p →
    (∀ x, doc.at? p = some x → x.isWeak = true) → NAME_KEY ∉ p → ∃ y, v.attr p = some y ∧ IsDefault f y := by
  induction hf with
  | @here fs k f hfind =>
    intro n ig path doc v es h hpl hs hx hn
    obtain ⟨d, rfl⟩ := solid_isDict (by simp) hs
    simp only [Plain] at hpl
    rw [fromDict_data_dict] at h
    simp only [bind, Except.bind, pure, Except.pure] at h
    split at h
    · simp at h
    · rename_i kw hkw
      split at h
      · simp at h
      · rename_i kvs hkvs
        simp only [Except.ok.injEq, Prod.mk.injEq] at h
        obtain ⟨y, h3, h4⟩ := fillFields_find hkvs hfind
        have hname : f.name = k := by simpa using List.find?_some hfind
        have hkw' : dget kw.1 k = .none := by
          refine (itemsLoop_iff (kw := kw.1) (es := kw.2) hpl.1 hkw).2 k ?_
          cases hg : dget d k with
          | none => exact .inl rfl
          | some x => exact .inr (.inr ⟨x, rfl, hx x (by simp [hg])⟩)
        refine ⟨y, by rw [← h.1]; simp [Val.attr, h3], ?_⟩
        obtain ⟨fn, ft, fd⟩ := f
        simp only [fieldValue, hname, hkw', Fld.dflt, Fld.ty] at h4
        cases fd with
        | some dv =>
          cases h4
          exact .declared _ _ _
        | none =>
          simp only at h4
          split at h4
          · rename_i w hw
            cases h4
            exact (createDefault_iff ft fn _).1 hw
          · exact (nomatch h4)
  | @there fs k k' ks f g n' fs' hfind hty _ ih =>
    intro n ig path doc v es h hpl hs hx hn
    obtain ⟨d, rfl⟩ := solid_isDict (by simp) hs
    obtain ⟨dc, hdc, hdw, hs'⟩ := solid_cons.1 hs
    simp only [Plain] at hpl
    rw [fromDict_data_dict] at h
    simp only [bind, Except.bind, pure, Except.pure] at h
    split at h
    · simp at h
    · rename_i kw hkw
      split at h
      · simp at h
      · rename_i kvs hkvs
        simp only [Except.ok.injEq, Prod.mk.injEq] at h
        have hweak : (Val.dict dc).isWeak = false := by simp [Val.isWeak, dhas, hdw]
        obtain ⟨y, es', h1, h2⟩ := itemsLoop_dget (kw := kw.1) (es := kw.2) hkw hdc (fun e => hn (by simp [e])) hweak (by simp [fdField_find c _ _ hfind])
        obtain ⟨y', h3, h4⟩ := fillFields_find hkvs hfind
        have hname : f.name = k := by simpa using List.find?_some hfind
        simp only [fieldValue, hname, h1, Except.ok.injEq] at h4
        subst h4
        rw [fdField_find c _ _ hfind, Option.some.injEq, hty] at h2
        simp only [at?_dict_cons, hdc, Option.bind_some] at hx
        obtain ⟨z, h5, h6⟩ := ih n' false _ _ _ _ h2 (plain_dget hpl.2 hdc) hs' hx (fun hm => hn (List.mem_cons_of_mem _ hm))
        exact ⟨z, by rw [← h.1]; simp [Val.attr, h3, h5], h6⟩

/-- C22, the other side, for sections at any depth: when the document gives the objects around the section `q` but not the
section, `ChangeDefault` and `AddDefault` rules for fields inside it have no effect on the loaded object: the section has the
default that its class declares now. -/
theorem C22_omitted_deep (c : DCfg) (n : String) (fs : List Fld) (vi : VerInfo) (ig : Bool) (d : List (String × Val)) (v0 : Int)
    (hver : dget d "version" = some (.int v0)) (hpl : Plain (.dict d)) (q : List String) (f : Fld) (hf : FieldIs fs q f)
    (hn : NAME_KEY ∉ q) (hqw : WEAK_REF ∉ q) (hqv : q.head? ≠ some "version") (hs : Solid (.dict d) q)
    (habs : (Val.dict d).at? q = .none) (hrp : ∀ r ∈ vi.rulesFrom v0, RulePlain r)
    (hr : ∀ r ∈ vi.rulesFrom v0, DefaultBelow q r)
    (hpw : (vi.rulesFrom v0).Pairwise (fun r s => ∀ p ∈ r.paths, ∀ p' ∈ s.paths, Unrelated p p' ∨ Unrelated p q))
    (v : Val) (es : List Ev) (h : fromDict c (.data n fs (some vi)) ig "" (.dict d) = .ok (v, es)) :
    ∃ y, v.attr q = some y ∧ IsDefault f y := by
  have hq0 : q ≠ [] := by cases hf <;> simp
  cases hvh : versionHook c.allowMissing vi (.dict d) with
  | error e => simp [fromDict, hvh, bind, Except.bind] at h
  | ok w =>
    have hrun := versionHook_rules hver hvh
    rw [fromDict_upgraded (show Upgraded c (some vi) (.dict d) w from hvh)] at h
    have hdel : (Val.dict (ddel d "version")).at? q = .none ∧ Solid (.dict (ddel d "version")) q := by
      cases q with
      | nil => exact absurd rfl hq0
      | cons j js =>
        have hj : "version" ≠ j := fun e => hqv (by simp [e])
        constructor
        · rw [← habs]; simp only [at?_dict_cons]; rw [dget_ddel_ne _ hj]
        · cases js with
          | nil => exact solid_single
          | cons j' js =>
            obtain ⟨dc, h1, h2⟩ := solid_cons.1 hs
            exact solid_cons.2 ⟨dc, by rw [dget_ddel_ne _ hj, h1], h2⟩
    have hpl' : Plain (.dict (ddel d "version")) := by
      simp only [Plain] at hpl ⊢
      exact ⟨nodup_ddel _ _ hpl.1, plainD_ddel hpl.2⟩
    obtain ⟨h1, h2⟩ := weakAt_rules q hq0 hqw _ _ _ hr hpw
      (fun r _ p _ hp => by
        obtain ⟨s, rfl⟩ := hp
        rw [at?_append, hdel.1]; rfl)
      hrun hdel.2 (fun x hx => by rw [hdel.1] at hx; exact (nomatch hx))
    exact fromDict_attr_omitted c hf n ig "" w v es h (plain_applyRules hrp hpl' hrun) h1 h2 hn

/-- `model.net` is left out of a document that has `model` -/
example : let vi : VerInfo := ⟨1, [(0, [.changeDefault ["model", "net", "n"] (.int 4) (.int 8)])]⟩
    let net : Fld := .mk "net" (.data "Net" [.mk "n" .int (some (.int 8))] none) none
    let fs : List Fld := [.mk "model" (.data "Model" [net, .mk "k" .int (some (.int 1))] none) none]
    FieldIs fs ["model", "net"] net ∧ (∀ r ∈ vi.rulesFrom 0, DefaultBelow ["model", "net"] r) ∧
    Solid (.dict [("version", .int 0), ("model", .dict [("k", .int 3)])]) ["model", "net"] ∧
    hsLoad Ex.world (.data "C" fs (some vi)) (some (.dict [("version", .int 0), ("model", .dict [("k", .int 3)])])) .none
      = .ok (.inst "C" [("model", .inst "Model" [("net", .inst "Net" [("n", .int 8)]), ("k", .int 3)])]) := by
  have hr : (VerInfo.mk 1 [(0, [.changeDefault ["model", "net", "n"] (.int 4) (.int 8)])]).rulesFrom 0
    = [.changeDefault ["model", "net", "n"] (.int 4) (.int 8)] := rfl
  refine ⟨.there rfl rfl (.here rfl), ?_, solid_cons.2 ⟨_, rfl, rfl, solid_single⟩, rfl⟩
  rw [hr]
  intro r h
  simp only [List.mem_cons, List.not_mem_nil, or_false] at h
  subst h
  exact .inr ⟨"n", [], _, .inr ⟨_, rfl⟩, by decide⟩

end HS
