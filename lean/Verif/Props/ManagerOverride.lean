import Verif.Props.NoFile
import Verif.Props.OverrideLoad
import Verif.Props.OverrideVersions

/-! C47: overrides apply wherever the config comes from (hyperstate.py:154-168) -/

namespace HS

/-- C47: for every class, versioned or not: the config is read from the document with the overrides applied to it (C11, C12 say what
that means), wherever the document comes from; without one they are applied to `{}`. -/
theorem C47_document (E : MgrEnv) (disk : Dir Files) (c : Val) (m : Mgr) (h : (Mgr.new E disk).readConfig E = .ok (c, m)) :
    ∃ doc doc1 es, ConfigFrom E disk doc ∧ applyOverrides E.w.ron E.cfgTy E.overrides (doc.getD (.dict [])) = .ok doc1 ∧
      fromDict (E.w.dcfg true doc.isSome) E.cfgTy E.ignoreExtra "" doc1 = .ok (c, es) := by
  obtain ⟨doc, l, h1, h2, rfl⟩ := (C47_config E disk c).1 ⟨m, h⟩
  have h3 : typedLoad (E.w.dcfg true doc.isSome) E.w.ron (some E.overrides) E.ignoreExtra E.cfgTy (doc.getD (.dict [])) = .ok l := by
    cases doc <;> exact h2
  simp only [typedLoad, bind, Except.bind, pure, Except.pure] at h3
  cases ho : applyOverrides E.w.ron E.cfgTy E.overrides (doc.getD (.dict [])) with
  | error e => rw [ho] at h3; exact (nomatch h3)
  | ok doc1 =>
    rw [ho] at h3
    dsimp only at h3
    cases hq : fromDict (E.w.dcfg true doc.isSome) E.cfgTy E.ignoreExtra "" doc1 with
    | error e => rw [hq] at h3; exact (nomatch h3)
    | ok q =>
      obtain ⟨v, es⟩ := q
      rw [hq] at h3
      dsimp only at h3
      cases hr : regAll [] es with
      | error e => rw [hr] at h3; exact (nomatch h3)
      | ok r => rw [hr] at h3; cases h3; exact ⟨doc, doc1, es, h1, ho, hq⟩

/-- C47: wherever the config of a manager comes from (a checkpoint, a file, the checkpoint at `init_path`, or nowhere), the field that an
override names holds what is made of the value that the override denotes, unless a later override concerns a related path. As in
C15 for classes without version, and documents and override texts without `<weak>` markers. -/
theorem C47_overrides (E : MgrEnv) (disk : Dir Files) (n : String) (fs : List Fld) (hE : E.cfgTy = .data n fs .none)
    (hron : ∀ s v, E.w.ron s = .ok v → NoMark v) (pre post : List String) (o key s : String) (p : List String) (t : PyTy)
    (ho : E.overrides = pre ++ o :: post) (hov : IsOv o key p s)
    (hlast : ∀ o' ∈ post, ∀ key' p' s', IsOv o' key' p' s' → Unrelated p' p)
    (hmark : ∀ o' ∈ pre ++ o :: post, ∀ key' p' s', IsOv o' key' p' s' → WEAK_REF ∉ p')
    (hdoc : ∀ doc, ConfigFrom E disk (some doc) → NoMark doc)
    (hf : FieldAtU fs p t) (hrec : t = .bool → ∃ b, s ∈ boolSpelling b) (hn : NAME_KEY ∉ p) (c : Val) (m : Mgr)
    (h : (Mgr.new E disk).readConfig E = .ok (c, m)) :
    ∃ file x y es path, OvVal E.w.ron t s x ∧ fromDict (E.w.dcfg true file) t false path x = .ok (y, es) ∧ c.attr p = some y := by
  obtain ⟨doc, l, h1, h2, rfl⟩ := (C47_config E disk c).1 ⟨m, h⟩
  rw [hE, ho] at h2
  cases doc with
  | none =>
    have hnm : NoMark (.dict []) := by intro q; cases q <;> rfl
    exact ⟨false, C15_reaches_partial _ _ hron n fs _ _ l pre post o key s p t h2 hov hlast hmark hnm hf hrec hn⟩
  | some d => exact ⟨true, C15_reaches_partial _ _ hron n fs _ _ l pre post o key s p t h2 hov hlast hmark (hdoc d h1) hf hrec hn⟩

/-- without a file `n=5` replaces the default 3 -/
example : let E : MgrEnv := { ExNF.E with cfgTy := .data "C" [.mk "n" .int (some (.int 3))] .none, overrides := ["n=5"],
                                          w := { ExNF.E.w with ron := Ex.ronIdent } }
    (∃ m, (Mgr.new E []).readConfig E = .ok (.inst "C" [("n", .int 5)], m)) ∧ IsOv "n=5" "n" ["n"] "5" ∧
    FieldAtU [.mk "n" .int (some (.int 3))] ["n"] .int ∧ (∀ s v, E.w.ron s = .ok v → NoMark v) ∧
    (∀ doc, ConfigFrom E [] (some doc) → NoMark doc) := by
  refine ⟨⟨_, rfl⟩, ⟨by decide, by decide, by decide⟩, .here (f := .mk "n" .int _) rfl, Ex.ronIdent_ok, ?_⟩
  intro doc h
  cases h with
  | ckpt h1 _ _ => cases h1
  | file _ h => cases h
  | dir _ h => cases h

/-- C47: the same for a versioned config class and fields in versioned sections, if the rules that run for the document's versions do not
concern the field (`ReachV`, as in C15_versions_partial). -/
theorem C47_overrides_versions (E : MgrEnv) (disk : Dir Files) (n : String) (fs : List Fld) (ver : Option VerInfo) (hE : E.cfgTy = .data n fs ver)
    (hron : ∀ s v, E.w.ron s = .ok v → NoMark v) (pre post : List String) (o key s : String) (p : List String) (t : PyTy)
    (ho : E.overrides = pre ++ o :: post) (hov : IsOv o key p s)
    (hlast : ∀ o' ∈ post, ∀ key' p' s', IsOv o' key' p' s' → Unrelated p' p)
    (hmark : ∀ o' ∈ pre ++ o :: post, ∀ key' p' s', IsOv o' key' p' s' →
      WEAK_REF ∉ p' ∧ ∀ q k, q ++ [k] <+: p → Unrelated p' (q ++ ["version"]))
    (hdoc : ∀ doc, ConfigFrom E disk doc → NoMark (doc.getD (.dict [])) ∧
      ReachV true ver fs (fun q => (doc.getD (.dict [])).at? (q ++ ["version"])) p t)
    (hrec : t = .bool → ∃ b, s ∈ boolSpelling b) (hn : NAME_KEY ∉ p) (c : Val) (m : Mgr)
    (h : (Mgr.new E disk).readConfig E = .ok (c, m)) :
    ∃ file x y es path, OvVal E.w.ron t s x ∧ fromDict (E.w.dcfg true file) t false path x = .ok (y, es) ∧ c.attr p = some y := by
  obtain ⟨doc, l, h1, h2, rfl⟩ := (C47_config E disk c).1 ⟨m, h⟩
  rw [hE, ho] at h2
  obtain ⟨hd, hr⟩ := hdoc doc h1
  cases doc with
  | none => exact ⟨false, C15_versions_partial _ _ hron n fs ver _ _ l pre post o key s p t h2 hov hlast hmark hd hr hrec hn⟩
  | some d => exact ⟨true, C15_versions_partial _ _ hron n fs ver _ _ l pre post o key s p t h2 hov hlast hmark hd hr hrec hn⟩

/-- a versioned class without a file: whatever its rules are, none runs, and `n=5` replaces the default 3 -/
example (vi : VerInfo) : let E : MgrEnv := { ExNF.E with cfgTy := .data "C" [.mk "n" .int (some (.int 3))] (some vi), overrides := ["n=5"],
                                                         w := { ExNF.E.w with ron := Ex.ronIdent } }
    (∃ m, (Mgr.new E []).readConfig E = .ok (.inst "C" [("n", .int 5)], m)) ∧
    ∀ doc, ConfigFrom E [] doc → NoMark (doc.getD (.dict [])) ∧
      ReachV true (some vi) [.mk "n" .int (some (.int 3))] (fun q => (doc.getD (.dict [])).at? (q ++ ["version"])) ["n"] .int := by
  refine ⟨⟨_, rfl⟩, ?_⟩
  intro doc h
  cases h with
  | ckpt h1 _ _ => cases h1
  | file _ h => cases h
  | dir _ h => cases h
  | absent _ _ =>
    refine ⟨by intro q; cases q <;> rfl, .last ⟨by decide, .inr ⟨rfl, rfl⟩⟩ (.here (f := .mk "n" .int _) rfl)⟩

end HS
