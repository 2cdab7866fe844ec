import Verif.Proofs.Frame
import Verif.Props.Overrides
/-!
# Overrides, upgrades and defaults seen from the loaded object: C14, C15, C17, C22
-/
namespace HS

/-- the internal weak marker occurs nowhere in the document -/
def NoMark (v : Val) : Prop := ∀ q, v.at? (q ++ [WEAK_REF]) = none

theorem NoMark.isWeak {v : Val} (h : NoMark v) : v.isWeak = false := by
  have := h []
  cases v <;> first | rfl | skip
  simp only [List.nil_append, at?_dict_cons] at this
  simp only [Val.isWeak, dhas]
  rename_i d
  cases hd : dget d WEAK_REF with
  | none => rfl
  | some x => simp [hd] at this

theorem NoMark.at? {v w : Val} {p : List String} (h : NoMark v) (hp : v.at? p = some w) : NoMark w := by
  intro q
  have := h (p ++ q)
  rw [List.append_assoc, at?_append, hp] at this
  exact this

theorem noMark_str (s : String) : NoMark (.str s) := by intro q; cases q <;> rfl
theorem noMark_bool (b : Bool) : NoMark (.bool b) := by intro q; cases q <;> rfl

theorem noMark_setPath {val sd sd' : Val} {p : List String} (h : setPath val sd p = .ok sd') (hp : WEAK_REF ∉ p)
    (hv : NoMark val) (hs : NoMark sd) : NoMark sd' := by
  obtain ⟨h1, h2, h3⟩ := setPath_spec val h
  intro q
  by_cases hpq : p <+: q ++ [WEAK_REF]
  · rcases prefix_append_single hpq with ⟨t, ht⟩ | e
    · rw [← ht, List.append_assoc, at?_append, h1]
      exact hv t
    · exact absurd (by rw [e]; simp) hp
  · by_cases hqp : q ++ [WEAK_REF] <+: p
    · exact absurd (hqp.subset (by simp)) hp
    · rw [h2 _ ⟨hpq, hqp⟩]; exact hs q

theorem overridesLoop_noMark (ron : RonParse) (hron : ∀ s v, ron s = .ok v → NoMark v) (sfs : List (String × SFld)) :
    ∀ (os : List String) (sd : Val) (stale : Option Val) (errs : List String) (sd' : Val) (errs' : List String),
    overridesLoop ron sfs os sd stale errs = .ok (sd', errs') → (∀ o ∈ os, ∀ key p s, IsOv o key p s → WEAK_REF ∉ p) →
    (∀ v, stale = some v → NoMark v) → NoMark sd → NoMark sd' := by
  intro os
  induction os with
  | nil => intro sd st errs sd' errs' h _ _ hs; simp [overridesLoop] at h; rw [← h.1]; exact hs
  | cons o os ih =>
    intro sd st errs sd' errs' h hw hst hs
    have hw' := fun o' (ho' : o' ∈ os) => hw o' (List.mem_cons_of_mem _ ho')
    simp only [overridesLoop] at h
    split at h
    · simp at h
    · rename_i key s hsp
      split at h
      · exact ih _ _ _ _ _ h hw' hst hs
      · simp only [bind, Except.bind] at h
        split at h
        · simp at h
        · rename_i val hval
          split at h
          · simp at h
          · rename_i sd1 hset
            have hv : NoMark val := by
              simp only [overrideVal] at hval
              split at hval
              · simp at hval; rw [← hval]; exact noMark_str _
              · split at hval
                · split at hval
                  · simp at hval; rw [← hval]; exact noMark_bool _
                  · split at hval
                    · rename_i w; simp at hval; exact hval ▸ hst w rfl
                    · simp at hval
                · exact hron _ _ hval
            exact ih _ _ _ _ _ h hw' (fun v e => by simp at e; exact e ▸ hv)
              (noMark_setPath hset (hw o (by simp) _ _ _ (isOv_of_split hsp)) hv hs)

theorem applyOverrides_noMark {ron : RonParse} (hron : ∀ s v, ron s = .ok v → NoMark v) {n : String} {fs : List Fld}
    {ver : Option VerInfo} {os : List String} {doc doc' : Val} (h : applyOverrides ron (.data n fs ver) os doc = .ok doc')
    (hw : ∀ o ∈ os, ∀ key p s, IsOv o key p s → WEAK_REF ∉ p) (hs : NoMark doc) : NoMark doc' := by
  obtain ⟨sfs, _, hl⟩ := applyOverrides_ok h
  exact overridesLoop_noMark ron hron sfs _ _ _ _ _ _ hl hw (by simp) hs

theorem NoMark.solid {v x : Val} {p : List String} (h : NoMark v) (hp : v.at? p = some x) : Solid v p := by
  intro q hq hne
  obtain ⟨t, rfl⟩ := hq
  cases t with
  | nil => simp at hne
  | cons k t =>
    rw [at?_append] at hp
    cases hat : v.at? q with
    | none => simp [hat] at hp
    | some c =>
      cases hd : c.isDict
      · simp [hat, at?_cons_of_not_dict c hd] at hp
      · obtain ⟨d, rfl⟩ := (isDict_iff c).1 hd
        refine ⟨d, rfl, fun _ => ?_⟩
        have := h q
        rw [at?_append, hat] at this
        simp only [Option.bind_some, at?_dict_cons] at this
        cases hx : dget d WEAK_REF with
        | none => rfl
        | some y => simp [hx] at this

/-! ## C15 -/

/-- C15: for a class without version (and no versioned class on the way to the field), if the load succeeds the attribute at
the overridden path is what `from_dict` makes of the denoted value for the declared type of that field. -/
theorem C15_reaches_partial (c : DCfg) (ron : RonParse) (hron : ∀ s v, ron s = .ok v → NoMark v) (n : String) (fs : List Fld)
    (ig : Bool) (doc : Val) (l : Loaded) (pre post : List String) (o key s : String) (p : List String) (t : PyTy)
    (h : typedLoad c ron (some (pre ++ o :: post)) ig (.data n fs .none) doc = .ok l) (hov : IsOv o key p s)
    (hlast : ∀ o' ∈ post, ∀ key' p' s', IsOv o' key' p' s' → Unrelated p' p)
    (hmark : ∀ o' ∈ pre ++ o :: post, ∀ key' p' s', IsOv o' key' p' s' → WEAK_REF ∉ p') (hdoc : NoMark doc)
    (hf : FieldAtU fs p t) (hrec : t = .bool → ∃ b, s ∈ boolSpelling b) (hn : NAME_KEY ∉ p) :
    ∃ x y es path, OvVal ron t s x ∧ fromDict c t false path x = .ok (y, es) ∧ l.value.attr p = some y := by
  simp only [typedLoad, bind, Except.bind, pure, Except.pure] at h
  split at h
  · simp at h
  · rename_i doc' hdoc'
    split at h
    · simp at h
    · rename_i r hr
      split at h
      · simp at h
      · simp only [Except.ok.injEq] at h
        obtain ⟨t', x, ht', hx, hval⟩ := C11_override_wins_partial ron n fs .none doc doc' pre post o key s p hdoc' hov hlast
        have htt : t' = t := fieldAt_unique ht' hf.toFieldAt
        subst htt
        have hnm := applyOverrides_noMark hron hdoc' hmark hdoc
        obtain ⟨y, es, path, h1, h2⟩ := fromDict_attr c hf n ig "" doc' r.1 r.2 x hr (hnm.solid hx) hx (hnm.at? hx).isWeak hn
        exact ⟨x, y, es, path, hval hrec, h2, by rw [← h]; exact h1⟩

/-- C15, spelled out for the leaf types: a string override is taken literally, a boolean one as spelled, a number as the RON
number. -/
theorem C15_leaf (c : DCfg) (ron : RonParse) (hron : ∀ s v, ron s = .ok v → NoMark v) (n : String) (fs : List Fld)
    (ig : Bool) (doc : Val) (l : Loaded) (o key s : String) (p : List String) (t : PyTy)
    (h : typedLoad c ron (some [o]) ig (.data n fs .none) doc = .ok l) (hov : IsOv o key p s)
    (hmark : WEAK_REF ∉ p) (hdoc : NoMark doc) (hf : FieldAtU fs p t) (hn : NAME_KEY ∉ p) :
    (t = .str → l.value.attr p = some (.str s)) ∧
    (∀ b, t = .bool → s ∈ boolSpelling b → l.value.attr p = some (.bool b)) ∧
    (∀ i, t = .int → ron s = .ok (.int i) → l.value.attr p = some (.int i)) ∧
    (∀ f, t = .float → ron s = .ok (.flt f) → l.value.attr p = some (.flt f)) ∧
    (∀ i, t = .optional .int → ron s = .ok (.int i) → l.value.attr p = some (.int i)) := by
  have base := C15_reaches_partial c ron hron n fs ig doc l [] [] o key s p t h hov (by simp)
    (by
      intro o' ho' key' p' s' hov'
      simp at ho'
      subst ho'
      have h1 := split_of_isOv hov
      rw [split_of_isOv hov'] at h1
      simp at h1
      rw [hov'.2.2, h1.1, ← hov.2.2]; exact hmark) hdoc hf
  refine ⟨?_, ?_, ?_, ?_, ?_⟩
  · rintro rfl
    obtain ⟨x, y, es, path, h1, h2, h3⟩ := base (by simp) hn
    cases h1 with
    | str => simp [fromDict] at h2; rw [h3, h2.1]
    | other h => exact absurd rfl h
  · rintro b rfl hb
    obtain ⟨x, y, es, path, h1, h2, h3⟩ := base (fun _ => ⟨b, hb⟩) hn
    have hx : x = .bool b := by
      cases h1 with
      | @bool b' _ hb' =>
        have e1 := (parseBool_iff s b).2 hb
        rw [(parseBool_iff s b').2 hb'] at e1
        simp at e1; rw [e1]
      | other _ h => exact absurd rfl h
    subst hx
    simp [fromDict] at h2; rw [h3, h2.1]
  · rintro i rfl hr
    obtain ⟨x, y, es, path, h1, h2, h3⟩ := base (by simp) hn
    cases h1 with
    | other _ _ hx => rw [hr] at hx; cases hx; simp [fromDict, schedHook] at h2; rw [h3, h2.1]
  · rintro f rfl hr
    obtain ⟨x, y, es, path, h1, h2, h3⟩ := base (by simp) hn
    cases h1 with
    | other _ _ hx => rw [hr] at hx; cases hx; simp [fromDict, schedHook] at h2; rw [h3, h2.1]
  · rintro i rfl hr
    obtain ⟨x, y, es, path, h1, h2, h3⟩ := base (by simp [PyTy.optional]) hn
    cases h1 with
    | other _ _ hx =>
      rw [hr] at hx; cases hx
      simp [PyTy.optional, fromDict, isOptionalArgs, PyTy.isNoneT, Val.isNone, fdHead, schedHook] at h2
      rw [h3, h2.1]

/-- what RON makes of an identifier: an empty struct of that name (`preserve_structs=True`) -/
def Ex.ronIdent : RonParse := fun s => if s = "adam" then .ok (.ntup "adam" []) else if s = "5" then .ok (.int 5) else .error .valueError

/-- C15 is false for enum fields: `opt=adam` is rejected, although `adam` is a member of that name and value. -/
theorem C15_enum_false : ∃ (fs : List Fld) (doc : Val), FieldAtU fs ["opt"] Ex.optTy ∧
    typedLoad (Ex.world.dcfg false true) Ex.ronIdent (some ["opt=adam"]) false (.data "C" fs .none) doc = .error .valueError ∧
    ∃ l, typedLoad (Ex.world.dcfg false true) Ex.ronIdent (some []) false (.data "C" fs .none) doc = .ok l :=
  ⟨[.mk "opt" Ex.optTy (some (.enm "Opt" "sgd" (.str "sgd")))], .dict [], .here (f := .mk "opt" Ex.optTy _) rfl, rfl, _, rfl⟩

theorem Ex.ronIdent_ok : ∀ s v, Ex.ronIdent s = .ok v → NoMark v := by
  intro s v h
  simp only [Ex.ronIdent] at h
  split at h
  · cases h; intro q; cases q <;> rfl
  · split at h
    · cases h; intro q; cases q <;> rfl
    · cases h

example : typedLoad (Ex.world.dcfg false true) Ex.ronIdent (some ["net.n=5"]) false (.data "C" Ex.ovTy none)
    (.dict [("flag", .bool true), ("name", .str "x"), ("net", .dict [("act", .str "relu")])])
    = .ok ⟨.inst "C" [("net", .inst "Net" [("n", .int 5), ("act", .str "relu")]), ("flag", .bool true), ("name", .str "x")], [], []⟩ := by
  have : applyOverrides Ex.ronIdent (.data "C" Ex.ovTy none) ["net.n=5"]
      (.dict [("flag", .bool true), ("name", .str "x"), ("net", .dict [("act", .str "relu")])])
      = .ok (.dict [("flag", .bool true), ("name", .str "x"), ("net", .dict [("act", .str "relu"), ("n", .int 5)])]) := rfl
  simp only [typedLoad, this, bind, Except.bind]
  rfl

example : FieldAtU Ex.ovTy ["net", "n"] .int :=
  .there (f := .mk "net" (.optional Ex.netTy) none) rfl (.opt (.refl _ _ _)) (.here (f := .mk "n" .int (some (.int 4))) rfl)

/-! ## C14 -/

/-- C14, part: an override of a field of a versioned class determines that field after the upgrade, provided none of the
rules that run mentions a path related to it. (Missing: rules that mention the path; see `C14_false`.) -/
theorem C14_override_survives_partial (c : DCfg) (ron : RonParse) (hron : ∀ s v, ron s = .ok v → NoMark v) (n : String)
    (fs : List Fld) (vi : VerInfo) (ig : Bool) (doc : Val) (v0 : Int) (l : Loaded) (pre post : List String) (o key s : String)
    (p : List String) (t : PyTy) (hver : doc.at? ["version"] = some (.int v0))
    (h : typedLoad c ron (some (pre ++ o :: post)) ig (.data n fs (some vi)) doc = .ok l) (hov : IsOv o key p s)
    (hlast : ∀ o' ∈ post, ∀ key' p' s', IsOv o' key' p' s' → Unrelated p' p)
    (hmark : ∀ o' ∈ pre ++ o :: post, ∀ key' p' s', IsOv o' key' p' s' → WEAK_REF ∉ p' ∧ p'.head? ≠ some "version")
    (hdoc : NoMark doc)
    (hrules : ∀ r ∈ vi.rulesFrom v0, ∀ p' ∈ r.paths, Unrelated p' p ∧ WEAK_REF ∉ p')
    (hf : FieldAtU fs p t) (hrec : t = .bool → ∃ b, s ∈ boolSpelling b) (hn : NAME_KEY ∉ p) :
    ∃ x y es path, OvVal ron t s x ∧ fromDict c t false path x = .ok (y, es) ∧ l.value.attr p = some y := by
  simp only [typedLoad, bind, Except.bind, pure, Except.pure] at h
  split at h
  · simp at h
  · rename_i doc' hdoc'
    split at h
    · simp at h
    · rename_i r hr
      split at h
      · simp at h
      · simp only [Except.ok.injEq] at h
        obtain ⟨t', x, ht', hx, hval⟩ := C11_override_wins_partial ron n fs (some vi) doc doc' pre post o key s p hdoc' hov hlast
        have htt : t' = t := fieldAt_unique ht' hf.toFieldAt
        subst htt
        have hp0 : p ≠ [] := by rw [hov.2.2]; exact pySplit_ne_nil _ _
        have hpm := hmark o (by simp) _ _ _ hov
        have hnm := applyOverrides_noMark hron hdoc' (fun o' ho' k p' s' h => (hmark o' ho' k p' s' h).1) hdoc
        have hver' : doc'.at? ["version"] = some (.int v0) := by
          rw [C11_frame ron n fs (some vi) doc doc' _ hdoc' ["version"] ?_, hver]
          intro o' ho' k p' s' hov'
          have hp' := (hmark o' ho' _ _ _ hov').2
          have hp0' : p' ≠ [] := by rw [hov'.2.2]; exact pySplit_ne_nil _ _
          cases p' with
          | nil => exact absurd rfl hp0'
          | cons j js =>
            simp at hp'
            constructor
            · intro hh; simp at hh; exact hp' hh.1
            · intro hh; simp at hh; exact hp' hh.symm
        cases hd : doc'.isDict
        · simp [at?_cons_of_not_dict doc' hd] at hver'
        · obtain ⟨d, rfl⟩ := (isDict_iff doc').1 hd
          have hv : dget d "version" = some (.int v0) := by
            simp only [at?_dict_cons] at hver'
            cases hx : dget d "version" with
            | none => simp [hx] at hver'
            | some y => simpa [hx] using hver'
          cases hvh : versionHook c.allowMissing vi (.dict d) with
          | error e => simp [fromDict, hvh, bind, Except.bind] at hr
          | ok w =>
            have hup : Upgraded c (some vi) (.dict d) w := hvh
            rw [fromDict_upgraded hup] at hr
            have hrun := versionHook_rules hv hvh
            have hdel : ∀ q : List String, q ≠ [] → q.head? ≠ some "version" →
                (Val.dict (ddel d "version")).at? q = (Val.dict d).at? q := by
              intro q hq hq'
              cases q with
              | nil => exact absurd rfl hq
              | cons j js =>
                simp only [at?_dict_cons]
                rw [dget_ddel_ne _ (by simpa using fun e => hq' (by simp [e]))]
            have hnm' : NoMark (.dict (ddel d "version")) := by
              intro q
              by_cases hq : (q ++ [WEAK_REF]).head? = some "version"
              · cases q with
                | nil => simp [WEAK_REF] at hq
                | cons j js =>
                  simp at hq; subst hq
                  simp only [List.cons_append, at?_dict_cons, dget_ddel_self]; rfl
              · rw [hdel _ (by simp) hq]; exact hnm q
            have hx' : (Val.dict (ddel d "version")).at? p = some x := by rw [hdel p hp0 hpm.2, hx]
            obtain ⟨f1, f2⟩ := applyRules_frame hpm.1 hp0 hrun hrules
            obtain ⟨y, es, path, h1, h2⟩ := fromDict_attr c hf n ig "" w r.1 r.2 x hr (f2 (hnm'.solid hx'))
              (by rw [f1, hx']) (hnm.at? hx).isWeak hn
            exact ⟨x, y, es, path, hval hrec, h2, by rw [← h]; exact h1⟩

/-- C14 is false: the value that `RenameField` moves replaces the override. -/
theorem C14_false : ∃ (fs : List Fld) (vi : VerInfo) (doc : Val) (l : Loaded),
    typedLoad (Ex.world.dcfg false true) Ex.ronIdent (some ["lr=5"]) false (.data "C" fs (some vi)) doc = .ok l ∧
    l.value.attr ["lr"] = some (.int 1) :=
  ⟨[.mk "lr" .int none], ⟨1, [(0, [.rename ["learning_rate"] ["lr"]])]⟩,
    .dict [("version", .int 0), ("learning_rate", .int 1)], _, rfl, rfl⟩

example : let vi : VerInfo := ⟨2, [(0, [.delete ["old"]]), (1, [.rename ["net", "m"] ["net", "k"]])]⟩
    (∀ r ∈ vi.rulesFrom 0, ∀ p' ∈ r.paths, Unrelated p' ["net", "n"] ∧ WEAK_REF ∉ p') ∧
    typedLoad (Ex.world.dcfg false true) Ex.ronIdent (some ["net.n=5"]) false
      (.data "C" [.mk "net" (.data "N" [.mk "n" .int none, .mk "k" .int none] none) none] (some vi))
      (.dict [("version", .int 0), ("old", .none), ("net", .dict [("m", .int 3)])])
      = .ok ⟨.inst "C" [("net", .inst "N" [("n", .int 5), ("k", .int 3)])], [], []⟩ := by
  constructor
  rotate_left
  · have : applyOverrides Ex.ronIdent
        (.data "C" [.mk "net" (.data "N" [.mk "n" .int none, .mk "k" .int none] none) none]
          (some ⟨2, [(0, [.delete ["old"]]), (1, [.rename ["net", "m"] ["net", "k"]])]⟩)) ["net.n=5"]
        (.dict [("version", .int 0), ("old", .none), ("net", .dict [("m", .int 3)])])
        = .ok (.dict [("version", .int 0), ("old", .none), ("net", .dict [("m", .int 3), ("n", .int 5)])]) := rfl
    simp only [typedLoad, this, bind, Except.bind]
    rfl
  intro r hr
  have : r = .delete ["old"] ∨ r = .rename ["net", "m"] ["net", "k"] := by
    simpa [VerInfo.rulesFrom, rangeI, List.range, List.range.loop, VerInfo.rulesAt] using hr
  rcases this with rfl | rfl <;> simp [Rule.paths, Unrelated, WEAK_REF]

/-! ## C17 -/

theorem versionHook_missing (am : Bool) (vi : VerInfo) (d : List (String × Val)) (h : dget d "version" = .none) :
    versionHook am vi (.dict d) = if am then .ok (.dict d) else .error .valueError := by
  simp [versionHook, h, ddel_not_mem _ _ h]

/-- overrides of a class leave the entries of the document alone that are no fields -/
theorem overrides_keep_key {q : String} {ron : RonParse} {n : String} {fs : List Fld} {ver : Option VerInfo} {os : List String}
    {d : List (String × Val)} {doc' : Val} (hfs : q ∉ fs.map Fld.name)
    (h : applyOverrides ron (.data n fs ver) os (.dict d) = .ok doc') :
    ∃ d', doc' = .dict d' ∧ dget d' q = dget d q := by
  obtain ⟨sfs, hm, hl⟩ := applyOverrides_ok h
  have key : ∀ (os : List String) (d : List (String × Val)) (stale : Option Val) (errs errs' : List String) (sd' : Val),
      overridesLoop ron sfs os (.dict d) stale errs = .ok (sd', errs') →
      ∃ d', sd' = .dict d' ∧ dget d' q = dget d q := by
    intro os
    induction os with
    | nil => intro d st e e' sd' h; simp [overridesLoop] at h; exact ⟨d, h.1.symm, rfl⟩
    | cons o os ih =>
      intro d st e e' sd' h
      simp only [overridesLoop] at h
      split at h
      · simp at h
      · rename_i k s hs
        split at h
        · exact ih _ _ _ _ _ h
        · rename_i sf hff
          simp only [bind, Except.bind] at h
          split at h
          · simp at h
          · split at h
            · simp at h
            · rename_i sd1 hset
              obtain ⟨d1, rfl⟩ := (isDict_iff sd1).1 (setPath_isDict hset).2
              obtain ⟨d', rfl, hd'⟩ := ih _ _ _ _ _ h
              refine ⟨d', rfl, ?_⟩
              rw [hd']
              have hu : Unrelated (pySplit '.' k) [q] := by
                obtain ⟨t, ht, _⟩ := (findField_iff _ hm).2 sf hff
                have hne : ∀ (g : Fld) (j : String), fs.find? (fun f => f.name == j) = some g → j ≠ q := by
                  intro g j hg e
                  subst e
                  exact hfs (List.mem_map.2 ⟨g, List.mem_of_find?_eq_some hg, by simpa using List.find?_some hg⟩)
                cases hp : pySplit '.' k with
                | nil => exact absurd hp (pySplit_ne_nil _ _)
                | cons j js =>
                  rw [hp] at ht
                  have hj : j ≠ q := by
                    cases ht with
                    | here hg => exact hne _ _ hg
                    | there hg _ _ => exact hne _ _ hg
                  constructor
                  · intro hh; simp at hh; exact hj hh.1
                  · intro hh; simp at hh; exact hj hh.symm
              have := (setPath_spec _ hset).2.1 _ hu
              simp only [at?_dict_cons, at?_nil] at this
              cases h1 : dget d1 q <;> cases h2 : dget d q <;> simp_all
  obtain ⟨d', h1, h2⟩ := key os d _ _ _ _ hl
  exact ⟨d', h1, h2⟩

theorem typedLoad_missing (c : DCfg) (ron : RonParse) (os : Option (List String)) (ig : Bool) (n : String) (fs : List Fld)
    (vi : VerInfo) (d : List (String × Val)) (hfs : "version" ∉ fs.map Fld.name) (hd : dget d "version" = .none) :
    (c.allowMissing = false → ∃ e, typedLoad c ron os ig (.data n fs (some vi)) (.dict d) = .error e ∧
      ((os = .none ∨ ∃ os', os = some os' ∧ ∃ doc', applyOverrides ron (.data n fs (some vi)) os' (.dict d) = .ok doc') → e = .valueError)) ∧
    (c.allowMissing = true →
      typedLoad c ron os ig (.data n fs (some vi)) (.dict d) = typedLoad c ron os ig (.data n fs .none) (.dict d)) := by
  have step : ∀ d' : List (String × Val), dget d' "version" = .none →
      (c.allowMissing = false → fromDict c (.data n fs (some vi)) ig "" (.dict d') = .error .valueError) ∧
      (c.allowMissing = true → fromDict c (.data n fs (some vi)) ig "" (.dict d') = fromDict c (.data n fs .none) ig "" (.dict d')) := by
    intro d' hd'
    constructor
    · intro ham
      simp [fromDict, versionHook_missing _ vi d' hd', ham, bind, Except.bind]
    · intro ham
      exact fromDict_upgraded (v := .dict d') (by simp [Upgraded, versionHook_missing _ vi d' hd', ham]) n fs ig ""
  cases os with
  | none =>
    constructor
    · intro ham
      exact ⟨.valueError, by simp [typedLoad, (step d hd).1 ham, bind, Except.bind, pure, Except.pure], fun _ => rfl⟩
    · intro ham
      simp [typedLoad, (step d hd).2 ham]
  | some os =>
    cases ho : applyOverrides ron (.data n fs (some vi)) os (.dict d) with
    | error e =>
      constructor
      · intro _
        exact ⟨e, by simp [typedLoad, ho, bind, Except.bind], by simp [ho]⟩
      · intro _
        have : applyOverrides ron (.data n fs .none) os (.dict d) = .error e := by
          rw [← ho]; simp only [applyOverrides, materialize, bind, Except.bind, pure, Except.pure]
          cases materializeF fs <;> rfl
        simp [typedLoad, ho, this, bind, Except.bind]
    | ok doc' =>
      obtain ⟨d', rfl, hd'⟩ := overrides_keep_key hfs ho
      rw [hd] at hd'
      constructor
      · intro ham
        exact ⟨.valueError, by simp [typedLoad, ho, (step d' hd').1 ham, bind, Except.bind], fun _ => rfl⟩
      · intro ham
        have : applyOverrides ron (.data n fs .none) os (.dict d) = .ok (.dict d') := by
          rw [← ho]; simp only [applyOverrides, materialize, bind, Except.bind, pure, Except.pure]
          cases materializeF fs <;> rfl
        simp [typedLoad, ho, this, (step d' hd').2 ham, bind, Except.bind]

/-- C17: `load`, `loads` and the loading of a state reject a document of a versioned class that has no version (ValueError unless an override
fails first). -/
theorem C17_load_rejects (w : World) (n : String) (fs : List Fld) (vi : VerInfo) (os : Option (List String)) (ig : Bool)
    (d : List (String × Val)) (hfs : "version" ∉ fs.map Fld.name) (hd : dget d "version" = .none) :
    (∃ e, hsLoad w (.data n fs (some vi)) (some (.dict d)) os = .error e ∧ (os = .none → e = .valueError)) ∧
    (∃ e, hsLoads w (.data n fs (some vi)) (.dict d) os ig = .error e ∧ (os = .none → e = .valueError)) ∧
    smLoadState w (.data n fs (some vi)) (.dict d) ig = .error .valueError := by
  refine ⟨?_, ?_, ?_⟩
  · obtain ⟨e, he, h2⟩ := (typedLoad_missing (w.dcfg false true) w.ron os false n fs vi d hfs hd).1 rfl
    exact ⟨e, by simp [hsLoad, he, bind, Except.bind], fun h => h2 (.inl h)⟩
  · obtain ⟨e, he, h2⟩ := (typedLoad_missing (w.dcfg false false) w.ron os ig n fs vi d hfs hd).1 rfl
    exact ⟨e, by simp [hsLoads, he, bind, Except.bind], fun h => h2 (.inl h)⟩
  · obtain ⟨e, he, h2⟩ := (typedLoad_missing (w.dcfg false true) w.ron .none ig n fs vi d hfs hd).1 rfl
    rw [smLoadState, he, h2 (.inl rfl)]

/-- C17: `StateManager` loads a config without version, and no upgrade rule runs: the result is that of the class without
version. -/
theorem C17_no_upgrade (w : World) (n : String) (fs : List Fld) (vi : VerInfo) (os : List String) (ig : Bool)
    (d : List (String × Val)) (hfs : "version" ∉ fs.map Fld.name) (hd : dget d "version" = .none) :
    smLoadConfig w (.data n fs (some vi)) (some (.dict d)) os ig = smLoadConfig w (.data n fs .none) (some (.dict d)) os ig := by
  simp only [smLoadConfig]
  exact (typedLoad_missing (w.dcfg true true) w.ron (some os) ig n fs vi d hfs hd).2 rfl

/-- C17 is false: treated as version 0, the document would load; `load`, `loads` and `StateManager` all reject it. -/
theorem C17_false : ∃ (n : String) (fs : List Fld) (vi : VerInfo) (d : List (String × Val)),
    dget d "version" = .none ∧
    (∃ v, hsLoad Ex.world (.data n fs (some vi)) (some (.dict (("version", .int 0) :: d))) .none = .ok v) ∧
    hsLoad Ex.world (.data n fs (some vi)) (some (.dict d)) .none = .error .valueError ∧
    hsLoads Ex.world (.data n fs (some vi)) (.dict d) .none false = .error .valueError ∧
    smLoadConfig Ex.world (.data n fs (some vi)) (some (.dict d)) [] false = .error .deserType :=
  ⟨"C", [.mk "lr" .int none], ⟨1, [(0, [.rename ["learning_rate"] ["lr"]])]⟩, [("learning_rate", .int 1)],
    rfl, ⟨_, rfl⟩, rfl, rfl, rfl⟩

theorem rulesFrom_nil {vi : VerInfo} {v0 : Int} (h : ∀ i, v0 ≤ i → vi.rulesAt i = []) : vi.rulesFrom v0 = [] := by
  simp only [VerInfo.rulesFrom, List.flatMap_eq_nil_iff]
  intro i hi
  simp only [rangeI, List.mem_map, List.mem_range] at hi
  obtain ⟨m, _, rfl⟩ := hi
  exact h _ (by omega)

/-! ## C16 at the entry points -/

theorem versionHook_int {am : Bool} {vi : VerInfo} {d : List (String × Val)} {v0 : Int} (hv : dget d "version" = some (.int v0))
    (hk : ∀ e ∈ vi.rules, e.1 < vi.version) :
    versionHook am vi (.dict d) = applyRules ((rangeI v0 vi.version).flatMap vi.rulesAt) (.dict (ddel d "version")) := by
  have hall : vi.rules.all (fun e => decide (e.1 < vi.version)) = true := by simpa using hk
  simp only [versionHook, hv, VerInfo.upgradeAny, hall, if_true, Val.asRangeInt, bind, Except.bind]
  exact C16_upgrade_runs vi _ v0 hk

theorem fromDict_versioned {c : DCfg} {n : String} {fs : List Fld} {vi : VerInfo} {d : List (String × Val)} {v0 : Int} (ig : Bool)
    (hv : dget d "version" = some (.int v0)) (hk : ∀ e ∈ vi.rules, e.1 < vi.version) :
    fromDict c (.data n fs (some vi)) ig "" (.dict d) =
      (applyRules ((rangeI v0 vi.version).flatMap vi.rulesAt) (.dict (ddel d "version")) >>= fromDict c (.data n fs .none) ig "") := by
  have h := versionHook_int (am := c.allowMissing) hv hk
  cases hr : applyRules ((rangeI v0 vi.version).flatMap vi.rulesAt) (.dict (ddel d "version")) with
  | error e => simp only [fromDict, h, hr, bind, Except.bind]
  | ok doc => exact fromDict_upgraded (ver := some vi) (by simp only [Upgraded]; exact h.trans hr) n fs ig ""

/-- C16: `load`, `loads` and the loading of a state give what they would give for the class without versions and the document that the
rules for the versions from the document's to the current one, in this order, make of it; an exception of a rule is passed on. -/
theorem C16_load (w : World) (n : String) (fs : List Fld) (vi : VerInfo) (ig : Bool) (d : List (String × Val)) (v0 : Int)
    (hv : dget d "version" = some (.int v0)) (hk : ∀ e ∈ vi.rules, e.1 < vi.version) :
    let upgraded := applyRules ((rangeI v0 vi.version).flatMap vi.rulesAt) (.dict (ddel d "version"))
    hsLoad w (.data n fs (some vi)) (some (.dict d)) .none = (upgraded >>= fun doc => hsLoad w (.data n fs .none) (some doc) .none) ∧
    hsLoads w (.data n fs (some vi)) (.dict d) .none ig = (upgraded >>= fun doc => hsLoads w (.data n fs .none) doc .none ig) ∧
    smLoadState w (.data n fs (some vi)) (.dict d) ig = (upgraded >>= fun doc => smLoadState w (.data n fs .none) doc ig) := by
  intro upgraded
  simp only [hsLoad, hsLoads, smLoadState, typedLoad, fromDict_versioned _ hv hk, bind, Except.bind, pure, Except.pure]
  cases hu : upgraded with
  | error e =>
    have hu' : applyRules ((rangeI v0 vi.version).flatMap vi.rulesAt) (.dict (ddel d "version")) = .error e := hu
    simp only [hu', and_self]
  | ok doc =>
    have hu' : applyRules ((rangeI v0 vi.version).flatMap vi.rulesAt) (.dict (ddel d "version")) = .ok doc := hu
    simp only [hu', and_self]

/-- C16: `StateManager` puts the overrides into the document as it was written, then the rules run. -/
theorem C16_load_overrides (w : World) (n : String) (fs : List Fld) (vi : VerInfo) (ig : Bool) (os : List String)
    (d : List (String × Val)) (v0 : Int) (hfs : "version" ∉ fs.map Fld.name) (hv : dget d "version" = some (.int v0))
    (hk : ∀ e ∈ vi.rules, e.1 < vi.version) (r : Loaded) :
    smLoadConfig w (.data n fs (some vi)) (some (.dict d)) os ig = .ok r ↔
      ∃ d' doc, applyOverrides w.ron (.data n fs .none) os (.dict d) = .ok (.dict d') ∧
        applyRules ((rangeI v0 vi.version).flatMap vi.rulesAt) (.dict (ddel d' "version")) = .ok doc ∧
        typedLoad (w.dcfg true true) w.ron .none ig (.data n fs .none) doc = .ok r := by
  have ho : applyOverrides w.ron (.data n fs (some vi)) os (.dict d) = applyOverrides w.ron (.data n fs .none) os (.dict d) := by
    simp only [applyOverrides, materialize, bind, Except.bind, pure, Except.pure]
    cases materializeF fs <;> rfl
  simp only [smLoadConfig, typedLoad, ho, bind, Except.bind, pure, Except.pure]
  cases h : applyOverrides w.ron (.data n fs .none) os (.dict d) with
  | error e => simp
  | ok doc' =>
    obtain ⟨d', rfl, hd'⟩ := overrides_keep_key hfs h
    rw [hv] at hd'
    simp only [fromDict_versioned _ hd' hk, bind, Except.bind, Except.ok.injEq, Val.dict.injEq]
    cases hu : applyRules ((rangeI v0 vi.version).flatMap vi.rulesAt) (.dict (ddel d' "version")) with
    | error e =>
      constructor
      · intro h1; exact (nomatch h1)
      rintro ⟨_, _, rfl, h2, _⟩
      rw [hu] at h2; exact (nomatch h2)
    | ok doc =>
      constructor
      · intro h1; exact ⟨d', doc, rfl, hu, h1⟩
      · rintro ⟨_, _, rfl, h2, h3⟩
        rw [hu, Except.ok.injEq] at h2
        rw [h2]; exact h3

/-- C16: a version above the current one is accepted: the document is loaded as it is, without its version. -/
theorem C16_load_newer (w : World) (n : String) (fs : List Fld) (vi : VerInfo) (ig : Bool) (d : List (String × Val)) (v0 : Int)
    (hv : dget d "version" = some (.int v0)) (hk : ∀ e ∈ vi.rules, e.1 < vi.version) (hn : vi.version ≤ v0) :
    hsLoad w (.data n fs (some vi)) (some (.dict d)) .none = hsLoad w (.data n fs .none) (some (.dict (ddel d "version"))) .none ∧
    hsLoads w (.data n fs (some vi)) (.dict d) .none ig = hsLoads w (.data n fs .none) (.dict (ddel d "version")) .none ig ∧
    smLoadState w (.data n fs (some vi)) (.dict d) ig = smLoadState w (.data n fs .none) (.dict (ddel d "version")) ig := by
  have := C16_load w n fs vi ig d v0 hv hk
  have he : rangeI v0 vi.version = [] := by
    rw [List.eq_nil_iff_forall_not_mem]; intro i hi; rw [mem_rangeI] at hi; omega
  simpa only [he, List.flatMap_nil, applyRules, bind, Except.bind] using this

/-- a document one version behind, one of the current version and one that is ahead; with an override -/
example : let vi : VerInfo := ⟨2, [(0, [.delete ["x"]]), (1, [.rename ["learning_rate"] ["lr"]])]⟩
    let cls : PyTy := .data "C" [.mk "lr" .int .none, .mk "n" .int (some (.int 1))] (some vi)
    (∀ e ∈ vi.rules, e.1 < vi.version) ∧
    hsLoad Ex.world cls (some (.dict [("version", .int 1), ("learning_rate", .int 3)])) .none = .ok (.inst "C" [("lr", .int 3), ("n", .int 1)]) ∧
    hsLoad Ex.world cls (some (.dict [("version", .int 2), ("learning_rate", .int 3)])) .none = .error .deserType ∧
    hsLoad Ex.world cls (some (.dict [("version", .int 7), ("lr", .int 3)])) .none = .ok (.inst "C" [("lr", .int 3), ("n", .int 1)]) :=
  ⟨by simp, rfl, rfl, rfl⟩

/-- C17, part: for a class without rules from version 0 on, `StateManager` does treat a missing version as 0 (without
overrides). -/
theorem C17_zero_partial (w : World) (n : String) (fs : List Fld) (vi : VerInfo) (ig : Bool) (d : List (String × Val))
    (hd : dget d "version" = .none) (hlt : ∀ e ∈ vi.rules, e.1 < vi.version) (hr : ∀ i, 0 ≤ i → vi.rulesAt i = []) :
    fromDict (w.dcfg true true) (.data n fs (some vi)) ig "" (.dict d)
      = fromDict (w.dcfg true true) (.data n fs (some vi)) ig "" (.dict (("version", .int 0) :: d)) := by
  have hall : vi.rules.all (fun e => decide (e.1 < vi.version)) = true := by simpa using hlt
  have h1 : Upgraded (w.dcfg true true) (some vi) (.dict d) (.dict d) := by
    simp [Upgraded, World.dcfg, versionHook_missing true vi d hd]
  have h2 : Upgraded (w.dcfg true true) (some vi) (.dict (("version", .int 0) :: d)) (.dict d) := by
    have : upgradeLoop vi (rangeI 0 vi.version) (.dict d) = .ok (.dict d) := by
      rw [upgradeLoop_eq]
      have := rulesFrom_nil hr
      simp only [VerInfo.rulesFrom] at this
      rw [this]; rfl
    simp [Upgraded, versionHook, dget, ddel, ddel_not_mem _ _ hd, VerInfo.upgradeAny, VerInfo.applyUpgrades, hall,
      Val.asRangeInt, bind, Except.bind, this]
  rw [fromDict_upgraded h1, fromDict_upgraded h2]

/-! ## C22 -/

/-- C22, part: when the objects around `p` are present in the old document (and are ordinary objects) and no other rule that
runs mentions a path related to `p`, the loaded object holds the old default at `p`. (Missing: the object around `p` is
omitted, see `C22_false`.) -/
theorem C22_keeps_old_partial (c : DCfg) (n : String) (fs : List Fld) (vi : VerInfo) (ig : Bool)
    (d : List (String × Val)) (v0 : Int) (hver : dget d "version" = some (.int v0)) (p : List String) (t : PyTy)
    (hf : FieldAtU fs p t) (hn : NAME_KEY ∉ p) (hw : WEAK_REF ∉ p) (hp : p.head? ≠ some "version")
    (old new : Val) (hold : old.isWeak = false) (pre post : List Rule)
    (hrules : vi.rulesFrom v0 = pre ++ .changeDefault p old new :: post)
    (hpre : ∀ r ∈ pre ++ post, ∀ p' ∈ r.paths, Unrelated p' p ∧ WEAK_REF ∉ p')
    (hs : Solid (.dict d) p) (habs : (Val.dict d).at? p = .none) (v : Val) (es : List Ev)
    (h : fromDict c (.data n fs (some vi)) ig "" (.dict d) = .ok (v, es)) :
    ∃ y es' path, v.attr p = some y ∧ fromDict c t false path old = .ok (y, es') := by
  have hp0 : p ≠ [] := by cases hf <;> simp
  cases hvh : versionHook c.allowMissing vi (.dict d) with
  | error e => simp [fromDict, hvh, bind, Except.bind] at h
  | ok w =>
    have hup : Upgraded c (some vi) (.dict d) w := hvh
    rw [fromDict_upgraded hup] at h
    have hrun := versionHook_rules hver hvh
    rw [hrules, applyRules_append] at hrun
    have hdel : (Val.dict (ddel d "version")).at? p = .none ∧ Solid (.dict (ddel d "version")) p := by
      cases p with
      | nil => exact absurd rfl hp0
      | cons j js =>
        have hj : "version" ≠ j := fun e => hp (by simp [e])
        constructor
        · rw [← habs]; simp only [at?_dict_cons]; rw [dget_ddel_ne _ hj]
        · cases js with
          | nil => exact solid_single
          | cons j' js =>
            obtain ⟨dc, h1, h2⟩ := solid_cons.1 hs
            exact solid_cons.2 ⟨dc, by rw [dget_ddel_ne _ hj, h1], h2⟩
    simp only [bind, Except.bind] at hrun
    split at hrun
    · simp at hrun
    · rename_i sd1 h1
      obtain ⟨f1, f2⟩ := applyRules_frame hw hp0 h1 (fun r hr => hpre r (by simp [hr]))
      have hs1 := f2 hdel.2
      have ha1 : sd1.at? p = .none := by rw [f1, hdel.1]
      simp only [applyRules, bind, Except.bind] at hrun
      have hreach : Reachable sd1 p := by
        intro q hq hne w' hw'
        obtain ⟨d', hd', _⟩ := hs1 q hq hne
        rw [hd'] at hw'; cases hw'; rfl
      obtain ⟨sd2, h2, ha2, _⟩ := C21_changeDefault_absent sd1 old new p hp0
        (fun hm => hw (List.dropLast_subset _ hm)) hreach (.inl ha1)
      rw [h2] at hrun
      have hs2 : Solid sd2 p := rule_solid h2 hp0 (by simp [Rule.paths, NotAbove, hw]) hs1
      obtain ⟨g1, g2⟩ := applyRules_frame hw hp0 hrun (fun r hr => hpre r (by simp [hr]))
      obtain ⟨y, es', path, k1, k2⟩ := fromDict_attr c hf n ig "" w v es old h (g2 hs2) (by rw [g1, ha2]) hold hn
      exact ⟨y, es', path, k1, k2⟩

/-- C22 is false when the document omits the object: the new default is used. -/
theorem C22_false : ∃ (n : String) (fs : List Fld) (vi : VerInfo) (d : List (String × Val)) (v : Val),
    vi.rulesFrom 0 = [.changeDefault ["net", "n"] (.int 4) (.int 8)] ∧
    hsLoad Ex.world (.data n fs (some vi)) (some (.dict (("version", .int 0) :: d))) .none = .ok v ∧
    v.attr ["net", "n"] = some (.int 8) :=
  ⟨"C", [.mk "net" (.data "Net" [.mk "n" .int (some (.int 8))] none) none],
    ⟨1, [(0, [.changeDefault ["net", "n"] (.int 4) (.int 8)])]⟩, [], _, rfl, rfl, rfl⟩

/-- C22 is also false when that object has a default: the class default wins, the marked object is dropped. -/
theorem C22_false_default : ∃ (n : String) (fs : List Fld) (vi : VerInfo) (v : Val),
    vi.rulesFrom 0 = [.changeDefault ["net", "n"] (.int 4) (.int 8)] ∧
    hsLoad Ex.world (.data n fs (some vi)) (some (.dict [("version", .int 0)])) .none = .ok v ∧
    v.attr ["net", "n"] = some (.int 8) :=
  ⟨"C", [.mk "net" (.data "Net" [.mk "n" .int (some (.int 8))] none) (some (.inst "Net" [("n", .int 8)]))],
    ⟨1, [(0, [.changeDefault ["net", "n"] (.int 4) (.int 8)])]⟩, _, rfl, rfl, rfl⟩

example : hsLoad Ex.world (.data "C" [.mk "net" (.data "Net" [.mk "n" .int (some (.int 8))] none) none]
      (some ⟨1, [(0, [.changeDefault ["net", "n"] (.int 4) (.int 8)])]⟩))
    (some (.dict [("version", .int 0), ("net", .dict [])])) .none = .ok (.inst "C" [("net", .inst "Net" [("n", .int 4)])]) := rfl

example : Solid (.dict [("version", .int 0), ("net", .dict [])]) ["net", "n"] :=
  solid_cons.2 ⟨[], rfl, rfl, solid_single⟩

end HS
