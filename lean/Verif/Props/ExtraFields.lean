import Verif.Props.OverrideLoad
/-!
# C05 for `load`, `loads` and `StateManager`: unknown fields together with overrides
-/
namespace HS

theorem dget_known {fs : List Fld} {k : String} (hk : k ∈ fs.map Fld.name) : ∀ d : List (String × Val), dget (knownEntries fs d) k = dget d k := by
  intro d
  induction d with
  | nil => rfl
  | cons a d ih =>
    obtain ⟨j, x⟩ := a
    simp only [knownEntries, List.filter_cons] at ih ⊢
    by_cases hj : j = k
    · subst hj
      simp [hk, dget]
    · split
      · simp only [dget, hj, if_false]; exact ih
      · simp only [dget, hj, if_false]; exact ih

theorem dset_known {fs : List Fld} {k : String} (hk : k ∈ fs.map Fld.name) (v : Val) : ∀ d : List (String × Val),
    dset (knownEntries fs d) k v = knownEntries fs (dset d k v) := by
  intro d
  induction d with
  | nil =>
    have hd : decide (k = NAME_KEY ∨ k ∈ fs.map Fld.name) = true := decide_eq_true (.inr hk)
    simp only [knownEntries, dset, List.filter_nil, List.filter_cons, hd, if_true]
  | cons a d ih =>
    obtain ⟨j, x⟩ := a
    simp only [knownEntries, List.filter_cons] at ih ⊢
    by_cases hj : j = k
    · subst hj
      have hd : decide (j = NAME_KEY ∨ j ∈ fs.map Fld.name) = true := decide_eq_true (.inr hk)
      simp only [dset, if_true, List.filter_cons, hd]
    · simp only [dset, hj, if_false, List.filter_cons]
      split
      · simp only [dset, hj, if_false]; rw [ih]
      · exact ih

/-- dropping the unknown entries of a document -/
def dropUnknown (fs : List Fld) : Val → Val
  | .dict d => .dict (knownEntries fs d)
  | v => v

theorem setPath_known {fs : List Fld} {k : String} (hk : k ∈ fs.map Fld.name) (v : Val) (ks : List String) (d : List (String × Val)) :
    setPath v (.dict (knownEntries fs d)) (k :: ks) = (setPath v (.dict d) (k :: ks)).map (dropUnknown fs) := by
  cases ks with
  | nil => simp [setPath, pySetItem, Except.map, dropUnknown, dset_known hk]
  | cons k' ks =>
    have hh : dhas (knownEntries fs d) k = dhas d k := by simp only [dhas, dget_known hk]
    simp only [setPath, pyIn, pyGetItem, bind, Except.bind, hh, dget_known hk, pure, Except.pure]
    have fin : ∀ child : Val, (setPath v (if child.isNone = true then .dict [] else child) (k' :: ks) >>= fun c' =>
          pySetItem k c' (.dict (knownEntries fs d)))
      = Except.map (dropUnknown fs) (setPath v (if child.isNone = true then .dict [] else child) (k' :: ks) >>= fun c' => pySetItem k c' (.dict d)) := by
      intro child
      cases setPath v (if child.isNone = true then .dict [] else child) (k' :: ks) with
      | error e => rfl
      | ok c' => simp only [bind, Except.bind, pySetItem, Except.map, dropUnknown, dset_known hk]
    simp only [bind, Except.bind] at fin
    cases hd : dhas d k
    · simp only [if_neg Bool.false_ne_true]
      exact fin .none
    · simp only [if_true]
      cases dget d k with
      | none => rfl
      | some child => exact fin child

theorem overridesLoop_known {ron : RonParse} {fs : List Fld} {sfs : List (String × SFld)} (hm : materializeF fs = .ok sfs) :
    ∀ (os : List String) (d : List (String × Val)) (stale : Option Val) (errs : List String),
    overridesLoop ron sfs os (.dict (knownEntries fs d)) stale errs
      = (overridesLoop ron sfs os (.dict d) stale errs).map (fun r => (dropUnknown fs r.1, r.2)) := by
  intro os
  induction os with
  | nil => intro d st e; rfl
  | cons o os ih =>
    intro d st e
    simp only [overridesLoop]
    cases splitOverride o with
    | none => rfl
    | some ks =>
      obtain ⟨key, s⟩ := ks
      simp only
      cases hff : findField sfs (pySplit '.' key) with
      | none => exact ih _ _ _
      | some f =>
        simp only [bind, Except.bind]
        cases overrideVal ron f.type s st with
        | error e => rfl
        | ok val =>
          simp only
          obtain ⟨t, ht, _⟩ := (findField_iff _ hm).2 f hff
          cases hp : pySplit '.' key with
          | nil => exact absurd hp (pySplit_ne_nil _ _)
          | cons j js =>
            have hj : j ∈ fs.map Fld.name := by
              rw [hp] at ht
              cases ht with
              | here hg => exact List.mem_map.2 ⟨_, List.mem_of_find?_eq_some hg, by simpa using List.find?_some hg⟩
              | there hg => exact List.mem_map.2 ⟨_, List.mem_of_find?_eq_some hg, by simpa using List.find?_some hg⟩
            rw [setPath_known hj]
            cases hset : setPath val (.dict d) (j :: js) with
            | error e => rfl
            | ok sd =>
              obtain ⟨d1, rfl⟩ := (isDict_iff sd).1 (setPath_isDict hset).2
              simp only [Except.map, dropUnknown]
              exact ih _ _ _

theorem applyOverrides_known (ron : RonParse) (n : String) (fs : List Fld) (ver : Option VerInfo) (os : List String) (d : List (String × Val)) :
    applyOverrides ron (.data n fs ver) os (.dict (knownEntries fs d))
      = (applyOverrides ron (.data n fs ver) os (.dict d)).map (dropUnknown fs) := by
  simp only [applyOverrides, materialize, bind, Except.bind, pure, Except.pure]
  cases hm : materializeF fs with
  | error e => rfl
  | ok sfs =>
    simp only [overridesLoop_known hm]
    cases overridesLoop ron sfs os (.dict d) .none [] with
    | error e => rfl
    | ok r =>
      obtain ⟨doc, errs⟩ := r
      simp only [Except.map]
      match errs with
      | [] => rfl
      | [e] => rfl
      | e :: e' :: es => rfl

theorem applyOverrides_dict {ron : RonParse} {n : String} {fs : List Fld} {ver : Option VerInfo} {os : List String}
    {d : List (String × Val)} {doc' : Val} (h : applyOverrides ron (.data n fs ver) os (.dict d) = .ok doc') : ∃ d', doc' = .dict d' := by
  obtain ⟨sfs, hm, hl⟩ := applyOverrides_ok h
  have key : ∀ (os : List String) (d : List (String × Val)) (stale : Option Val) (errs errs' : List String) (sd' : Val),
      overridesLoop ron sfs os (.dict d) stale errs = .ok (sd', errs') → ∃ d', sd' = .dict d' := by
    intro os
    induction os with
    | nil => intro d st e e' sd' h; simp [overridesLoop] at h; exact ⟨d, h.1.symm⟩
    | cons o os ih =>
      intro d st e e' sd' h
      simp only [overridesLoop] at h
      split at h
      · simp at h
      · split at h
        · exact ih _ _ _ _ _ h
        · simp only [bind, Except.bind] at h
          split at h
          · simp at h
          · split at h
            · simp at h
            · rename_i sd1 hset
              obtain ⟨d1, rfl⟩ := (isDict_iff sd1).1 (setPath_isDict hset).2
              exact ih _ _ _ _ _ h
  exact key _ _ _ _ _ _ hl

theorem typedLoad_ignore (c : DCfg) (ron : RonParse) (os : Option (List String)) (ig : Bool) (n : String) (fs : List Fld) (d : List (String × Val)) :
    typedLoad c ron os true (.data n fs .none) (.dict d) = typedLoad c ron os ig (.data n fs .none) (.dict (knownEntries fs d)) := by
  cases os with
  | none =>
    simp only [typedLoad, bind, Except.bind, pure, Except.pure]
    rw [C05_ignore_partial c n fs .none "" (.dict d) d rfl ig]
  | some os =>
    simp only [typedLoad, bind, Except.bind, pure, Except.pure]
    rw [applyOverrides_known]
    cases h : applyOverrides ron (.data n fs .none) os (.dict d) with
    | error e => rfl
    | ok doc' =>
      obtain ⟨d', rfl⟩ := applyOverrides_dict h
      simp only [Except.map, dropUnknown]
      rw [C05_ignore_partial c n fs .none "" (.dict d') d' rfl ig]

/-- C05, ignoring (part): with the option, `loads`, the config and the state of a `StateManager` are the same as for the document without the
unknown keys of its top level, overrides included; and whether the option is given does not matter for that document. -/
theorem C05_load_ignore_partial (w : World) (n : String) (fs : List Fld) (d : List (String × Val)) (ig : Bool) :
    (∀ os, hsLoads w (.data n fs .none) (.dict d) os true = hsLoads w (.data n fs .none) (.dict (knownEntries fs d)) os ig) ∧
    (∀ os, smLoadConfig w (.data n fs .none) (some (.dict d)) os true
      = smLoadConfig w (.data n fs .none) (some (.dict (knownEntries fs d))) os ig) ∧
    smLoadState w (.data n fs .none) (.dict d) true = smLoadState w (.data n fs .none) (.dict (knownEntries fs d)) ig := by
  refine ⟨fun os => ?_, fun os => ?_, ?_⟩
  · simp only [hsLoads]; rw [typedLoad_ignore _ _ _ ig]
  · simp only [smLoadConfig]; rw [typedLoad_ignore _ _ _ ig]
  · simp only [smLoadState]; rw [typedLoad_ignore _ _ _ ig]

theorem typedLoad_unknown (c : DCfg) (ron : RonParse) (os : Option (List String)) (n : String) (fs : List Fld) (d : List (String × Val))
    (k : String) (x : Val) (hm : dget d k = some x) (hk : k ≠ NAME_KEY) (hw : x.isWeak = false) (hu : k ∉ fs.map Fld.name) :
    ∃ e, typedLoad c ron os false (.data n fs .none) (.dict d) = .error e := by
  have base : ∀ d', dget d' k = some x → ∃ e, fromDict c (.data n fs .none) false "" (.dict d') = .error e := by
    intro d' h
    obtain ⟨e, he, _⟩ := C05_reject c n fs .none "" (.dict d') d' rfl k x (dget_mem h) hk hw hu
    exact ⟨e, he⟩
  cases os with
  | none =>
    obtain ⟨e, he⟩ := base d hm
    exact ⟨e, by simp only [typedLoad, he, bind, Except.bind, pure, Except.pure]⟩
  | some os =>
    cases h : applyOverrides ron (.data n fs .none) os (.dict d) with
    | error e => exact ⟨e, by simp only [typedLoad, h, bind, Except.bind]⟩
    | ok doc' =>
      obtain ⟨d', rfl, hd'⟩ := overrides_keep_key hu h
      obtain ⟨e, he⟩ := base d' (by rw [hd', hm])
      exact ⟨e, by simp only [typedLoad, h, he, bind, Except.bind]⟩

/-- C05, rejecting: without the option a document with an unknown key fails in `load`, in `loads` and as config or state of a
`StateManager`, whatever the overrides are (for `load` there is no such option). -/
theorem C05_load_reject (w : World) (n : String) (fs : List Fld) (d : List (String × Val)) (k : String) (x : Val) (hm : dget d k = some x)
    (hk : k ≠ NAME_KEY) (hw : x.isWeak = false) (hu : k ∉ fs.map Fld.name) :
    (∀ os, ∃ e, hsLoad w (.data n fs .none) (some (.dict d)) os = .error e) ∧
    (∀ os, ∃ e, hsLoads w (.data n fs .none) (.dict d) os false = .error e) ∧
    (∀ os, ∃ e, smLoadConfig w (.data n fs .none) (some (.dict d)) os false = .error e) ∧
    ∃ e, smLoadState w (.data n fs .none) (.dict d) false = .error e := by
  refine ⟨fun os => ?_, fun os => ?_, fun os => ?_, ?_⟩
  · obtain ⟨e, he⟩ := typedLoad_unknown (w.dcfg false true) w.ron os n fs d k x hm hk hw hu
    exact ⟨e, by simp only [hsLoad, he, bind, Except.bind]⟩
  · obtain ⟨e, he⟩ := typedLoad_unknown (w.dcfg false false) w.ron os n fs d k x hm hk hw hu
    exact ⟨e, by simp only [hsLoads, he, bind, Except.bind]⟩
  · exact typedLoad_unknown (w.dcfg true true) w.ron (some os) n fs d k x hm hk hw hu
  · exact typedLoad_unknown (w.dcfg false true) w.ron .none n fs d k x hm hk hw hu

/-- an unknown key next to an override -/
example :
    let ty := PyTy.data "C" [.mk "a" .int .none, .mk "b" .int (some (.int 1))] .none
    let doc := Val.dict [("q", .int 3), ("a", .int 1)]
    let w : World := { Ex.world with ron := Ex.ronIdent }
    hsLoads w ty doc (some ["a=5"]) false = .error .deserType ∧
    hsLoads w ty doc (some ["a=5"]) true = .ok (.inst "C" [("a", .int 5), ("b", .int 1)]) ∧
    hsLoad w ty (some doc) .none = .error .deserType ∧
    (smLoadState w ty doc true).map Loaded.value = .ok (.inst "C" [("a", .int 1), ("b", .int 1)]) :=
  ⟨rfl, rfl, rfl, rfl⟩

/-- **C05**, when the type asked for is `Optional` of a dataclass, to any depth: the flag reaches the class, so unknown fields
are ignored with it and rejected without it. (`load(Optional[C], ..)`; compare `C05_nested_false`: the flag reaches no class
inside a field, a list or a dict.) -/
theorem C05_optional (c : DCfg) {t : PyTy} {n : String} {fs : List Fld} {ver : Option VerInfo} (hs : Strips t (.data n fs ver))
    (path : String) (d0 d : List (String × Val)) (hup : Upgraded c ver (.dict d0) (.dict d)) :
    (∀ ig, fromDict c t true path (.dict d0) = fromDict c (.data n fs .none) ig path (.dict (knownEntries fs d))) ∧
    (∀ k x, (k, x) ∈ d → k ≠ NAME_KEY → x.isWeak = false → k ∉ fs.map Fld.name →
      ∃ e, fromDict c t false path (.dict d0) = .error e) := by
  refine ⟨fun ig => ?_, fun k x hm hk hw hu => ?_⟩
  · rw [fromDict_strips c hs]; exact C05_ignore_partial c n fs ver path _ d hup ig
  · rw [fromDict_strips c hs]
    obtain ⟨e, he, _⟩ := C05_reject c n fs ver path _ d hup k x hm hk hw hu
    exact ⟨e, he⟩

/-- an Optional class with an unknown key, with and without the flag -/
example :
    let ty := PyTy.optional (.data "C" [.mk "a" .int .none, .mk "b" .int (some (.int 1))] .none)
    let doc := Val.dict [("q", .int 3), ("a", .int 1)]
    Strips ty (.data "C" [.mk "a" .int .none, .mk "b" .int (some (.int 1))] .none) ∧
    hsLoads Ex.world ty doc .none false = .error .deserType ∧
    hsLoads Ex.world ty doc .none true = .ok (.inst "C" [("a", .int 1), ("b", .int 1)]) :=
  ⟨.opt (.refl ..), rfl, rfl⟩

end HS
