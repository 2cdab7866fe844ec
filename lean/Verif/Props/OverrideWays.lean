import Verif.Props.OverrideLoad
/-!
# C12, C14, C15 for each of the functions that load a config
-/
namespace HS

/-- the ways of loading a config with overrides: `load` with or without a file, `loads`, and the `StateManager` with or without
an initial config file -/
inductive Way where
  | load (file : Option Val)
  | loads (doc : Val) (ignoreExtra : Bool)
  | manager (file : Option Val) (ignoreExtra : Bool)

/-- the document the overrides are applied to: what is in the file, or nothing -/
def Way.doc : Way → Val
  | .load (some d) => d
  | .load .none => .dict []
  | .loads d _ => d
  | .manager (some d) _ => d
  | .manager .none _ => .dict []

/-- the config that is loaded -/
def Way.run (w : World) (ty : PyTy) (os : List String) : Way → Except Err Val
  | .load file => hsLoad w ty file (some os)
  | .loads d ig => hsLoads w ty d (some os) ig
  | .manager file ig => (smLoadConfig w ty file os ig).map Loaded.value

theorem Way.run_eq (w : World) (ty : PyTy) (os : List String) (y : Way) :
    ∃ c ig, c.ext = w.ext ∧ y.run w ty os = (typedLoad c w.ron (some os) ig ty y.doc).map Loaded.value := by
  have hb : ∀ (e : Except Err Loaded), (do let l ← e; return l.value : Except Err Val) = e.map Loaded.value := by
    intro e; cases e <;> rfl
  cases y with
  | load file =>
    cases file with
    | none => exact ⟨_, _, rfl, hb _⟩
    | some d => exact ⟨_, _, rfl, hb _⟩
  | loads d ig => exact ⟨_, _, rfl, hb _⟩
  | manager file ig =>
    cases file with
    | none => exact ⟨_, _, rfl, rfl⟩
    | some d => exact ⟨_, _, rfl, rfl⟩

theorem Way.run_ok {w : World} {ty : PyTy} {os : List String} {y : Way} {v : Val} (h : y.run w ty os = .ok v) :
    ∃ c ig l, c.ext = w.ext ∧ typedLoad c w.ron (some os) ig ty y.doc = .ok l ∧ l.value = v := by
  obtain ⟨c, ig, hc, he⟩ := y.run_eq w ty os
  rw [he] at h
  cases hl : typedLoad c w.ron (some os) ig ty y.doc with
  | error e => rw [hl] at h; exact (nomatch h)
  | ok l => rw [hl] at h; cases h; exact ⟨c, ig, l, hc, hl, rfl⟩

/-- C15 (partial): however the config is loaded, the last override of a field determines the attribute: it is what `from_dict` makes of
the denoted value. Missing: see C15_reaches_partial. -/
theorem C15_ways_partial (w : World) (hron : ∀ s v, w.ron s = .ok v → NoMark v) (n : String) (fs : List Fld) (y : Way) (v : Val)
    (pre post : List String) (o key s : String) (p : List String) (t : PyTy)
    (h : y.run w (.data n fs .none) (pre ++ o :: post) = .ok v) (hov : IsOv o key p s)
    (hlast : ∀ o' ∈ post, ∀ key' p' s', IsOv o' key' p' s' → Unrelated p' p)
    (hmark : ∀ o' ∈ pre ++ o :: post, ∀ key' p' s', IsOv o' key' p' s' → WEAK_REF ∉ p') (hdoc : NoMark y.doc)
    (hf : FieldAtU fs p t) (hrec : t = .bool → ∃ b, s ∈ boolSpelling b) (hn : NAME_KEY ∉ p) :
    ∃ c x z es path, c.ext = w.ext ∧ OvVal w.ron t s x ∧ fromDict c t false path x = .ok (z, es) ∧ v.attr p = some z := by
  obtain ⟨c, ig, l, hc, hl, rfl⟩ := Way.run_ok h
  obtain ⟨x, z, es, path, h1, h2, h3⟩ := C15_reaches_partial c w.ron hron n fs ig y.doc l pre post o key s p t hl hov hlast hmark hdoc hf hrec hn
  exact ⟨c, x, z, es, path, hc, h1, h2, h3⟩

/-- C15: for the simple types -/
theorem C15_ways_leaf (w : World) (hron : ∀ s v, w.ron s = .ok v → NoMark v) (n : String) (fs : List Fld) (y : Way) (v : Val)
    (o key s : String) (p : List String) (t : PyTy) (h : y.run w (.data n fs .none) [o] = .ok v) (hov : IsOv o key p s)
    (hmark : WEAK_REF ∉ p) (hdoc : NoMark y.doc) (hf : FieldAtU fs p t) (hn : NAME_KEY ∉ p) :
    (t = .str → v.attr p = some (.str s)) ∧
    (∀ b, t = .bool → s ∈ boolSpelling b → v.attr p = some (.bool b)) ∧
    (∀ i, t = .int → w.ron s = .ok (.int i) → v.attr p = some (.int i)) ∧
    (∀ f, t = .float → w.ron s = .ok (.flt f) → v.attr p = some (.flt f)) ∧
    (∀ i, t = .optional .int → w.ron s = .ok (.int i) → v.attr p = some (.int i)) := by
  obtain ⟨c, ig, l, _, hl, rfl⟩ := Way.run_ok h
  exact C15_leaf c w.ron hron n fs ig y.doc l o key s p t hl hov hmark hdoc hf hn

/-- C12: however the config is loaded, it is not if an override names a field that does not exist; the error names all of these -/
theorem C12_ways_partial (w : World) (n : String) (fs : List Fld) (ver : Option VerInfo) (sfs : List (String × SFld))
    (hm : materializeF fs = .ok sfs) (os g b : List String) (h : Sorted fs os g b) (hb : b ≠ []) (y : Way) :
    ∃ e, y.run w (.data n fs ver) os = .error e ∧
      ((∃ doc', applyOverrides w.ron (.data n fs ver) g y.doc = .ok doc') → e = unknownErr b) := by
  obtain ⟨c, ig, _, he⟩ := y.run_eq w (.data n fs ver) os
  obtain ⟨e, h1, h2⟩ := C12_load_fails_partial c w.ron ig n fs ver sfs hm os g b h hb y.doc
  exact ⟨e, by rw [he, h1]; rfl, h2⟩

/-- C14 (partial): however the config is loaded. Missing: see C14_override_survives_partial. -/
theorem C14_ways_partial (w : World) (hron : ∀ s v, w.ron s = .ok v → NoMark v) (n : String) (fs : List Fld) (vi : VerInfo) (y : Way)
    (v0 : Int) (v : Val) (pre post : List String) (o key s : String) (p : List String) (t : PyTy)
    (hver : y.doc.at? ["version"] = some (.int v0)) (h : y.run w (.data n fs (some vi)) (pre ++ o :: post) = .ok v) (hov : IsOv o key p s)
    (hlast : ∀ o' ∈ post, ∀ key' p' s', IsOv o' key' p' s' → Unrelated p' p)
    (hmark : ∀ o' ∈ pre ++ o :: post, ∀ key' p' s', IsOv o' key' p' s' → WEAK_REF ∉ p' ∧ p'.head? ≠ some "version")
    (hdoc : NoMark y.doc) (hrules : ∀ r ∈ vi.rulesFrom v0, ∀ p' ∈ r.paths, Unrelated p' p ∧ WEAK_REF ∉ p')
    (hf : FieldAtU fs p t) (hrec : t = .bool → ∃ b, s ∈ boolSpelling b) (hn : NAME_KEY ∉ p) :
    ∃ c x z es path, c.ext = w.ext ∧ OvVal w.ron t s x ∧ fromDict c t false path x = .ok (z, es) ∧ v.attr p = some z := by
  obtain ⟨c, ig, l, hc, hl, rfl⟩ := Way.run_ok h
  obtain ⟨x, z, es, path, h1, h2, h3⟩ :=
    C14_override_survives_partial c w.ron hron n fs vi ig y.doc v0 l pre post o key s p t hver hl hov hlast hmark hdoc hrules hf hrec hn
  exact ⟨c, x, z, es, path, hc, h1, h2, h3⟩

/-- each way gives the override, also without a file -/
example : let ty : PyTy := .data "C" [.mk "n" .int (some (.int 1))] .none
    let w : World := { Ex.world with ron := Ex.ronIdent }
    [Way.load .none, .load (some (.dict [("n", .int 2)])), .loads (.dict [("n", .int 2)]) false, .manager .none true,
      .manager (some (.dict [("n", .int 2)])) false].all
      (fun y => match y.run w ty ["n=5"] with | .ok (.inst _ [(_, .int 5)]) => true | _ => false) = true := by
  decide +kernel

end HS
