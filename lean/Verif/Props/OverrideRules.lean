import Verif.Props.DefaultTwice
import Verif.Props.DefaultAdvice

/-!
# Overrides and rules for the same field: C14
-/

namespace HS

/-- what a load with overrides does with a document of an older version: the override is put in its place, the rules run on
the document with the overrides, and the result is loaded -/
theorem override_rules (c : DCfg) (ron : RonParse) (hron : ∀ s v, ron s = .ok v → NoMark v) (n : String)
    (fs : List Fld) (vi : VerInfo) (ig : Bool) (doc : Val) (v0 : Int) (l : Loaded) (pre post : List String) (o key s : String)
    (p : List String) (t : PyTy) (hver : doc.at? ["version"] = some (.int v0))
    (h : typedLoad c ron (some (pre ++ o :: post)) ig (.data n fs (some vi)) doc = .ok l) (hov : IsOv o key p s)
    (hlast : ∀ o' ∈ post, ∀ key' p' s', IsOv o' key' p' s' → Unrelated p' p)
    (hmark : ∀ o' ∈ pre ++ o :: post, ∀ key' p' s', IsOv o' key' p' s' → WEAK_REF ∉ p' ∧ p'.head? ≠ some "version")
    (hdoc : NoMark doc) (hf : FieldAtU fs p t) (hrec : t = .bool → ∃ b, s ∈ boolSpelling b) :
    ∃ x sd w es, OvVal ron t s x ∧ x.isWeak = false ∧ sd.at? p = some x ∧ Solid sd p ∧ NoMark sd ∧
      (∀ q, q ≠ [] → q.head? ≠ some "version" → (∀ o' ∈ pre ++ o :: post, ∀ key' p' s', IsOv o' key' p' s' → Unrelated p' q) →
        sd.at? q = doc.at? q) ∧
      applyRules (vi.rulesFrom v0) sd = .ok w ∧ fromDict c (.data n fs .none) ig "" w = .ok (l.value, es) := by
  simp only [typedLoad, bind, Except.bind, pure, Except.pure] at h
  split at h
  · simp at h
  rename_i doc' hdoc'
  split at h
  · simp at h
  rename_i r hr
  split at h
  · simp at h
  simp only [Except.ok.injEq] at h
  obtain ⟨t', x, ht', hx, hval⟩ := C11_override_wins_partial ron n fs (some vi) doc doc' pre post o key s p hdoc' hov hlast
  have htt : t' = t := fieldAt_unique ht' hf.toFieldAt
  subst htt
  have hp0 : p ≠ [] := by rw [hov.2.2]; exact pySplit_ne_nil _ _
  have hpm := hmark o (by simp) _ _ _ hov
  have hnm := applyOverrides_noMark hron hdoc' (fun o' ho' k p' s' h => (hmark o' ho' k p' s' h).1) hdoc
  have hver' : doc'.at? ["version"] = some (.int v0) := by
    rw [C11_frame ron n fs (some vi) doc doc' _ hdoc' ["version"] ?_, hver]
    intro o' ho' k p' s' hov'
    have hp' := (hmark o' ho' _ _ _ hov').2
    have hp0' : p' ≠ [] := by rw [hov'.2.2]; exact pySplit_ne_nil _ _
    cases p' with
    | nil => exact absurd rfl hp0'
    | cons j js =>
      simp at hp'
      constructor
      · intro hh; simp at hh; exact hp' hh.1
      · intro hh; simp at hh; exact hp' hh.symm
  cases hd : doc'.isDict
  · simp [at?_cons_of_not_dict doc' hd] at hver'
  obtain ⟨d, rfl⟩ := (isDict_iff doc').1 hd
  have hv : dget d "version" = some (.int v0) := by
    simp only [at?_dict_cons] at hver'
    cases hx : dget d "version" with
    | none => simp [hx] at hver'
    | some y => simpa [hx] using hver'
  cases hvh : versionHook c.allowMissing vi (.dict d) with
  | error e => simp [fromDict, hvh, bind, Except.bind] at hr
  | ok w =>
    have hup : Upgraded c (some vi) (.dict d) w := hvh
    rw [fromDict_upgraded hup] at hr
    have hdel : ∀ q : List String, q ≠ [] → q.head? ≠ some "version" →
        (Val.dict (ddel d "version")).at? q = (Val.dict d).at? q := fun q hq hq' => (at_ddel_version hq hq').1
    have hnm' : NoMark (.dict (ddel d "version")) := by
      intro q
      by_cases hq : (q ++ [WEAK_REF]).head? = some "version"
      · cases q with
        | nil => simp [WEAK_REF] at hq
        | cons j js =>
          simp at hq; subst hq
          simp only [List.cons_append, at?_dict_cons, dget_ddel_self]; rfl
      · rw [hdel _ (by simp) hq]; exact hnm q
    have hx' : (Val.dict (ddel d "version")).at? p = some x := by rw [hdel p hp0 hpm.2, hx]
    refine ⟨x, _, w, r.2, hval hrec, (hnm.at? hx).isWeak, hx', hnm'.solid hx', hnm', ?_, versionHook_rules hv hvh, by rw [← h]; exact hr⟩
    intro q hq hqv hu
    rw [hdel q hq hqv, C11_frame ron n fs (some vi) doc _ _ hdoc' q hu]

/-- rules for the field `p` itself that leave a value given for it alone -/
def KeepsAt (p : List String) (r : Rule) : Prop :=
  (∃ o n, r = .changeDefault p o n) ∨ (∃ o, r = .addDefault p o) ∨ ∃ a, r = .checkValue p a

theorem keeps_rules {p : List String} (hp0 : p ≠ []) (hw : WEAK_REF ∉ p) (x : Val) (hx : x.isWeak = false) :
    ∀ (rs : List Rule) (sd sd' : Val), applyRules rs sd = .ok sd' →
    (∀ r ∈ rs, (∀ p' ∈ r.paths, Unrelated p' p ∧ WEAK_REF ∉ p') ∨ KeepsAt p r) →
    sd.at? p = some x → Solid sd p → sd'.at? p = some x ∧ Solid sd' p
  | [], sd, sd', h, _, ha, hs => by simp [applyRules] at h; subst h; exact ⟨ha, hs⟩
  | r :: rs, sd, sd', h, hr, ha, hs => by
    simp only [applyRules, bind, Except.bind] at h
    split at h
    · exact (nomatch h)
    rename_i sd1 h1
    have hres : WEAK_REF ∉ p.dropLast := fun hm => hw (List.dropLast_subset _ hm)
    have hsolid : Solid sd1 p := by
      refine rule_solid h1 hp0 ?_ hs
      rcases hr r (List.mem_cons_self ..) with hu | ⟨o, n, rfl⟩ | ⟨o, rfl⟩ | ⟨a, rfl⟩
      · exact fun p' hp' => ⟨(hu p' hp').1.notAbove, (hu p' hp').2⟩
      all_goals simp [Rule.paths, NotAbove, hw]
    have hat : sd1.at? p = some x := by
      rcases hr r (List.mem_cons_self ..) with hu | ⟨o, n, rfl⟩ | ⟨o, rfl⟩ | ⟨a, rfl⟩
      · rw [rule_frame h1 hw (fun p' hp' => (hu p' hp').1), ha]
      · obtain ⟨sd2, h2, h3, _⟩ := C21_changeDefault_present sd x o n p hp0 hres ha hx
        rw [h2] at h1; cases h1; exact h3
      · obtain ⟨sd2, h2, h3, _⟩ := C21_addDefault_present sd x o p hp0 hres ha
        rw [h2] at h1; cases h1; exact h3
      · have : sd1 = sd := C23_check_readonly _ _ _ _ h1
        rw [this, ha]
    exact keeps_rules hp0 hw x hx rs sd1 sd' h (fun s hs => hr s (List.mem_cons_of_mem _ hs)) hat hsolid

/-- C14, part: an override determines the field after the upgrade also when `ChangeDefault`, `AddDefault` and `CheckValue` rules
for this very field run. (Missing: the other kinds of rules for it; see `C14_renamed_false` and `C14_mapped_false`.) -/
theorem C14_defaults_partial (c : DCfg) (ron : RonParse) (hron : ∀ s v, ron s = .ok v → NoMark v) (n : String)
    (fs : List Fld) (vi : VerInfo) (ig : Bool) (doc : Val) (v0 : Int) (l : Loaded) (pre post : List String) (o key s : String)
    (p : List String) (t : PyTy) (hver : doc.at? ["version"] = some (.int v0))
    (h : typedLoad c ron (some (pre ++ o :: post)) ig (.data n fs (some vi)) doc = .ok l) (hov : IsOv o key p s)
    (hlast : ∀ o' ∈ post, ∀ key' p' s', IsOv o' key' p' s' → Unrelated p' p)
    (hmark : ∀ o' ∈ pre ++ o :: post, ∀ key' p' s', IsOv o' key' p' s' → WEAK_REF ∉ p' ∧ p'.head? ≠ some "version")
    (hdoc : NoMark doc)
    (hrules : ∀ r ∈ vi.rulesFrom v0, (∀ p' ∈ r.paths, Unrelated p' p ∧ WEAK_REF ∉ p') ∨ KeepsAt p r)
    (hf : FieldAtU fs p t) (hrec : t = .bool → ∃ b, s ∈ boolSpelling b) (hn : NAME_KEY ∉ p) :
    ∃ x y es path, OvVal ron t s x ∧ fromDict c t false path x = .ok (y, es) ∧ l.value.attr p = some y := by
  obtain ⟨x, sd, w, es, h1, h2, h3, h4, _, _, h7, h8⟩ :=
    override_rules c ron hron n fs vi ig doc v0 l pre post o key s p t hver h hov hlast hmark hdoc hf hrec
  have hp0 : p ≠ [] := by rw [hov.2.2]; exact pySplit_ne_nil _ _
  obtain ⟨k1, k2⟩ := keeps_rules hp0 (hmark o (by simp) _ _ _ hov).1 x h2 _ _ _ h7 hrules h3 h4
  obtain ⟨y, es', path, g1, g2⟩ := fromDict_attr c hf n ig "" w l.value es x h8 k2 k1 h2 hn
  exact ⟨x, y, es', path, h1, g2, g1⟩

/-- C14 is false whenever a `RenameField` rule moves a value of the document to the field: for every class, file and override,
the loaded field has the value of the file, and the override is lost. -/
theorem C14_renamed_false (c : DCfg) (ron : RonParse) (hron : ∀ s v, ron s = .ok v → NoMark v) (n : String)
    (fs : List Fld) (vi : VerInfo) (ig : Bool) (doc : Val) (v0 : Int) (l : Loaded) (pre post : List String) (o key s : String)
    (p : List String) (t : PyTy) (hver : doc.at? ["version"] = some (.int v0))
    (h : typedLoad c ron (some (pre ++ o :: post)) ig (.data n fs (some vi)) doc = .ok l) (hov : IsOv o key p s)
    (hlast : ∀ o' ∈ post, ∀ key' p' s', IsOv o' key' p' s' → Unrelated p' p)
    (hmark : ∀ o' ∈ pre ++ o :: post, ∀ key' p' s', IsOv o' key' p' s' → WEAK_REF ∉ p' ∧ p'.head? ≠ some "version")
    (hdoc : NoMark doc) (q : List String) (hq : q ≠ []) (hqw : WEAK_REF ∉ q) (hqv : q.head? ≠ some "version")
    (hqo : ∀ o' ∈ pre ++ o :: post, ∀ key' p' s', IsOv o' key' p' s' → Unrelated p' q) (rs rs' : List Rule)
    (hrules : vi.rulesFrom v0 = rs ++ .rename q p :: rs')
    (hrs : ∀ r ∈ rs, ∀ p' ∈ r.paths, Unrelated p' p ∧ Unrelated p' q ∧ WEAK_REF ∉ p')
    (hrs' : ∀ r ∈ rs', ∀ p' ∈ r.paths, Unrelated p' p ∧ WEAK_REF ∉ p') (x : Val) (hx : doc.at? q = some x)
    (hf : FieldAtU fs p t) (hrec : t = .bool → ∃ b, s ∈ boolSpelling b) (hn : NAME_KEY ∉ p) :
    ∃ y es path, fromDict c t false path x = .ok (y, es) ∧ l.value.attr p = some y := by
  obtain ⟨z, sd, w, es, _, _, h3, _, h5, h6, h7, h8⟩ :=
    override_rules c ron hron n fs vi ig doc v0 l pre post o key s p t hver h hov hlast hmark hdoc hf hrec
  have hp0 : p ≠ [] := by rw [hov.2.2]; exact pySplit_ne_nil _ _
  have hpw := (hmark o (by simp) _ _ _ hov).1
  have hsq : sd.at? q = some x := by rw [h6 q hq hqv hqo, hx]
  rw [hrules, applyRules_append] at h7
  simp only [bind, Except.bind] at h7
  split at h7
  · exact (nomatch h7)
  rename_i sd1 a1
  obtain ⟨f1, _⟩ := applyRules_frame hpw hp0 a1 (fun r hr p' hp' => ⟨(hrs r hr p' hp').1, (hrs r hr p' hp').2.2⟩)
  obtain ⟨f2, _⟩ := applyRules_frame hqw hq a1 (fun r hr p' hp' => ⟨(hrs r hr p' hp').2.1, (hrs r hr p' hp').2.2⟩)
  simp only [applyRules, bind, Except.bind] at h7
  split at h7
  · exact (nomatch h7)
  rename_i sd2 a2
  obtain ⟨g1, g2⟩ := rename_solid hq hp0 hpw (by rw [f2, hsq]) (reachable_of_present (by rw [f1, h3])) a2
  obtain ⟨k1, k2⟩ := applyRules_frame hpw hp0 h7 hrs'
  obtain ⟨y, es', path, m1, m2⟩ := fromDict_attr c hf n ig "" w l.value es x h8 (k2 g2) (by rw [k1, g1]) (h5.at? hsq).isWeak hn
  exact ⟨y, es', path, m2, m1⟩

/-- C14 is false whenever a `MapFieldValue` rule for the field runs: the function, which is meant for the values of the old
version, is applied to the override. -/
theorem C14_mapped_false (c : DCfg) (ron : RonParse) (hron : ∀ s v, ron s = .ok v → NoMark v) (n : String)
    (fs : List Fld) (vi : VerInfo) (ig : Bool) (doc : Val) (v0 : Int) (l : Loaded) (pre post : List String) (o key s : String)
    (p : List String) (t : PyTy) (hver : doc.at? ["version"] = some (.int v0))
    (h : typedLoad c ron (some (pre ++ o :: post)) ig (.data n fs (some vi)) doc = .ok l) (hov : IsOv o key p s)
    (hlast : ∀ o' ∈ post, ∀ key' p' s', IsOv o' key' p' s' → Unrelated p' p)
    (hmark : ∀ o' ∈ pre ++ o :: post, ∀ key' p' s', IsOv o' key' p' s' → WEAK_REF ∉ p' ∧ p'.head? ≠ some "version")
    (hdoc : NoMark doc) (fn : Val → Except Err Val) (txt : Option String) (rs rs' : List Rule)
    (hfn : ∀ a b, fn a = .ok b → b.isWeak = false)
    (hrules : vi.rulesFrom v0 = rs ++ .mapValue p fn txt :: rs')
    (hrs : ∀ r ∈ rs ++ rs', ∀ p' ∈ r.paths, Unrelated p' p ∧ WEAK_REF ∉ p')
    (hf : FieldAtU fs p t) (hrec : t = .bool → ∃ b, s ∈ boolSpelling b) (hn : NAME_KEY ∉ p) :
    ∃ x x' y es path, OvVal ron t s x ∧ fn x = .ok x' ∧ fromDict c t false path x' = .ok (y, es) ∧ l.value.attr p = some y := by
  obtain ⟨x, sd, w, es, h1, h2, h3, h4, _, _, h7, h8⟩ :=
    override_rules c ron hron n fs vi ig doc v0 l pre post o key s p t hver h hov hlast hmark hdoc hf hrec
  have hp0 : p ≠ [] := by rw [hov.2.2]; exact pySplit_ne_nil _ _
  have hpw := (hmark o (by simp) _ _ _ hov).1
  rw [hrules, applyRules_append] at h7
  simp only [bind, Except.bind] at h7
  split at h7
  · exact (nomatch h7)
  rename_i sd1 a1
  obtain ⟨f1, f2⟩ := applyRules_frame hpw hp0 a1 (fun r hr => hrs r (by simp [hr]))
  have ha1 : sd1.at? p = some x := by rw [f1, h3]
  simp only [applyRules, bind, Except.bind] at h7
  split at h7
  · exact (nomatch h7)
  rename_i sd2 a2
  have hs2 : Solid sd2 p := rule_solid a2 hp0 (by simp [Rule.paths, NotAbove, hpw]) (f2 h4)
  obtain ⟨sdr, hrm⟩ := removePath_present hp0 ha1
  simp only [Rule.apply, hrm, bind, Except.bind] at a2
  split at a2
  · exact (nomatch a2)
  rename_i x' hx'
  obtain ⟨sd3, b1, b2⟩ := insertPath_reachable x' true hp0 (fun hm => hpw (List.dropLast_subset _ hm))
    (reachable_removePath hrm (reachable_of_present ha1))
  rw [b1] at a2
  cases a2
  obtain ⟨k1, k2⟩ := applyRules_frame hpw hp0 h7 (fun r hr => hrs r (by simp [hr]))
  obtain ⟨y, es', path, m1, m2⟩ := fromDict_attr c hf n ig "" w l.value es x' h8 (k2 hs2) (by rw [k1, b2]) (hfn x x' hx') hn
  exact ⟨x, x', y, es', path, h1, hx', m2, m1⟩

/-- C14 is false whenever a `RejectValues` rule for the field runs (or a `DeleteField` rule for a field that came back): the rule
takes the override out of the document, and the field has its default. -/
theorem C14_removed_false (c : DCfg) (ron : RonParse) (hron : ∀ s v, ron s = .ok v → NoMark v) (n : String)
    (fs : List Fld) (vi : VerInfo) (ig : Bool) (doc : Val) (v0 : Int) (l : Loaded) (pre post : List String) (o key s : String)
    (p : List String) (f : Fld) (hver : doc.at? ["version"] = some (.int v0))
    (h : typedLoad c ron (some (pre ++ o :: post)) ig (.data n fs (some vi)) doc = .ok l) (hov : IsOv o key p s)
    (hlast : ∀ o' ∈ post, ∀ key' p' s', IsOv o' key' p' s' → Unrelated p' p)
    (hmark : ∀ o' ∈ pre ++ o :: post, ∀ key' p' s', IsOv o' key' p' s' → WEAK_REF ∉ p' ∧ p'.head? ≠ some "version")
    (hdoc : NoMark doc) (rule : Rule) (hrule : rule = .delete p ∨ ∃ vals, rule = .rejectValues p vals) (rs rs' : List Rule)
    (hrules : vi.rulesFrom v0 = rs ++ rule :: rs')
    (hrs : ∀ r ∈ rs ++ rs', ∀ p' ∈ r.paths, Unrelated p' p ∧ WEAK_REF ∉ p')
    (hf : FieldIs fs p f) (hrec : f.ty = .bool → ∃ b, s ∈ boolSpelling b) (hn : NAME_KEY ∉ p) (dv : Val) (hdv : f.dflt = some dv) :
    l.value.attr p = some dv := by
  obtain ⟨x, sd, w, es, _, _, h3, h4, _, _, h7, h8⟩ :=
    override_rules c ron hron n fs vi ig doc v0 l pre post o key s p f.ty hver h hov hlast hmark hdoc hf.fieldAtU hrec
  have hp0 : p ≠ [] := by rw [hov.2.2]; exact pySplit_ne_nil _ _
  have hpw := (hmark o (by simp) _ _ _ hov).1
  rw [hrules, applyRules_append] at h7
  simp only [bind, Except.bind] at h7
  split at h7
  · exact (nomatch h7)
  rename_i sd1 a1
  obtain ⟨f1, f2⟩ := applyRules_frame hpw hp0 a1 (fun r hr => hrs r (by simp [hr]))
  have ha1 : sd1.at? p = some x := by rw [f1, h3]
  simp only [applyRules, bind, Except.bind] at h7
  split at h7
  · exact (nomatch h7)
  rename_i sd2 a2
  have hs2 : Solid sd2 p := by
    refine rule_solid a2 hp0 ?_ (f2 h4)
    rcases hrule with rfl | ⟨vals, rfl⟩ <;> simp [Rule.paths, NotAbove, hpw]
  have hat : sd2.at? p = .none := by
    obtain ⟨sdr, hrm⟩ := removePath_present hp0 ha1
    have hnone := (removePath_spec hrm).2.2.1
    rcases hrule with rfl | ⟨vals, rfl⟩
    · simp only [Rule.apply, hrm, bind, Except.bind, pure, Except.pure, Except.ok.injEq] at a2
      rw [← a2, hnone]
    · simp only [Rule.apply, hrm, bind, Except.bind, pure, Except.pure] at a2
      split at a2
      · exact (nomatch a2)
      · split at a2
        · exact (nomatch a2)
        · cases a2; exact hnone
  obtain ⟨k1, k2⟩ := applyRules_frame hpw hp0 h7 (fun r hr => hrs r (by simp [hr]))
  exact fromDict_attr_default c hf n ig "" w l.value es dv h8 (k2 hs2) (by rw [k1, hat]) hdv hn

namespace ExOR

def fields : List Fld := [.mk "lr" .int (some (.int 1)), .mk "n" .int (some (.int 0))]

/-- a config class with the given rules from version 0 to version 1 -/
def cls (rs : List Rule) : PyTy := .data "C" fields (some ⟨1, [(0, rs)]⟩)

def twice : Val → Except Err Val
  | .int i => .ok (.int (2 * i))
  | _ => .error .typeError

/-- the field `lr` after loading a file of version 0 with `lr=5` -/
def lrOf (rs : List Rule) (d : List (String × Val)) : Option Val :=
  match typedLoad (Ex.world.dcfg false true) Ex.ronIdent (some ["lr=5"]) false (cls rs) (.dict (("version", .int 0) :: d)) with
  | .ok l => l.value.attr ["lr"]
  | .error _ => .none

example : lrOf [.changeDefault ["lr"] (.int 3) (.int 1), .addDefault ["lr"] (.int 3), .delete ["old"]] [] = some (.int 5) := rfl
example : lrOf [.delete ["old"], .rename ["rate"] ["lr"]] [("rate", .int 7)] = some (.int 7) := rfl
example : lrOf [.mapValue ["lr"] twice none] [("lr", .int 7)] = some (.int 10) := rfl
example : lrOf [.rejectValues ["lr"] [.int 0]] [("lr", .int 7)] = some (.int 1) := rfl

/-- the hypotheses of the theorems about these rules -/
example : FieldIs fields ["lr"] (.mk "lr" .int (some (.int 1))) ∧ IsOv "lr=5" "lr" ["lr"] "5" ∧
    KeepsAt ["lr"] (.changeDefault ["lr"] (.int 3) (.int 1)) ∧ Unrelated ["old"] ["lr"] ∧
    (∀ a b, twice a = .ok b → b.isWeak = false) := by
  refine ⟨.here rfl, ⟨by decide, by decide, by decide⟩, .inl ⟨_, _, rfl⟩, by simp [Unrelated], ?_⟩
  intro a b h
  cases a <;> simp [twice] at h
  subst h; rfl

end ExOR

end HS
