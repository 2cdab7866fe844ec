import Verif.Props.DefaultAdvice
import Verif.Props.Subtype
import Verif.Proofs.Place
/-!
# C67: the rule proposed for a renamed field keeps the values of old configs
-/
namespace HS

/-! ## the fields that the report speaks of -/

/-- at most one field is found at a path -/
theorem node_unique {s : STy} {p : List String} {f g : SFld} (hw : WFS s) (h1 : Node s p f) (h2 : Node s p g) : f = g := by
  induction h1 with
  | here hm =>
    cases hw with
    | struct hn _ =>
      rcases node_at hn hm h2 with ⟨_, h⟩ | h
      · exact h.symm
      · exact (node_ne_nil h).elim
  | @under n fs v k f p g' hm hu ih =>
    cases hw with
    | struct hn hall =>
      rcases node_at hn hm h2 with ⟨rfl, h⟩ | h
      · exact (node_ne_nil hu).elim
      · exact ih (hall _ _ hm) h

/-- nothing is found below a field that is not a dataclass -/
theorem node_below {s : STy} {p : List String} {f : SFld} (hw : WFS s) (h1 : Node s p f) (hf : f.type.isStruct = false) :
    ∀ {r : List String} {g : SFld}, Node s (p ++ r) g → r = [] := by
  induction h1 with
  | here hm =>
    intro r g h2
    cases hw with
    | struct hn _ =>
      rcases node_at hn hm h2 with ⟨h, _⟩ | h
      · exact h
      · rw [node_isStruct h] at hf; exact (nomatch hf)
  | @under n fs v k f p g' hm hu ih =>
    intro r g h2
    cases hw with
    | struct hn hall =>
      rcases node_at hn hm h2 with ⟨h, _⟩ | h
      · exact (List.append_eq_nil_iff.1 h).2
      · exact ih (hall _ _ hm) hf h

/-- the field of the old class at the path of a removed leaf is this leaf -/
theorem removed_at {old new o n : STy} {q r : List String} {f g : SFld} (hw : WFS old) (ht : Twin old new q o n) (hl : Leaf o r f)
    (hg : Node old (q ++ r) g) : g = f := by
  rcases twin_inv ht with ⟨rfl, rfl, rfl⟩ | ⟨a, b, rfl, _, _⟩ | ⟨a, b, rfl, _, _⟩ | ⟨p, f', g', q', rfl, h1, _, _⟩
  · exact node_unique hw hg hl.1
  · exact absurd (node_isStruct hg) (by simp [STy.isStruct])
  · exact absurd (node_isStruct hg) (by simp [STy.isStruct])
  · rw [List.append_assoc] at hg
    have := node_below hw h1.1 h1.2 hg
    rw [List.append_eq_nil_iff] at this
    rw [this.2] at hl
    exact (leaf_ne_nil hl).elim

theorem added_at {old new o n : STy} {q r : List String} {f g : SFld} (hw : WFS new) (ht : Twin old new q o n) (hl : Leaf n r f)
    (hg : Node new (q ++ r) g) : g = f := by
  rcases twin_inv ht with ⟨rfl, rfl, rfl⟩ | ⟨a, b, _, rfl, _⟩ | ⟨a, b, _, rfl, _⟩ | ⟨p, f', g', q', rfl, _, h1, _⟩
  · exact node_unique hw hg hl.1
  · exact absurd (node_isStruct hg) (by simp [STy.isStruct])
  · exact absurd (node_isStruct hg) (by simp [STy.isStruct])
  · rw [List.append_assoc] at hg
    have := node_below hw h1.1 h1.2 hg
    rw [List.append_eq_nil_iff] at this
    rw [this.2] at hl
    exact (leaf_ne_nil hl).elim

/-- what a reported rename says about the two fields: the old type is accepted for the new one, both or none have a default, and
the defaults are `==` -/
theorem C67_reported (lower : Char → String) (n : String) (fsA fsB : List Fld) (v w : Option Int) (F G : List (String × SFld))
    (report : List Change) (hA : materializeF fsA = .ok F) (hB : materializeF fsB = .ok G)
    (wA : WFS (.struct n F v)) (wB : WFS (.struct n G w))
    (hr : checkSchemas lower (.struct n F v) (.struct n G w) = .ok report) (old new : List String)
    (hren : .fieldRenamed old new ∈ report) (f g : Fld) (hf : FieldIs fsA old f) (hg : FieldIs fsB new g) :
    ∃ a b, materialize f.ty = .ok a ∧ materialize g.ty = .ok b ∧ isSubtype a b = true ∧ f.dflt.isSome = g.dflt.isSome ∧
      ∀ x y, f.dflt = some x → g.dflt = some y → ∃ x' y', Recorded x x' ∧ Recorded y y' ∧ pyEq x' y' = true := by
  obtain ⟨ga, na, ta, ba, da, ea⟩ := C66_recorded n hf v F hA
  obtain ⟨gb, nb, tb, bb, db, eb⟩ := C66_recorded n hg w G hB
  have hrec : ∀ {z : Val} {k : Fld} {sf : SFld}, k.dflt = some z →
      (∀ x, k.dflt = some x → (∀ c m w, x ≠ .enm c m w) → sf.dflt = x) → (∀ c m w, k.dflt = some (.enm c m w) → sf.dflt = w) →
      Recorded z sf.dflt := by
    intro z k sf hz h1 h2
    by_cases he : ∃ c m w, z = .enm c m w
    · obtain ⟨c, m, w, rfl⟩ := he
      exact .inr ⟨c, m, by rw [h2 c m w hz]⟩
    · have : ∀ c m w, z ≠ .enm c m w := fun c m w e => he ⟨c, m, w, e⟩
      exact .inl ⟨this, h1 z hz this⟩
  simp only [checkSchemas, bind, Except.bind, pure, Except.pure] at hr
  cases h3 : findChanges [] (.struct n G w) (.struct n F v) with
  | error e => rw [h3] at hr; exact (nomatch hr)
  | ok cs =>
    rw [h3] at hr
    cases hr
    have hren1 : .fieldRenamed old new ∈ findRenames (fieldRenameCfg lower) cs := by
      rcases C29_origin _ _ _ hren with h | ⟨a, _, r, _, h1, h2, h, _⟩
      · exact h
      · cases a <;> try (simp [enumRenameCfg] at h1; done)
        cases r <;> try (simp [enumRenameCfg] at h2; done)
        simp only [enumRenameCfg] at h
        split at h <;> exact (nomatch h)
    have hnot : .fieldRenamed old new ∉ cs := by
      intro h
      obtain ⟨q, o, n', _, hl⟩ := (C28_exact _ _ cs wA wB h3 _).1 h
      cases hl
    obtain ⟨rt, rd, hh, at', ad, hrem, hadd, hsub, heq⟩ := C29_field_rename lower cs old new hren1 hnot
    obtain ⟨q, o, n', r, f', t1, _, rfl, l1, e1, e2, e3, _⟩ := (C28_removed _ _ cs wA wB h3 _ _ _ _).1 hrem
    obtain ⟨q2, o2, n2, r2, f2, t2, _, rfl, l2, e4, e5, e6, _⟩ := (C28_added _ _ cs wA wB h3 _ _ _ _).1 hadd
    have u1 := removed_at wA t1 l1 na
    have u2 := added_at wB t2 l2 nb
    subst u1 u2 e1 e2 e3 e4 e5
    refine ⟨_, _, ta, tb, hsub, by rw [← ba, ← bb, e6], ?_⟩
    intro x y hx hy
    exact ⟨_, _, hrec hx da ea, hrec hy db eb, heq⟩

/-! ## rules and reachable paths -/

theorem reachable_cons {d : List (String × Val)} {k k' : String} {ks : List String} :
    Reachable (.dict d) (k :: k' :: ks) ↔ ∀ c, dget d k = some c → Reachable c (k' :: ks) := by
  constructor
  · intro h c hc q hq hne v hv
    exact h (k :: q) (by simpa using hq) (by simpa using hne) v (by simp [hc, hv])
  · intro h q hq hne v hv
    cases q with
    | nil => simp at hv; subst hv; rfl
    | cons j q =>
      obtain ⟨rfl, hq'⟩ : j = k ∧ q <+: k' :: ks := by simpa using hq
      simp only [at?_dict_cons] at hv
      cases hd : dget d j with
      | none => simp [hd] at hv
      | some c => exact h c hd q hq' (by simpa using hne) v (by simpa [hd] using hv)

theorem reachable_single {d : List (String × Val)} {k : String} : Reachable (.dict d) [k] := by
  intro q hq hne v hv
  cases q with
  | nil => simp at hv; subst hv; rfl
  | cons j q =>
    have : q = [] := by simpa using (by simpa using hq : j = k ∧ q <+: []).2
    subst this
    simp at hq hne
    exact absurd hq hne

theorem reachable_remove {p' p : List String} {sd sd' : Val} {r : Option Val} (h : removePath sd p' = .ok (sd', r))
    (hr : Reachable sd p) : Reachable sd' p := by
  obtain ⟨_, _, hgone, hframe, hdict⟩ := removePath_spec h
  intro q hq hne w hw
  by_cases hpre : p' <+: q
  · obtain ⟨t, rfl⟩ := hpre
    rw [at?_append, hgone] at hw; simp at hw
  · by_cases hpre2 : q <+: p'
    · have hqo : q ≠ p' := by rintro rfl; exact hpre (List.prefix_rfl)
      have := hdict q hpre2 hqo
      rw [hw] at this
      cases hs : sd.at? q with
      | none => simp [hs] at this
      | some u => simp [hs] at this; rw [this]; exact hr q hq hne u hs
    · rw [hframe q ⟨hpre, hpre2⟩] at hw
      exact hr q hq hne w hw

theorem reachable_insert {value : Val} {cn : Bool} : ∀ {p' p : List String} {sd sd' : Val},
    insertPath value cn sd p' = .ok sd' → NotAbove p' p → WEAK_REF ∉ p → p ≠ [] → Reachable sd p → Reachable sd' p := by
  intro p'
  induction p' with
  | nil => intro p sd sd' h; simp [insertPath] at h
  | cons k ks ih =>
    intro p sd sd' h hna hw hp hs
    obtain ⟨d, rfl⟩ := (isDict_iff sd).1 (hs.isDict hp)
    obtain ⟨d', rfl, hsame⟩ := insertPath_isDict h
    cases p with
    | nil => exact absurd rfl hp
    | cons j js =>
      cases js with
      | nil => exact reachable_single
      | cons j' js =>
        have hs' := reachable_cons.1 hs
        have hwj : WEAK_REF ∉ j' :: js := fun hm => hw (List.mem_cons_of_mem _ hm)
        refine reachable_cons.2 ?_
        intro c hc
        by_cases e : j = k
        · subst e
          cases ks with
          | nil => exact absurd (hna (by simp)) (by simp)
          | cons k' ks =>
            rw [insertPath_cons_dict] at h
            split at h
            · rename_i dc hdc
              split at h
              · rename_i c' hc'
                simp only [Except.ok.injEq, Val.dict.injEq] at h
                subst h
                rw [dget_dset_self, Option.some.injEq] at hc
                subst hc
                refine ih hc' ?_ hwj (by simp) ?_
                · intro hpre
                  have := hna (by simpa using hpre)
                  simpa using this
                · intro q hq hne v hv
                  by_cases hq0 : q = []
                  · subst hq0; simp at hv; subst hv; split <;> rfl
                  · have hwq : WEAK_REF ∉ q := fun hm => hwj (hq.subset hm)
                    rw [at?_weakStrip cn dc hwq hq0] at hv
                    cases hg : dget d j with
                    | none =>
                      simp [hg] at hdc
                      rw [← hdc, at?_freshObj cn hq0 hwq] at hv
                      simp at hv
                    | some c =>
                      simp [hg] at hdc; subst hdc
                      exact hs' _ hg q hq hne v hv
              · simp at h
            · simp only [Except.ok.injEq, Val.dict.injEq] at h
              subst h
              exact hs' c hc
        · rw [hsame j (by simp; exact fun h => e h.symm)] at hc
          exact hs' c hc

theorem rule_reachable {r : Rule} {sd sd' : Val} (h : r.apply sd = .ok sd') {p : List String} (hp : p ≠ []) (hw : WEAK_REF ∉ p)
    (hu : ∀ p' ∈ r.paths, NotAbove p' p) (hs : Reachable sd p) : Reachable sd' p := by
  rcases rule_steps h with rfl | ⟨p1, hp1, sd1, r1, hr, rfl | ⟨p2, hp2, v, cn, hi⟩⟩
  · exact hs
  · exact reachable_remove hr hs
  · exact reachable_insert hi (hu p2 hp2) hw hp (reachable_remove hr hs)

theorem applyRules_reachable {p : List String} (hp : p ≠ []) (hw : WEAK_REF ∉ p) : ∀ {rs : List Rule} {sd sd' : Val},
    applyRules rs sd = .ok sd' → (∀ r ∈ rs, ∀ p' ∈ r.paths, NotAbove p' p) → Reachable sd p → Reachable sd' p := by
  intro rs
  induction rs with
  | nil => intro sd sd' h _ hs; simp [applyRules] at h; subst h; exact hs
  | cons r rs ih =>
    intro sd sd' h hu hs
    simp only [applyRules, bind, Except.bind] at h
    split at h
    · simp at h
    · rename_i sd1 h1
      exact ih h (fun r hr => hu r (List.mem_cons_of_mem _ hr)) (rule_reachable h1 hp hw (hu r (by simp)) hs)

/-- after a rename, the value stands at the new path, in objects that are not marked weak -/
theorem rename_solid {sd sd' x : Val} {old new : List String} (ho : old ≠ []) (hn : new ≠ []) (hw : WEAK_REF ∉ new)
    (hx : sd.at? old = some x) (hr : Reachable sd new) (h : (Rule.rename old new).apply sd = .ok sd') :
    sd'.at? new = some x ∧ Solid sd' new := by
  obtain ⟨sd1, h1⟩ := removePath_present ho hx
  obtain ⟨sd2, h2, hat⟩ := insertPath_reachable x true hn (fun h => hw ((List.dropLast_subset _) h)) (reachable_remove h1 hr)
  simp only [Rule.apply, h1, bind, Except.bind, h2, Except.ok.injEq] at h
  subst h
  refine ⟨hat, ?_⟩
  intro q hq hne
  have hre := reachable_of_present hat q hq hne
  cases hv : sd2.at? q with
  | none =>
    obtain ⟨t, rfl⟩ := hq
    rw [at?_append, hv] at hat
    simp at hat
  | some v =>
    obtain ⟨d, rfl⟩ := (isDict_iff v).1 (hre v hv)
    refine ⟨d, rfl, fun hq0 => ?_⟩
    have := C21_insert_unmarks x new sd1 sd2 h2 hw (by rw [hat]; simp) q hq hne hq0
    rw [at?_append, hv] at this
    simp only [Option.bind_some, at?_dict_cons] at this
    cases hd : dget d WEAK_REF with
    | none => rfl
    | some c => simp [hd] at this

theorem at_ddel_version {d : List (String × Val)} {p : List String} (hp0 : p ≠ []) (hp : p.head? ≠ some "version") :
    (Val.dict (ddel d "version")).at? p = (Val.dict d).at? p ∧ (Solid (.dict d) p → Solid (.dict (ddel d "version")) p) ∧
    (Reachable (.dict d) p → Reachable (.dict (ddel d "version")) p) := by
  cases p with
  | nil => exact absurd rfl hp0
  | cons j js =>
    have hj : "version" ≠ j := fun e => hp (by simp [e])
    refine ⟨by simp only [at?_dict_cons]; rw [dget_ddel_ne _ hj], ?_, ?_⟩
    · intro hs
      cases js with
      | nil => exact solid_single
      | cons j' js =>
        obtain ⟨dc, h1, h2⟩ := solid_cons.1 hs
        exact solid_cons.2 ⟨dc, by rw [dget_ddel_ne _ hj, h1], h2⟩
    · intro hs
      cases js with
      | nil => exact reachable_single
      | cons j' js =>
        refine reachable_cons.2 fun c hc => ?_
        rw [dget_ddel_ne _ hj] at hc
        exact reachable_cons.1 hs c hc

/-! ## C67 -/

/-- the rules proposed for the changes other than the given rename concern other fields -/
theorem fixes_apart {report R1 R2 : List Change} {old new : List String} (hR : report = R1 ++ .fieldRenamed old new :: R2)
    (hapart : ((report.filter Change.marked).flatMap Change.places).Pairwise Incomp)
    (hnames : ∀ ch ∈ report, ∀ q ∈ ch.places, WEAK_REF ∉ q) :
    Unrelated old new ∧ ∀ r ∈ proposedFixes R1 ++ proposedFixes R2, ∀ p' ∈ r.paths,
      Unrelated p' old ∧ Unrelated p' new ∧ WEAK_REF ∉ p' := by
  have hself : (Change.fieldRenamed old new).marked = true := rfl
  have hap := hapart
  rw [hR] at hap
  simp only [List.filter_append, List.filter_cons, hself, if_true, List.flatMap_append, List.flatMap_cons,
    List.pairwise_append, Change.places, List.cons_append, List.nil_append, List.pairwise_cons] at hap
  obtain ⟨_, ⟨k2, k2', _⟩, k3⟩ := hap
  refine ⟨k2 new List.mem_cons_self, ?_⟩
  intro r hr' p' hp'
  have : ∃ ch, (ch ∈ R1 ∨ ch ∈ R2) ∧ ch.fix = some r := by
    rcases List.mem_append.1 hr' with h | h
    · obtain ⟨ch, a, b⟩ := List.mem_filterMap.1 h
      exact ⟨ch, .inl a, b⟩
    · obtain ⟨ch, a, b⟩ := List.mem_filterMap.1 h
      exact ⟨ch, .inr a, b⟩
  obtain ⟨ch, hmem, hfx⟩ := this
  rw [fix_paths hfx] at hp'
  have hmark : ch.marked = true := by simp [Change.marked, hfx]
  have hin : ∀ R : List Change, ch ∈ R → p' ∈ (R.filter Change.marked).flatMap Change.places := by
    intro R h
    exact List.mem_flatMap.2 ⟨ch, List.mem_filter.2 ⟨h, hmark⟩, hp'⟩
  have hwk := hnames ch (by rw [hR]; rcases hmem with h | h <;> simp [h]) p' hp'
  rcases hmem with h | h
  · exact ⟨k3 p' (hin R1 h) old (by simp), k3 p' (hin R1 h) new (by simp), hwk⟩
  · have a := k2 p' (List.mem_cons_of_mem _ (hin R2 h))
    have b := k2' p' (hin R2 h)
    exact ⟨⟨a.2, a.1⟩, ⟨b.2, b.1⟩, hwk⟩

/-- **C67**. The checker reports that a field was renamed. The user adds the rules that it proposes, for the old version, and
increments the version. Then an old config file means the same to both versions of the class:

* if it sets the field, then both read the value that it gives, as their own type; this is the same value when the types are
  equal, and up to conversion between numbers for types without Optionals, unions and dataclasses;
* if it leaves the field out, then both use their defaults, which are `==`.

Partial: no two proposed rules may concern fields within one another, and nested classes are unversioned. For other types the
checker accepts types for one another that are not compatible (`C30_option_false`). -/
theorem C67_advice_partial (lower : Char → String) (c : DCfg) (n : String) (fsA fsB : List Fld) (va vb : VerInfo)
    (F G : List (String × SFld)) (report : List Change)
    (hA : materializeF fsA = .ok F) (hB : materializeF fsB = .ok G)
    (wA : WFS (.struct n F (some va.version))) (wB : WFS (.struct n G (some va.version)))
    (hr : checkSchemas lower (.struct n F (some va.version)) (.struct n G (some va.version)) = .ok report)
    (hapart : ((report.filter Change.marked).flatMap Change.places).Pairwise Incomp)
    (hnames : ∀ ch ∈ report, ∀ q ∈ ch.places, WEAK_REF ∉ q ∧ NAME_KEY ∉ q ∧ q.head? ≠ some "version")
    (hver : vb.version = va.version + 1) (hrules : vb.rulesAt va.version = proposedFixes report)
    (old new : List String) (hren : .fieldRenamed old new ∈ report) (f g : Fld) (hf : FieldIs fsA old f) (hg : FieldIs fsB new g)
    (d : List (String × Val)) (hdver : dget d "version" = some (.int va.version))
    (ig : Bool) (v1 v2 : Val) (es1 es2 : List Ev)
    (h1 : fromDict c (.data n fsA (some va)) ig "" (.dict d) = .ok (v1, es1))
    (h2 : fromDict c (.data n fsB (some vb)) ig "" (.dict d) = .ok (v2, es2)) :
    (∀ x, (Val.dict d).at? old = some x → x.isWeak = false → Solid (.dict d) old → Reachable (.dict d) new →
      ∃ y1 y2, v1.attr old = some y1 ∧ v2.attr new = some y2 ∧
        (∃ es, fromDict c f.ty false "" x = .ok (y1, es)) ∧ (∃ es, fromDict c g.ty false "" x = .ok (y2, es)) ∧
        (f.ty = g.ty → y1 = y2) ∧
        ((∀ a, materialize f.ty = .ok a → FlatS a) → (∀ b, materialize g.ty = .ok b → LitUsable c.ext b) → IntsFit x → Kept x y1 y2)) ∧
    ((Val.dict d).at? old = .none → (Val.dict d).at? new = .none → Solid (.dict d) old → Solid (.dict d) new →
      ∀ x, f.dflt = some x → ∃ y, g.dflt = some y ∧ v1.attr old = some x ∧ v2.attr new = some y ∧
        ∃ x' y', Recorded x x' ∧ Recorded y y' ∧ pyEq x' y' = true) := by
  obtain ⟨a, b, ta, tb, hsub, hdd, hdef⟩ := C67_reported lower n fsA fsB _ _ F G report hA hB wA wB hr old new hren f g hf hg
  obtain ⟨hwo, hno, hvo⟩ := hnames _ hren old (by simp [Change.places])
  obtain ⟨hwn, hnn, hvn⟩ := hnames _ hren new (by simp [Change.places])
  have ho0 : old ≠ [] := by cases hf <;> simp
  have hn0 : new ≠ [] := by cases hg <;> simp
  obtain ⟨R1, R2, hR⟩ := List.append_of_mem hren
  obtain ⟨hon, hothers⟩ := fixes_apart hR hapart (fun ch h q hq => (hnames ch h q hq).1)
  have hfix : proposedFixes report = proposedFixes R1 ++ .rename old new :: proposedFixes R2 := by
    rw [hR]; simp [proposedFixes, List.filterMap_append, Change.fix]
  have hfrom : vb.rulesFrom va.version = proposedFixes report := by
    simp [VerInfo.rulesFrom, hver, rangeI, hrules]
  obtain ⟨o1, o2, _⟩ := at_ddel_version (d := d) ho0 hvo
  obtain ⟨n1, n2, n3⟩ := at_ddel_version (d := d) hn0 hvn
  -- the document as the old version reads it
  have h1' : fromDict c (.data n fsA .none) ig "" (.dict (ddel d "version")) = .ok (v1, es1) := by
    cases hvh : versionHook c.allowMissing va (.dict d) with
    | error e => simp [fromDict, hvh, bind, Except.bind] at h1
    | ok w =>
      have hup : Upgraded c (some va) (.dict d) w := hvh
      rw [fromDict_upgraded hup] at h1
      have hrun := versionHook_rules hdver hvh
      have h0 : va.rulesFrom va.version = [] := by simp [VerInfo.rulesFrom, rangeI]
      rw [h0] at hrun
      simp only [applyRules, Except.ok.injEq] at hrun
      rw [← hrun] at h1
      exact h1
  -- the document as the new version reads it
  obtain ⟨w0, w1, w2, a1, a2, a3, h2'⟩ : ∃ w0 w1 w2, applyRules (proposedFixes R1) (.dict (ddel d "version")) = .ok w0 ∧
      (Rule.rename old new).apply w0 = .ok w1 ∧ applyRules (proposedFixes R2) w1 = .ok w2 ∧
      fromDict c (.data n fsB .none) ig "" w2 = .ok (v2, es2) := by
    cases hvh : versionHook c.allowMissing vb (.dict d) with
    | error e => simp [fromDict, hvh, bind, Except.bind] at h2
    | ok w =>
      have hup : Upgraded c (some vb) (.dict d) w := hvh
      rw [fromDict_upgraded hup] at h2
      have hrun := versionHook_rules hdver hvh
      rw [hfrom, hfix] at hrun
      rw [applyRules_append] at hrun
      obtain ⟨w0, a1, a2⟩ : ∃ w0, applyRules (proposedFixes R1) (.dict (ddel d "version")) = .ok w0 ∧
          applyRules (.rename old new :: proposedFixes R2) w0 = .ok w := by
        cases h0 : applyRules (proposedFixes R1) (.dict (ddel d "version")) with
        | error e => rw [h0] at hrun; exact (nomatch hrun)
        | ok w0 => rw [h0] at hrun; exact ⟨w0, rfl, hrun⟩
      simp only [applyRules, bind, Except.bind] at a2
      split at a2
      · simp at a2
      · rename_i w1 hw1
        exact ⟨w0, w1, w, a1, hw1, a2, h2⟩
  have hR1o : ∀ r ∈ proposedFixes R1, ∀ p' ∈ r.paths, Unrelated p' old ∧ WEAK_REF ∉ p' := fun r hr p' hp =>
    let k := hothers r (List.mem_append_left _ hr) p' hp
    ⟨k.1, k.2.2⟩
  have hR1n : ∀ r ∈ proposedFixes R1, ∀ p' ∈ r.paths, Unrelated p' new ∧ WEAK_REF ∉ p' := fun r hr p' hp =>
    let k := hothers r (List.mem_append_left _ hr) p' hp
    ⟨k.2.1, k.2.2⟩
  have hR2n : ∀ r ∈ proposedFixes R2, ∀ p' ∈ r.paths, Unrelated p' new ∧ WEAK_REF ∉ p' := fun r hr p' hp =>
    let k := hothers r (List.mem_append_right _ hr) p' hp
    ⟨k.2.1, k.2.2⟩
  obtain ⟨f1, f2⟩ := applyRules_frame hwo ho0 a1 hR1o
  obtain ⟨f3, f4⟩ := applyRules_frame hwn hn0 a1 hR1n
  obtain ⟨f5, f6⟩ := applyRules_frame hwn hn0 a3 hR2n
  constructor
  · intro x hx hweak hs hreach
    obtain ⟨y1, es, p1, k1, k2⟩ := fromDict_attr c hf.fieldAtU n ig "" _ v1 es1 x h1' (o2 hs) (by rw [o1, hx]) hweak hno
    have hre0 := applyRules_reachable hn0 hwn a1 (fun r hr p' hp => (hR1n r hr p' hp).1.notAbove) (n3 hreach)
    obtain ⟨s1, s2⟩ := rename_solid ho0 hn0 hwn (by rw [f1, o1, hx]) hre0 a2
    obtain ⟨y2, es', p2, k3, k4⟩ := fromDict_attr c hg.fieldAtU n ig "" _ v2 es2 x h2' (f6 s2) (by rw [f5, s1]) hweak hnn
    have r1 : ∃ es, fromDict c f.ty false "" x = .ok (y1, es) := by
      apply valOf_ok
      rw [fromDict_valOf c f.ty false "" p1 x, k2]; rfl
    have r2 : ∃ es, fromDict c g.ty false "" x = .ok (y2, es) := by
      apply valOf_ok
      rw [fromDict_valOf c g.ty false "" p2 x, k4]; rfl
    refine ⟨y1, y2, k1, k3, r1, r2, ?_, ?_⟩
    · intro he
      obtain ⟨_, r1⟩ := r1
      obtain ⟨_, r2⟩ := r2
      rw [← he, r1] at r2
      cases r2
      rfl
    · intro hflat hlit hints
      obtain ⟨_, r1⟩ := r1
      obtain ⟨_, r2⟩ := r2
      obtain ⟨r', k5, k6⟩ := C30_partial c f.ty g.ty a b ta tb (hflat a ta) (hlit b tb) hsub false "" x hints _ r1
      rw [r2] at k5
      cases k5
      exact k6.1
  · intro hxo hxn hso hsn x hx
    have hy : ∃ y, g.dflt = some y := by
      rw [hx] at hdd
      exact Option.isSome_iff_exists.1 hdd.symm
    obtain ⟨y, hy⟩ := hy
    refine ⟨y, hy, ?_, ?_, hdef x y hx hy⟩
    · exact fromDict_attr_default c hf n ig "" _ v1 es1 x h1' (o2 hso) (by rw [o1, hxo]) hx hno
    · have hw1 : w1 = w0 := by
        simp only [Rule.apply, bind, Except.bind, pure, Except.pure] at a2
        split at a2
        · simp at a2
        · rename_i z hz
          obtain ⟨e1, e2, _⟩ := removePath_spec (r := z.2) (sd' := z.1) hz
          have : z.2 = .none := by rw [e1, f1, o1, hxo]
          rw [this] at a2
          simp only [Except.ok.injEq] at a2
          rw [← a2, e2 this]
      subst hw1
      exact fromDict_attr_default c hg n ig "" _ v2 es2 y h2' (f6 (f4 (n2 hsn))) (by rw [f5, f3, n1, hxn]) hy hnn

namespace ExRA
/-- `class Opt: learning_rate: int` becomes `class Opt: lr: float` -/
def fsA : List Fld := [.mk "opt" (.data "Opt" [.mk "learning_rate" .int (some (.int 3))] .none) .none, .mk "steps" .int (some (.int 3))]
def fsB : List Fld := [.mk "opt" (.data "Opt" [.mk "lr" .float (some (.flt (.fin 3)))] .none) .none, .mk "steps" .int (some (.int 3))]
def va : VerInfo := ⟨0, []⟩
def vb : VerInfo := ⟨1, [(0, [.rename ["opt", "learning_rate"] ["opt", "lr"]])]⟩
def FA : List (String × SFld) :=
  [("opt", .mk "opt" (.struct "Opt" [("learning_rate", .mk "learning_rate" (.prim "int") (.int 3) true .none)] .none) .none false .none),
   ("steps", .mk "steps" (.prim "int") (.int 3) true .none)]
def FB : List (String × SFld) :=
  [("opt", .mk "opt" (.struct "Opt" [("lr", .mk "lr" (.prim "float") (.flt (.fin 3)) true .none)] .none) .none false .none),
   ("steps", .mk "steps" (.prim "int") (.int 3) true .none)]
/-- a file that sets the field, and one that leaves it out -/
def doc : List (String × Val) := [("version", .int 0), ("opt", .dict [("learning_rate", .int 5)])]
def doc' : List (String × Val) := [("version", .int 0), ("opt", .dict [])]
end ExRA

/-- The hypotheses of `C67_advice_partial` are met by a field that gets a shorter name and a wider type. -/
example : materializeF ExRA.fsA = .ok ExRA.FA ∧ materializeF ExRA.fsB = .ok ExRA.FB ∧
    (match checkSchemas (fun c => c.toString) (.struct "C" ExRA.FA (some 0)) (.struct "C" ExRA.FB (some 0)) with
      | .ok [.fieldRenamed ["opt", "learning_rate"] ["opt", "lr"]] => true | _ => false) = true ∧
    ExRA.vb.rulesAt 0 = proposedFixes [.fieldRenamed ["opt", "learning_rate"] ["opt", "lr"]] ∧
    FieldIs ExRA.fsA ["opt", "learning_rate"] (.mk "learning_rate" .int (some (.int 3))) ∧
    FieldIs ExRA.fsB ["opt", "lr"] (.mk "lr" .float (some (.flt (.fin 3)))) :=
  ⟨rfl, rfl, by decide +kernel, rfl,
    .there (f := .mk "opt" (.data "Opt" [.mk "learning_rate" .int (some (.int 3))] .none) .none) rfl rfl (.here rfl),
    .there (f := .mk "opt" (.data "Opt" [.mk "lr" .float (some (.flt (.fin 3)))] .none) .none) rfl rfl (.here rfl)⟩
example : Solid (.dict ExRA.doc) ["opt", "learning_rate"] ∧ (Val.dict ExRA.doc).at? ["opt", "learning_rate"] = some (.int 5) ∧
    Reachable (.dict ExRA.doc) ["opt", "lr"] ∧ Solid (.dict ExRA.doc') ["opt", "lr"] :=
  ⟨solid_cons.2 ⟨_, rfl, rfl, solid_single⟩, rfl, reachable_cons.2 (by intro c hc; cases hc; exact reachable_single),
    solid_cons.2 ⟨[], rfl, rfl, solid_single⟩⟩
/-- Both versions of the class read the two files, with the same content. -/
example (c : DCfg) :
    fromDict c (.data "C" ExRA.fsA (some ExRA.va)) false "" (.dict ExRA.doc) =
      .ok (.inst "C" [("opt", .inst "Opt" [("learning_rate", .int 5)]), ("steps", .int 3)], []) ∧
    fromDict c (.data "C" ExRA.fsB (some ExRA.vb)) false "" (.dict ExRA.doc') =
      .ok (.inst "C" [("opt", .inst "Opt" [("lr", .flt (.fin 3))]), ("steps", .int 3)], []) := by
  cases c
  exact ⟨rfl, rfl⟩
example : (match fromDict ⟨⟨fun _ => .none, fun _ => .error .valueError, fun _ => true⟩, false, false, fun _ => ⟨.none, []⟩⟩
      (.data "C" ExRA.fsB (some ExRA.vb)) false "" (.dict ExRA.doc) with
    | .ok (.inst "C" [("opt", .inst "Opt" [("lr", .flt (.fin x))]), ("steps", .int 3)], []) => x == 5 | _ => false) = true := by
  decide +kernel

end HS
