import Verif.Props.RenameAdvice
/-!
# C83: the rule proposed for a new field, or for a removed default, gives old configs a value that the new class accepts
-/
namespace HS

/-- an AddDefault rule among rules about other fields: the loaded object holds the value of the rule, as the type of the field
reads it, when the document leaves the field out and gives the objects around it -/
theorem addDefault_load (c : DCfg) (n : String) (fs : List Fld) (vi : VerInfo) (ig : Bool)
    (d : List (String × Val)) (v0 : Int) (hver : dget d "version" = some (.int v0)) (p : List String) (t : PyTy)
    (hf : FieldAtU fs p t) (hn : NAME_KEY ∉ p) (hw : WEAK_REF ∉ p) (hp : p.head? ≠ some "version")
    (x : Val) (hx : x.isWeak = false) (pre post : List Rule)
    (hrules : vi.rulesFrom v0 = pre ++ .addDefault p x :: post)
    (hpre : ∀ r ∈ pre ++ post, ∀ p' ∈ r.paths, Unrelated p' p ∧ WEAK_REF ∉ p')
    (hs : Solid (.dict d) p) (habs : (Val.dict d).at? p = .none) (v : Val) (es : List Ev)
    (h : fromDict c (.data n fs (some vi)) ig "" (.dict d) = .ok (v, es)) :
    ∃ y es' path, v.attr p = some y ∧ fromDict c t false path x = .ok (y, es') := by
  have hp0 : p ≠ [] := by cases hf <;> simp
  cases hvh : versionHook c.allowMissing vi (.dict d) with
  | error e => simp [fromDict, hvh, bind, Except.bind] at h
  | ok w =>
    have hup : Upgraded c (some vi) (.dict d) w := hvh
    rw [fromDict_upgraded hup] at h
    have hrun := versionHook_rules hver hvh
    rw [hrules, applyRules_append] at hrun
    obtain ⟨o1, o2, _⟩ := at_ddel_version (d := d) hp0 hp
    simp only [bind, Except.bind] at hrun
    split at hrun
    · simp at hrun
    · rename_i sd1 h1
      obtain ⟨f1, f2⟩ := applyRules_frame hw hp0 h1 (fun r hr => hpre r (by simp [hr]))
      have hs1 := f2 (o2 hs)
      have ha1 : sd1.at? p = .none := by rw [f1, o1, habs]
      simp only [applyRules, bind, Except.bind] at hrun
      have hreach : Reachable sd1 p := by
        intro q hq hne w' hw'
        obtain ⟨d', hd', _⟩ := hs1 q hq hne
        rw [hd'] at hw'; cases hw'; rfl
      obtain ⟨sd2, h2, ha2, _⟩ := C21_addDefault_absent sd1 x p hp0 (fun hm => hw (List.dropLast_subset _ hm)) hreach ha1
      rw [h2] at hrun
      have hs2 : Solid sd2 p := rule_solid h2 hp0 (by simp [Rule.paths, NotAbove, hw]) hs1
      obtain ⟨g1, g2⟩ := applyRules_frame hw hp0 hrun (fun r hr => hpre r (by simp [hr]))
      obtain ⟨y, es', path, k1, k2⟩ := fromDict_attr c hf n ig "" w v es x h (g2 hs2) (by rw [g1, ha2]) hx hn
      exact ⟨y, es', path, k1, k2⟩

/-- the rules proposed for the other changes concern other fields -/
theorem fixes_apart1 {report R1 R2 : List Change} {ch0 : Change} {p : List String} (hR : report = R1 ++ ch0 :: R2)
    (hself : ch0.marked = true) (hpl : ch0.places = [p])
    (hapart : ((report.filter Change.marked).flatMap Change.places).Pairwise Incomp)
    (hnames : ∀ ch ∈ report, ∀ q ∈ ch.places, WEAK_REF ∉ q) :
    ∀ r ∈ proposedFixes R1 ++ proposedFixes R2, ∀ p' ∈ r.paths, Unrelated p' p ∧ WEAK_REF ∉ p' := by
  have hap := hapart
  rw [hR] at hap
  simp only [List.filter_append, List.filter_cons, hself, if_true, List.flatMap_append, List.flatMap_cons,
    List.pairwise_append, hpl, List.cons_append, List.nil_append, List.pairwise_cons] at hap
  obtain ⟨_, ⟨k2, _⟩, k3⟩ := hap
  intro r hr' p' hp'
  have : ∃ ch, (ch ∈ R1 ∨ ch ∈ R2) ∧ ch.fix = some r := by
    rcases List.mem_append.1 hr' with h | h
    · obtain ⟨ch, a, b⟩ := List.mem_filterMap.1 h
      exact ⟨ch, .inl a, b⟩
    · obtain ⟨ch, a, b⟩ := List.mem_filterMap.1 h
      exact ⟨ch, .inr a, b⟩
  obtain ⟨ch, hmem, hfx⟩ := this
  rw [fix_paths hfx] at hp'
  have hmark : ch.marked = true := by simp [Change.marked, hfx]
  have hin : ∀ R : List Change, ch ∈ R → p' ∈ (R.filter Change.marked).flatMap Change.places := by
    intro R h
    exact List.mem_flatMap.2 ⟨ch, List.mem_filter.2 ⟨h, hmark⟩, hp'⟩
  have hwk := hnames ch (by rw [hR]; rcases hmem with h | h <;> simp [h]) p' hp'
  rcases hmem with h | h
  · exact ⟨k3 p' (hin R1 h) p (by simp), hwk⟩
  · have a := k2 p' (hin R2 h)
    exact ⟨⟨a.2, a.1⟩, hwk⟩

/-- types whose new fields the checker proposes a value for, and this value as the class reads it -/
inductive FillOf : PyTy → Val → Prop
  | optional {t} : FillOf (.optional t) .none
  | list {t} : FillOf (.list t) (.list [])

/-- **C83**, new fields. The new version of a class has a field of type `Optional[T]` or `List[T]` without a default, and the
checker reports it as added. The user adds the rules that the checker proposes, for the old version, and increments the version.
Then a config file written for the old version stands for `None`, or the empty list, in this field.

Partial: the file gives the object that the field is part of (otherwise `C83_false`), no two proposed rules may concern fields
within one another, and nested classes are unversioned. -/
theorem C83_added_partial (lower : Char → String) (c : DCfg) (n : String) (fsA fsB : List Fld) (va vb : VerInfo)
    (F G : List (String × SFld)) (report : List Change)
    (hB : materializeF fsB = .ok G)
    (wA : WFS (.struct n F (some va.version))) (wB : WFS (.struct n G (some va.version)))
    (hr : checkSchemas lower (.struct n F (some va.version)) (.struct n G (some va.version)) = .ok report)
    (hapart : ((report.filter Change.marked).flatMap Change.places).Pairwise Incomp)
    (hnames : ∀ ch ∈ report, ∀ q ∈ ch.places, WEAK_REF ∉ q)
    (hver : vb.version = va.version + 1) (hrules : vb.rulesAt va.version = proposedFixes report)
    (p : List String) (g : Fld) (hg : FieldIs fsB p g) (hnd : g.dflt = .none)
    (x : Val) (hfill : FillOf g.ty x) (t : STy) (dv : Val) (b : Bool) (hch : .fieldAdded p t dv b ∈ report)
    (hn : NAME_KEY ∉ p) (hp : p.head? ≠ some "version")
    (d : List (String × Val)) (hdver : dget d "version" = some (.int va.version)) (hs : Solid (.dict d) p) (habs : (Val.dict d).at? p = .none)
    (ig : Bool) (v : Val) (es : List Ev)
    (h : fromDict c (.data n fsB (some vb)) ig "" (.dict d) = .ok (v, es)) :
    v.attr p = some x := by
  obtain ⟨gb, nb, tb, bb, _, _⟩ := C66_recorded n hg (some va.version) G hB
  -- what the report says of the field
  have hrep : t = gb.type ∧ b = false := by
    simp only [checkSchemas, bind, Except.bind, pure, Except.pure] at hr
    cases h3 : findChanges [] (.struct n G (some va.version)) (.struct n F (some va.version)) with
    | error e => rw [h3] at hr; exact (nomatch hr)
    | ok cs =>
      rw [h3] at hr
      cases hr
      have h1 : .fieldAdded p t dv b ∈ findRenames (fieldRenameCfg lower) cs := by
        rcases C29_origin _ _ _ hch with h | ⟨a, _, r, _, h1, h2, h, _⟩
        · exact h
        · cases a <;> try (simp [enumRenameCfg] at h1; done)
          cases r <;> try (simp [enumRenameCfg] at h2; done)
          simp only [enumRenameCfg] at h
          split at h <;> exact (nomatch h)
      have h2 : .fieldAdded p t dv b ∈ cs := by
        rcases C29_origin _ _ _ h1 with h | ⟨a, _, r, _, h1, h2, h, _⟩
        · exact h
        · cases a <;> try (simp [fieldRenameCfg] at h1; done)
          cases r <;> try (simp [fieldRenameCfg] at h2; done)
          simp [fieldRenameCfg] at h
      obtain ⟨q2, o2, n2, r2, f2, t2, _, rfl, l2, e4, e5, e6, _⟩ := (C28_added _ _ cs wA wB h3 _ _ _ _).1 h2
      have u2 := added_at wB t2 l2 nb
      subst u2
      exact ⟨e4.symm, by rw [← e6, bb, hnd]; rfl⟩
  obtain ⟨rfl, rfl⟩ := hrep
  have hfix : (Change.fieldAdded p gb.type dv false).fix = some (.addDefault p x) := by
    generalize gb.type = t at tb
    cases hfill' : g.ty <;> rw [hfill'] at hfill tb <;> cases hfill
    · rename_i a
      simp only [materialize, bind, Except.bind, pure, Except.pure] at tb
      cases hm : materialize a with
      | error e => rw [hm] at tb; exact (nomatch tb)
      | ok s => rw [hm] at tb; cases tb; rfl
    · rename_i a
      simp only [materialize, isOptionalArgs, PyTy.isNoneT, materializeOpt, bind, Except.bind, pure, Except.pure, if_true] at tb
      cases hm : materialize a with
      | error e => rw [hm] at tb; exact (nomatch tb)
      | ok s => rw [hm] at tb; cases tb; rfl
  obtain ⟨R1, R2, hR⟩ := List.append_of_mem hch
  have hfixes : proposedFixes report = proposedFixes R1 ++ .addDefault p x :: proposedFixes R2 := by
    rw [hR]; simp [proposedFixes, List.filterMap_append, List.filterMap_cons, hfix]
  have hfrom : vb.rulesFrom va.version = proposedFixes report := by
    simp [VerInfo.rulesFrom, hver, rangeI, hrules]
  have hw : WEAK_REF ∉ p := hnames _ hch p (by simp [Change.places])
  have hmark : (Change.fieldAdded p gb.type dv false).marked = true := by simp [Change.marked, hfix]
  have hothers := fixes_apart1 hR hmark rfl hapart hnames
  have hxw : x.isWeak = false := by
    generalize g.ty = ty at hfill
    cases hfill <;> rfl
  obtain ⟨y, es', path, k1, k2⟩ := addDefault_load c n fsB vb ig d va.version hdver p g.ty hg.fieldAtU hn hw hp x hxw
    (proposedFixes R1) (proposedFixes R2) (hfrom.trans hfixes) hothers hs habs v es h
  rw [k1]
  generalize g.ty = ty at hfill k2
  cases hfill
  · simp [fromDict, PyTy.optional, isOptionalArgs, PyTy.isNoneT, Val.isNone] at k2
    rw [k2.1]
  · simp [fromDict, mapIdx, bind, Except.bind, pure, Except.pure] at k2
    rw [k2.1]

/-- **C83**, removed defaults. A field has the default `x` in the old version of a class and none in the new version. The user
adds the rules that the checker proposes, for the old version, and increments the version. Then an old config file that leaves
the field out, and gives the object that the field is part of, still stands for `x`.

Partial: as for new fields, and the type of the field is one with atomic values. -/
theorem C83_default_removed_partial (lower : Char → String) (c : DCfg) (n : String) (fsA fsB : List Fld) (va vb : VerInfo)
    (F G : List (String × SFld)) (report : List Change)
    (hA : materializeF fsA = .ok F) (hB : materializeF fsB = .ok G)
    (wA : WFS (.struct n F (some va.version))) (wB : WFS (.struct n G (some va.version)))
    (hr : checkSchemas lower (.struct n F (some va.version)) (.struct n G (some va.version)) = .ok report)
    (hapart : ((report.filter Change.marked).flatMap Change.places).Pairwise Incomp)
    (hnames : ∀ ch ∈ report, ∀ q ∈ ch.places, WEAK_REF ∉ q)
    (hver : vb.version = va.version + 1) (hrules : vb.rulesAt va.version = proposedFixes report)
    (p : List String) (f g : Fld) (hf : FieldIs fsA p f) (hg : FieldIs fsB p g) (hty : f.ty = g.ty)
    (x : Val) (hx : f.dflt = some x) (hy : g.dflt = .none) (hxt : AtomVal c.ext f.ty x)
    (hn : NAME_KEY ∉ p) (hp : p.head? ≠ some "version")
    (d : List (String × Val)) (hdver : dget d "version" = some (.int va.version)) (hs : Solid (.dict d) p) (habs : (Val.dict d).at? p = .none)
    (ig : Bool) (v : Val) (es : List Ev)
    (h : fromDict c (.data n fsB (some vb)) ig "" (.dict d) = .ok (v, es)) :
    v.attr p = some x := by
  obtain ⟨ga, na, ta, ba, da, ea⟩ := C66_recorded n hf (some va.version) F hA
  obtain ⟨gb, nb, tb, bb, _, _⟩ := C66_recorded n hg (some va.version) G hB
  have ra : Recorded x ga.dflt := by
    by_cases he : ∃ c m w, x = .enm c m w
    · obtain ⟨c, m, w, rfl⟩ := he
      exact .inr ⟨c, m, by rw [ea c m w hx]⟩
    · have : ∀ c m w, x ≠ .enm c m w := fun c m w e => he ⟨c, m, w, e⟩
      exact .inl ⟨this, da x hx this⟩
  have hch : .defaultRemoved p ga.dflt ∈ report := by
    simp only [checkSchemas, bind, Except.bind, pure, Except.pure] at hr
    cases h3 : findChanges [] (.struct n G (some va.version)) (.struct n F (some va.version)) with
    | error e => rw [h3] at hr; exact (nomatch hr)
    | ok cs =>
      rw [h3] at hr
      cases hr
      apply C29_kept _ _ _ _ rfl rfl
      apply C29_kept _ _ _ _ rfl rfl
      rw [C28_exact _ _ cs wA wB h3]
      refine ⟨[], _, _, .root, ?_⟩
      have hsame : ga.type.isStruct = gb.type.isStruct := by
        rw [hty, tb, Except.ok.injEq] at ta
        rw [ta]
      exact .defaultRemoved na nb hsame (by rw [ba, hx]; rfl) (by rw [bb, hy]; rfl)
  obtain ⟨R1, R2, hR⟩ := List.append_of_mem hch
  have hfixes : proposedFixes report = proposedFixes R1 ++ .addDefault p ga.dflt :: proposedFixes R2 := by
    rw [hR]; simp [proposedFixes, List.filterMap_append, Change.fix]
  have hfrom : vb.rulesFrom va.version = proposedFixes report := by
    simp [VerInfo.rulesFrom, hver, rangeI, hrules]
  have hw : WEAK_REF ∉ p := hnames _ hch p (by simp [Change.places])
  have hothers := fixes_apart1 hR rfl rfl hapart hnames
  obtain ⟨_, hweak, _⟩ := recorded_loads c hxt ga.dflt ra false ""
  obtain ⟨y, es', path, k1, k2⟩ := addDefault_load c n fsB vb ig d va.version hdver p g.ty hg.fieldAtU hn hw hp ga.dflt hweak
    (proposedFixes R1) (proposedFixes R2) (hfrom.trans hfixes) hothers hs habs v es h
  have := (recorded_loads c hxt ga.dflt ra false path).2.2
  rw [← hty, this] at k2
  cases k2
  exact k1

namespace ExAdd
/-- `class Net: n: int = 4` gets two new fields and loses its default -/
def fsA : List Fld := [.mk "net" (.data "Net" [.mk "n" .int (some (.int 4))] .none) .none]
def netB : List Fld := [.mk "n" .int .none, .mk "act" (.optional .str) .none, .mk "layers" (.list .int) .none]
def fsB : List Fld := [.mk "net" (.data "Net" netB .none) .none]
def va : VerInfo := ⟨0, []⟩
def report : List Change := [.defaultRemoved ["net", "n"] (.int 4), .fieldAdded ["net", "act"] (.option (.prim "str")) .none false,
  .fieldAdded ["net", "layers"] (.list (.prim "int")) .none false]
def vb : VerInfo := ⟨1, [(0, [.addDefault ["net", "n"] (.int 4), .addDefault ["net", "act"] .none, .addDefault ["net", "layers"] (.list [])])]⟩
def FA : List (String × SFld) :=
  [("net", .mk "net" (.struct "Net" [("n", .mk "n" (.prim "int") (.int 4) true .none)] .none) .none false .none)]
def FB : List (String × SFld) :=
  [("net", .mk "net" (.struct "Net" [("n", .mk "n" (.prim "int") .none false .none), ("act", .mk "act" (.option (.prim "str")) .none false .none),
    ("layers", .mk "layers" (.list (.prim "int")) .none false .none)] .none) .none false .none)]
def doc : List (String × Val) := [("version", .int 0), ("net", .dict [])]
end ExAdd

/-- The hypotheses of the two theorems are met … -/
example : materializeF ExAdd.fsA = .ok ExAdd.FA ∧ materializeF ExAdd.fsB = .ok ExAdd.FB ∧
    (match checkSchemas (fun c => c.toString) (.struct "C" ExAdd.FA (some 0)) (.struct "C" ExAdd.FB (some 0)) with
      | .ok [.defaultRemoved ["net", "n"] (.int 4), .fieldAdded ["net", "act"] (.option (.prim "str")) .none false,
          .fieldAdded ["net", "layers"] (.list (.prim "int")) .none false] => true | _ => false) = true ∧
    ExAdd.vb.rulesAt 0 = proposedFixes ExAdd.report ∧
    FieldIs ExAdd.fsA ["net", "n"] (.mk "n" .int (some (.int 4))) ∧ FieldIs ExAdd.fsB ["net", "n"] (.mk "n" .int .none) ∧
    FieldIs ExAdd.fsB ["net", "act"] (.mk "act" (.optional .str) .none) ∧
    Solid (.dict ExAdd.doc) ["net", "act"] ∧ (Val.dict ExAdd.doc).at? ["net", "act"] = .none :=
  ⟨rfl, rfl, by decide +kernel, rfl,
    .there (f := .mk "net" (.data "Net" [.mk "n" .int (some (.int 4))] .none) .none) rfl rfl (.here rfl),
    .there (f := .mk "net" (.data "Net" ExAdd.netB .none) .none) rfl rfl (.here rfl),
    .there (f := .mk "net" (.data "Net" ExAdd.netB .none) .none) rfl rfl (.here rfl),
    solid_cons.2 ⟨[], rfl, rfl, solid_single⟩, rfl⟩
/-- … and the old file stands for the proposed values. -/
example (c : DCfg) : fromDict c (.data "C" ExAdd.fsB (some ExAdd.vb)) false "" (.dict ExAdd.doc) =
    .ok (.inst "C" [("net", .inst "Net" [("n", .int 4), ("act", .none), ("layers", .list [])])], []) := by
  cases c; rfl

/-- C83 is false when the file leaves the object out: the old class reads it, and the new class with the proposed rules raises
a `TypeError`. (The same rule tables as above: the report does not depend on the file.) -/
theorem C83_false :
    (∃ v, hsLoad Ex.world (.data "C" ExAdd.fsA (some ExAdd.va)) (some (.dict [("version", .int 0)])) .none = .ok v) ∧
    ExAdd.vb.version = ExAdd.va.version + 1 ∧
    (∃ report, checkSchemas (fun c => c.toString) (.struct "C" ExAdd.FA (some 0)) (.struct "C" ExAdd.FB (some 0)) = .ok report ∧
      ExAdd.vb.rulesAt 0 = proposedFixes report) ∧
    hsLoad Ex.world (.data "C" ExAdd.fsB (some ExAdd.vb)) (some (.dict [("version", .int 0)])) .none = .error .typeError := by
  have h : (match checkSchemas (fun c => c.toString) (.struct "C" ExAdd.FA (some 0)) (.struct "C" ExAdd.FB (some 0)) with
      | .ok [.defaultRemoved ["net", "n"] (.int 4), .fieldAdded ["net", "act"] (.option (.prim "str")) .none false,
          .fieldAdded ["net", "layers"] (.list (.prim "int")) .none false] => true | _ => false) = true := by decide +kernel
  refine ⟨⟨_, rfl⟩, rfl, ⟨ExAdd.report, ?_, rfl⟩, rfl⟩
  split at h
  · assumption
  · exact (nomatch h)

end HS
