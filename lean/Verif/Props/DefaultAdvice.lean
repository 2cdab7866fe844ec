import Verif.Props.OverrideLoad
import Verif.Props.Advice
import Verif.Props.Renames
import Verif.Props.Diff
/-!
# C66: the rule proposed for a changed default keeps the meaning of old configs
-/
namespace HS

/-- the field at a path through nested (unversioned) dataclasses -/
inductive FieldIs : List Fld → List String → Fld → Prop
  | here {fs : List Fld} {k : String} {f : Fld} : fs.find? (fun f => f.name == k) = some f → FieldIs fs [k] f
  | there {fs : List Fld} {k k' : String} {ks : List String} {f g : Fld} {n : String} {fs' : List Fld} :
      fs.find? (fun f => f.name == k) = some f → f.ty = .data n fs' .none → FieldIs fs' (k' :: ks) g → FieldIs fs (k :: k' :: ks) g

theorem FieldIs.fieldAtU {fs : List Fld} {p : List String} {f : Fld} (h : FieldIs fs p f) : FieldAtU fs p f.ty := by
  induction h with
  | here h => exact .here h
  | there h1 h2 _ ih => exact .there h1 (by rw [h2]; exact .refl _ _ _) ih

/-- values a field can have by default, of the types that have one entry in a config file: numbers, strings, members of an
enum with distinct values, allowed values of a Literal, and `None` or one of these for an Optional field -/
inductive AtomVal (e : Ext) : PyTy → Val → Prop
  | int (i : Int) : AtomVal e .int (.int i)
  | float (x : Flt) : AtomVal e .float (.flt x)
  | str (s : String) : AtomVal e .str (.str s)
  | bool (b : Bool) : AtomVal e .bool (.bool b)
  | enum {cls ms n w} : (n, w) ∈ ms → (∀ m ∈ ms, pyEq w m.2 = true ↔ m = (n, w)) → w.scalar = true → w ≠ .none →
      (∀ c m w', w ≠ .enm c m w') → AtomVal e (.enum cls ms) (.enm cls n w)
  | literal {vs x} : x ∈ vs → (∀ v ∈ vs, e.typeArgOk v = true) → LitOK x → AtomVal e (.literal vs) x
  | none {t} : AtomVal e (.optional t) .none
  | some {t x} : AtomVal e t x → x ≠ .none → AtomVal e (.optional t) x

/-- what the schema records of the field at a path: its type, whether it has a default, and the default -/
theorem C66_recorded (n : String) {fs : List Fld} {p : List String} {f : Fld} (h : FieldIs fs p f) : ∀ (v : Option Int)
    (F : List (String × SFld)), materializeF fs = .ok F →
    ∃ g, Node (.struct n F v) p g ∧ materialize f.ty = .ok g.type ∧ g.hasDefault = f.dflt.isSome ∧
      (∀ x, f.dflt = some x → (∀ c m w, x ≠ .enm c m w) → g.dflt = x) ∧ (∀ c m w, f.dflt = some (.enm c m w) → g.dflt = w) := by
  have key : ∀ (f : Fld) (t : STy), (schemaFld f t).hasDefault = f.dflt.isSome ∧
      (∀ x, f.dflt = some x → (∀ c m w, x ≠ .enm c m w) → (schemaFld f t).dflt = x) ∧
      (∀ c m w, f.dflt = some (.enm c m w) → (schemaFld f t).dflt = w) := by
    intro f t
    refine ⟨schemaFld_hasDefault f t, ?_, ?_⟩
    · intro x hx hne
      simp only [schemaFld, SFld.dflt, hx]
      cases x <;> first | rfl | exact absurd rfl (hne _ _ _)
    · intro c m w hx
      simp only [schemaFld, SFld.dflt, hx, schemaDefault]
  induction h generalizing n with
  | @here fs k f hf =>
    intro v F hm
    obtain ⟨_, _, t, h1, h2⟩ := (matF_find hm k).1 f hf
    exact ⟨schemaFld f t, .here (dget_mem h2), h1, key f t⟩
  | @there fs k k' ks f g n' fs' hf hd _ ih =>
    intro v F hm
    obtain ⟨_, _, t, h1, h2⟩ := (matF_find hm k).1 f hf
    rw [hd] at h1
    simp only [materialize, bind, Except.bind, pure, Except.pure] at h1
    cases h3 : materializeF fs' with
    | error e => rw [h3] at h1; exact (nomatch h1)
    | ok F' =>
      rw [h3] at h1
      cases h1
      obtain ⟨g', a, b⟩ := ih n' .none F' h3
      exact ⟨g', .under (dget_mem h2) a, b⟩

/-- the default as the schema records it -/
def Recorded (x a : Val) : Prop := (∀ c m w, x ≠ .enm c m w) ∧ a = x ∨ ∃ c m, x = .enm c m a

theorem recorded_loads (c : DCfg) {t : PyTy} {x : Val} (h : AtomVal c.ext t x) : ∀ (a : Val), Recorded x a → ∀ (ig : Bool) (path : String),
    (x ≠ .none → a.isNone = false) ∧ a.isWeak = false ∧ fromDict c t ig path a = .ok (x, []) := by
  induction h with
  | int i =>
    rintro a (⟨_, rfl⟩ | ⟨c, m, h⟩) ig path
    · exact ⟨fun _ => rfl, rfl, rfl⟩
    · exact (nomatch h)
  | float i =>
    rintro a (⟨_, rfl⟩ | ⟨c, m, h⟩) ig path
    · exact ⟨fun _ => rfl, rfl, rfl⟩
    · exact (nomatch h)
  | str i =>
    rintro a (⟨_, rfl⟩ | ⟨c, m, h⟩) ig path
    · exact ⟨fun _ => rfl, rfl, rfl⟩
    · exact (nomatch h)
  | bool i =>
    rintro a (⟨_, rfl⟩ | ⟨c, m, h⟩) ig path
    · exact ⟨fun _ => rfl, rfl, rfl⟩
    · exact (nomatch h)
  | @enum cls ms n w hm hd hs hn hne =>
    rintro a (⟨h, _⟩ | ⟨c', m, h⟩) ig path
    · exact absurd rfl (h _ _ _)
    · cases h
      have hby : enumByValue cls w ms = .ok (.enm cls n w) := by
        clear hs hn hne
        induction ms with
        | nil => exact (nomatch hm)
        | cons m ms ih =>
          obtain ⟨n', w'⟩ := m
          simp only [enumByValue]
          by_cases hp : pyEq w w' = true
          · have := (hd (n', w') List.mem_cons_self).1 hp
            cases this
            simp [hp]
          · rw [if_neg hp]
            apply ih
            · rcases List.mem_cons.1 hm with h | h
              · cases h
                exact absurd ((hd _ List.mem_cons_self).2 rfl) hp
              · exact h
            · exact fun m hm => hd m (List.mem_cons_of_mem _ hm)
      cases w with
      | none | bool _ | int _ | flt _ | str _ =>
        exact ⟨fun _ => by first | rfl | exact absurd rfl hn, rfl, by simp [fromDict, hby, bind, Except.bind, pure, Except.pure]⟩
      | enm _ _ _ => exact absurd rfl (hne _ _ _)
      | _ => simp [Val.scalar] at hs
  | @literal vs x hm hall hl =>
    rintro a (⟨_, rfl⟩ | ⟨c', m, h⟩) ig path
    · have hmem : pyMem a vs = true := by
        have : pyEq a a = true := by
          cases a <;> first | exact hl.elim | simp [pyEq, Val.num?, Flt.eqv]
        clear hall
        induction vs with
        | nil => exact (nomatch hm)
        | cons v vs ih =>
          simp only [pyMem, List.any_cons, Bool.or_eq_true]
          rcases List.mem_cons.1 hm with rfl | h
          · exact .inl this
          · exact .inr (ih h)
      have hall' : vs.all c.ext.typeArgOk = true := List.all_eq_true.2 hall
      cases a <;> first | exact hl.elim | exact ⟨fun h => by first | rfl | exact absurd rfl h, rfl, by simp [fromDict, hall', hmem]⟩
    · subst h; exact hl.elim
  | none =>
    rintro a (⟨_, rfl⟩ | ⟨c, m, h⟩) ig path
    · exact ⟨fun h => absurd rfl h, rfl, rfl⟩
    · exact (nomatch h)
  | @some t x hx hne ih =>
    intro a ha ig path
    obtain ⟨h0, h1, h2⟩ := ih a ha ig path
    exact ⟨h0, h1, by simp [PyTy.optional, fromDict, isOptionalArgs, PyTy.isNoneT, h0 hne, fdHead, h2]⟩

/-- what the schema records for a default, written to a config file, is read as this default -/
theorem C66_meaning (c : DCfg) {t : PyTy} {x a : Val} (h : AtomVal c.ext t x) (ha : Recorded x a) (ig : Bool) (path : String) :
    fromDict c t ig path a = .ok (x, []) := (recorded_loads c h a ha ig path).2.2

/-- a field that the document leaves out, in an object that it gives, has its default -/
theorem fromDict_attr_default (c : DCfg) {fs : List Fld} {p : List String} {f : Fld} (hf : FieldIs fs p f) :
    ∀ (n : String) (ig : Bool) (path : String) (doc : Val) (v : Val) (es : List Ev) (x : Val),
    fromDict c (.data n fs .none) ig path doc = .ok (v, es) → Solid doc p → doc.at? p = .none → f.dflt = some x → NAME_KEY ∉ p →
      v.attr p = some x := by
  induction hf with
  | @here fs k f hfind =>
    intro n ig path doc v es x h hs hx hd hn
    obtain ⟨d, rfl⟩ := solid_isDict (by simp) hs
    rw [fromDict_data_dict] at h
    simp only [bind, Except.bind, pure, Except.pure] at h
    split at h
    · simp at h
    · rename_i kw hkw
      split at h
      · simp at h
      · rename_i kvs hkvs
        simp only [Except.ok.injEq, Prod.mk.injEq] at h
        have hx' : dget d k = .none := by
          simp only [at?_dict_cons] at hx
          cases hd : dget d k with
          | none => rfl
          | some c => simp [hd] at hx
        obtain ⟨y', h3, h4⟩ := fillFields_find hkvs hfind
        have hname : f.name = k := by simpa using List.find?_some hfind
        have hkw' : dget kw.1 k = .none := by
          cases hg : dget kw.1 k with
          | none => rfl
          | some y =>
            obtain ⟨_, x', _, h5, _⟩ := itemsLoop_keys (kw := kw.1) (es := kw.2) hkw (dget_mem hg)
            exact absurd h5 (dget_none_iff.1 hx' x')
        simp only [fieldValue, hname, hkw', hd, Except.ok.injEq] at h4
        subst h4
        rw [← h.1]; simp [Val.attr, h3]
  | @there fs k k' ks f g n' fs' hfind hty _ ih =>
    intro n ig path doc v es x h hs hx hd hn
    obtain ⟨d, rfl⟩ := solid_isDict (by simp) hs
    obtain ⟨dc, hdc, hdw, hs'⟩ := solid_cons.1 hs
    rw [fromDict_data_dict] at h
    simp only [bind, Except.bind, pure, Except.pure] at h
    split at h
    · simp at h
    · rename_i kw hkw
      split at h
      · simp at h
      · rename_i kvs hkvs
        simp only [Except.ok.injEq, Prod.mk.injEq] at h
        have hweak : (Val.dict dc).isWeak = false := by simp [Val.isWeak, dhas, hdw]
        obtain ⟨y, es', h1, h2⟩ := itemsLoop_dget (kw := kw.1) (es := kw.2) hkw hdc (fun e => hn (by simp [e])) hweak (by simp [fdField_find c _ _ hfind])
        obtain ⟨y', h3, h4⟩ := fillFields_find hkvs hfind
        have hname : f.name = k := by simpa using List.find?_some hfind
        simp only [fieldValue, hname, h1, Except.ok.injEq] at h4
        subst h4
        rw [fdField_find c _ _ hfind, Option.some.injEq, hty] at h2
        simp only [at?_dict_cons, hdc, Option.bind_some] at hx
        have h5 := ih n' false _ _ _ _ x h2 hs' hx hd (fun hm => hn (List.mem_cons_of_mem _ hm))
        rw [← h.1]; simp [Val.attr, h3, h5]

/-- the proposed rules concern the fields of the report -/
theorem fix_paths {c : Change} {r : Rule} (h : c.fix = some r) : r.paths = c.places := by
  cases c with
  | fieldAdded p t d b =>
    simp only [Change.fix] at h
    split at h
    · exact (nomatch h)
    · split at h <;> cases h <;> rfl
  | typeChanged p o n =>
    simp only [Change.fix] at h
    cases n with
    | list t =>
      by_cases hs : styEq t o = true
      · simp only [hs, if_true] at h; cases h; rfl
      · simp [hs] at h
    | literal vs => simp at h; cases h; rfl
    | _ => simp at h
  | _ => first | (simp only [Change.fix] at h; cases h; rfl) | exact (nomatch h)

/-- **C66**. A field has the default `x` in the old version of a class and another one in the new version. The user adds the rules
that the checker proposes, for the old version, and increments the version. Then an old config file that leaves the field out, and
gives the object that the field is part of, still stands for `x`: both versions of the class read `x` from it.

Partial: no two proposed rules may concern fields within one another, nested classes are unversioned, and the type of the field is
one with atomic values. Missing objects around the field are the subject of `C22_false`. -/
theorem C66_advice_partial (lower : Char → String) (c : DCfg) (n : String) (fsA fsB : List Fld) (va vb : VerInfo)
    (F G : List (String × SFld)) (report : List Change)
    (hA : materializeF fsA = .ok F) (hB : materializeF fsB = .ok G)
    (wA : WFS (.struct n F (some va.version))) (wB : WFS (.struct n G (some va.version)))
    (hr : checkSchemas lower (.struct n F (some va.version)) (.struct n G (some va.version)) = .ok report)
    (hapart : ((report.filter Change.marked).flatMap Change.places).Pairwise Incomp)
    (hnames : ∀ ch ∈ report, ∀ q ∈ ch.places, WEAK_REF ∉ q)
    (hver : vb.version = va.version + 1) (hrules : vb.rulesAt va.version = proposedFixes report)
    (p : List String) (f g : Fld) (hf : FieldIs fsA p f) (hg : FieldIs fsB p g) (hty : f.ty = g.ty)
    (x y : Val) (hx : f.dflt = some x) (hy : g.dflt = some y) (hxt : AtomVal c.ext f.ty x) (hdiff : ∀ a b, Recorded x a → Recorded y b → pyEq a b = false)
    (hn : NAME_KEY ∉ p) (hp : p.head? ≠ some "version")
    (d : List (String × Val)) (hdver : dget d "version" = some (.int va.version)) (hs : Solid (.dict d) p) (habs : (Val.dict d).at? p = .none)
    (ig : Bool) (v1 v2 : Val) (es1 es2 : List Ev)
    (h1 : fromDict c (.data n fsA (some va)) ig "" (.dict d) = .ok (v1, es1))
    (h2 : fromDict c (.data n fsB (some vb)) ig "" (.dict d) = .ok (v2, es2)) :
    v1.attr p = some x ∧ v2.attr p = some x := by
  obtain ⟨ga, na, ta, ba, da, ea⟩ := C66_recorded n hf (some va.version) F hA
  obtain ⟨gb, nb, tb, bb, db, eb⟩ := C66_recorded n hg (some va.version) G hB
  have hrec : ∀ {z : Val} {k : Fld} {sf : SFld}, k.dflt = some z →
      (∀ x, k.dflt = some x → (∀ c m w, x ≠ .enm c m w) → sf.dflt = x) → (∀ c m w, k.dflt = some (.enm c m w) → sf.dflt = w) →
      Recorded z sf.dflt := by
    intro z k sf hz h1 h2
    by_cases he : ∃ c m w, z = .enm c m w
    · obtain ⟨c, m, w, rfl⟩ := he
      exact .inr ⟨c, m, by rw [h2 c m w hz]⟩
    · have : ∀ c m w, z ≠ .enm c m w := fun c m w e => he ⟨c, m, w, e⟩
      exact .inl ⟨this, h1 z hz this⟩
  have ra : Recorded x ga.dflt := hrec hx da ea
  have rb : Recorded y gb.dflt := hrec hy db eb
  have hp0 : p ≠ [] := by cases hf <;> simp
  -- the change is in the report
  have hch : .defaultChanged p ga.dflt gb.dflt ∈ report := by
    simp only [checkSchemas, bind, Except.bind, pure, Except.pure] at hr
    cases h3 : findChanges [] (.struct n G (some va.version)) (.struct n F (some va.version)) with
    | error e => rw [h3] at hr; exact (nomatch hr)
    | ok cs =>
      rw [h3] at hr
      cases hr
      apply C29_kept _ _ _ _ rfl rfl
      apply C29_kept _ _ _ _ rfl rfl
      rw [C28_exact _ _ cs wA wB h3]
      refine ⟨[], _, _, .root, ?_⟩
      have hsame : ga.type.isStruct = gb.type.isStruct := by
        rw [hty, tb, Except.ok.injEq] at ta
        rw [ta]
      exact .defaultChanged na nb hsame (by rw [ba, hx]; rfl) (by rw [bb, hy]; rfl) (hdiff _ _ ra rb)
  -- the rules
  obtain ⟨R1, R2, hR⟩ := List.append_of_mem hch
  have hfix : proposedFixes report = proposedFixes R1 ++ .changeDefault p ga.dflt gb.dflt :: proposedFixes R2 := by
    rw [hR]; simp [proposedFixes, List.filterMap_append, Change.fix]
  have hfrom : vb.rulesFrom va.version = proposedFixes report := by
    simp [VerInfo.rulesFrom, hver, rangeI, hrules]
  have hw : WEAK_REF ∉ p := hnames _ hch p (by simp [Change.places])
  have hothers : ∀ r ∈ proposedFixes R1 ++ proposedFixes R2, ∀ p' ∈ r.paths, Unrelated p' p ∧ WEAK_REF ∉ p' := by
    intro r hr' p' hp'
    have : ∃ ch, (ch ∈ R1 ∨ ch ∈ R2) ∧ ch.fix = some r := by
      rcases List.mem_append.1 hr' with h | h
      · obtain ⟨ch, a, b⟩ := List.mem_filterMap.1 h
        exact ⟨ch, .inl a, b⟩
      · obtain ⟨ch, a, b⟩ := List.mem_filterMap.1 h
        exact ⟨ch, .inr a, b⟩
    obtain ⟨ch, hmem, hfx⟩ := this
    rw [fix_paths hfx] at hp'
    refine ⟨?_, hnames ch (by rw [hR]; rcases hmem with h | h <;> simp [h]) p' hp'⟩
    have hmark : ch.marked = true := by simp [Change.marked, hfx]
    rw [hR] at hapart
    have hself : (Change.defaultChanged p ga.dflt gb.dflt).marked = true := rfl
    simp only [List.filter_append, List.filter_cons, hself, if_true, List.flatMap_append, List.flatMap_cons,
      List.pairwise_append, Change.places, List.cons_append, List.nil_append, List.pairwise_cons] at hapart
    obtain ⟨_, ⟨k2, _⟩, k3⟩ := hapart
    have hin : ∀ R : List Change, ch ∈ R → p' ∈ (R.filter Change.marked).flatMap Change.places := by
      intro R h
      exact List.mem_flatMap.2 ⟨ch, List.mem_filter.2 ⟨h, hmark⟩, hp'⟩
    rcases hmem with h | h
    · exact k3 p' (hin R1 h) p List.mem_cons_self
    · have := k2 p' (hin R2 h)
      exact ⟨this.2, this.1⟩
  obtain ⟨_, hweak, hload⟩ := recorded_loads c hxt ga.dflt ra false ""
  constructor
  · -- the old version of the class
    cases hvh : versionHook c.allowMissing va (.dict d) with
    | error e => simp [fromDict, hvh, bind, Except.bind] at h1
    | ok w =>
      have hup : Upgraded c (some va) (.dict d) w := hvh
      rw [fromDict_upgraded hup] at h1
      have hrun := versionHook_rules hdver hvh
      have h0 : va.rulesFrom va.version = [] := by simp [VerInfo.rulesFrom, rangeI]
      rw [h0] at hrun
      simp only [applyRules, Except.ok.injEq] at hrun
      subst hrun
      obtain ⟨hdel1, hdel2⟩ : (Val.dict (ddel d "version")).at? p = .none ∧ Solid (.dict (ddel d "version")) p := by
        cases p with
        | nil => exact absurd rfl hp0
        | cons j js =>
          have hj : "version" ≠ j := fun e => hp (by simp [e])
          constructor
          · rw [← habs]; simp only [at?_dict_cons]; rw [dget_ddel_ne _ hj]
          · cases js with
            | nil => exact solid_single
            | cons j' js =>
              obtain ⟨dc, h1, h2⟩ := solid_cons.1 hs
              exact solid_cons.2 ⟨dc, by rw [dget_ddel_ne _ hj, h1], h2⟩
      exact fromDict_attr_default c hf n ig "" _ v1 es1 x h1 hdel2 hdel1 hx hn
  · obtain ⟨z, es', path, k1, k2⟩ := C22_keeps_old_partial c n fsB vb ig d va.version hdver p g.ty hg.fieldAtU hn hw hp ga.dflt gb.dflt hweak
      (proposedFixes R1) (proposedFixes R2) (hfrom.trans hfix) hothers hs habs v2 es2 h2
    have := (recorded_loads c hxt ga.dflt ra false path).2.2
    rw [hty] at this
    rw [this] at k2
    cases k2
    exact k1

namespace ExDA
/-- `class Opt(Enum): ADAM = 1; SGD = 2` -/
def opt : PyTy := .enum "Opt" [("ADAM", .int 1), ("SGD", .int 2)]
def fs (m : String) (v : Int) : List Fld :=
  [.mk "net" (.data "Net" [.mk "opt" opt (some (.enm "Opt" m (.int v)))] .none) .none, .mk "lr" .int (some (.int 3))]
def va : VerInfo := ⟨0, []⟩
def vb : VerInfo := ⟨1, [(0, [.changeDefault ["net", "opt"] (.int 1) (.int 2)])]⟩
def doc : List (String × Val) := [("version", .int 0), ("net", .dict [])]
def netS (v : Int) : SFld :=
  .mk "net" (.struct "Net" [("opt", .mk "opt" (.enum "Opt" [("ADAM", .int 1), ("SGD", .int 2)]) (.int v) true .none)] .none) .none false .none
def F (v : Int) : List (String × SFld) := [("net", netS v), ("lr", .mk "lr" (.prim "int") (.int 3) true .none)]

theorem fieldIs (m : String) (v : Int) : FieldIs (fs m v) ["net", "opt"] (.mk "opt" opt (some (.enm "Opt" m (.int v)))) :=
  .there (f := .mk "net" (.data "Net" [.mk "opt" opt (some (.enm "Opt" m (.int v)))] .none) .none) rfl rfl (.here rfl)

theorem wfs (v : Int) (w : Option Int) : WFS (.struct "C" (F v) w) := by
  refine .struct (by simp [F]) ?_
  intro k f h
  simp only [F, List.mem_cons, List.not_mem_nil, or_false, Prod.mk.injEq] at h
  rcases h with ⟨rfl, rfl⟩ | ⟨rfl, rfl⟩
  · refine .struct (by simp) ?_
    intro k f h
    simp only [List.mem_cons, List.not_mem_nil, or_false, Prod.mk.injEq] at h
    obtain ⟨rfl, rfl⟩ := h
    exact .enum
  · exact .prim

theorem atom (e : Ext) : AtomVal e opt (.enm "Opt" "ADAM" (.int 1)) := by
  refine .enum (by simp) ?_ rfl (by simp) (by simp)
  intro m hm
  simp only [List.mem_cons, List.not_mem_nil, or_false] at hm
  rcases hm with rfl | rfl
  · simp [pyEq, Val.num?, Flt.eqv]
  · simp [pyEq, Val.num?, Flt.eqv]
end ExDA

/-- The hypotheses of `C66_advice_partial` are met: an enum default changes from ADAM to SGD … -/
example : materializeF (ExDA.fs "ADAM" 1) = .ok (ExDA.F 1) ∧ materializeF (ExDA.fs "SGD" 2) = .ok (ExDA.F 2) ∧
    (match checkSchemas (fun c => c.toString) (.struct "C" (ExDA.F 1) (some 0)) (.struct "C" (ExDA.F 2) (some 0)) with
      | .ok [.defaultChanged ["net", "opt"] (.int 1) (.int 2)] => true | _ => false) = true ∧
    ExDA.vb.rulesAt 0 = proposedFixes [.defaultChanged ["net", "opt"] (.int 1) (.int 2)] ∧
    Solid (.dict ExDA.doc) ["net", "opt"] ∧ (Val.dict ExDA.doc).at? ["net", "opt"] = .none :=
  ⟨rfl, rfl, by decide +kernel, rfl, solid_cons.2 ⟨[], rfl, rfl, solid_single⟩, rfl⟩
/-- … and a file written for the old version still means ADAM. -/
example (c : DCfg) : fromDict c (.data "C" (ExDA.fs "SGD" 2) (some ExDA.vb)) false "" (.dict ExDA.doc) =
    .ok (.inst "C" [("net", .inst "Net" [("opt", .enm "Opt" "ADAM" (.int 1))]), ("lr", .int 3)], []) := by
  cases c; rfl

end HS
