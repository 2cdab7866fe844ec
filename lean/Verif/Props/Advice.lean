import Verif.Proofs.AdviceReport
import Verif.Props.Valid
import Verif.Props.Severity
/-!
# C58: following the advice of the checker
-/
namespace HS

/-- C58, for two schemas. The checker compares an old with a new schema. Every change of the report needs no rule or is of a kind
whose proposed rule settles it (`Easy`), no two changes that have a rule (or add or remove a field) concern the same field or a
field within the other one's, and no struct of the old schema is empty. Then the proposed rules can be applied to the old schema,
and what the checker reports for the result is compatible. -/
theorem C58_schemas_partial (lower : Char → String) (n nb : String) (F G : List (String × SFld)) (v w : Option Int)
    (hF : WFS (.struct n F v)) (hG : WFS (.struct nb G w)) (hne : NoEmpty (.struct n F v)) (report : List Change)
    (hr : checkSchemas lower (.struct n F v) (.struct nb G w) = .ok report)
    (heasy : ∀ c ∈ report, Easy (.struct n F v) (.struct nb G w) c)
    (hapart : ((report.filter Change.marked).flatMap Change.places).Pairwise Incomp) :
    ∃ old' report', applyRulesSchema (proposedFixes report) (.struct n F v) = .ok old' ∧ old'.isStruct = true ∧
      checkSchemas lower old' (.struct nb G w) = .ok report' ∧ ∀ c ∈ report', c.severity = .info := by
  simp only [checkSchemas, bind, Except.bind, pure, Except.pure] at hr
  cases h1 : findChanges [] (.struct nb G w) (.struct n F v) with
  | error e => rw [h1] at hr; exact (nomatch hr)
  | ok cs =>
    rw [h1] at hr
    have hA : Advised lower (.struct n F v) (.struct nb G w) cs report :=
      ⟨rfl, rfl, hG, hF, h1, by cases hr; rfl, heasy, hne, hapart⟩
    obtain ⟨old', cs', h2, hst, h3, h4⟩ := hA.settled
    refine ⟨old', cs', h2, hst, ?_, h4⟩
    have hno : ∀ c ∈ cs', ∀ p t d b, c ≠ .fieldRemoved p t d b := by
      rintro c hc p t d b rfl
      exact (nomatch (h4 _ hc))
    have hno' : ∀ c ∈ cs', ∀ p t d b, c ≠ .variantRemoved p t d b := by
      rintro c hc p t d b rfl
      exact (nomatch (h4 _ hc))
    have e1 : findRenames (fieldRenameCfg lower) cs' = cs' := by
      apply C29_no_pair
      intro a _ r hr _ h2
      obtain ⟨p, t, d, b, rfl⟩ := field_removed h2
      exact absurd rfl (hno _ hr p t d b)
    have e2 : findRenames (enumRenameCfg lower) cs' = cs' := by
      apply C29_no_pair
      intro a _ r hr _ h2
      obtain ⟨p, t, d, b, rfl⟩ := enum_removed h2
      exact absurd rfl (hno' _ hr p t d b)
    simp only [checkSchemas, h3, bind, Except.bind, pure, Except.pure, e1, e2]

theorem applyRulesSchema_append : ∀ (a b : List Rule) (s : STy),
    applyRulesSchema (a ++ b) s = (do applyRulesSchema b (← applyRulesSchema a s)) := by
  intro a
  induction a with
  | nil => intros; rfl
  | cons r a ih =>
    intro b s
    simp only [List.cons_append, applyRulesSchema, bind, Except.bind]
    cases h : r.applySchema s with
    | error e => rfl
    | ok s1 => exact ih b s1

/-- the version of the new schema plays no part in the comparison -/
theorem findChanges_version (path : List String) (nb : String) (G : List (String × SFld)) (w w' : Option Int) (old : STy)
    (h : old.isStruct = true) : findChanges path (.struct nb G w) old = findChanges path (.struct nb G w') old := by
  cases old <;> first | rfl | exact Bool.noConfusion h

/-- C58, for any way of adding the rules after those the class has -/
theorem advice_followed (lower : Char → String) (old : STy) (n nb : String) (fsb : List Fld) (vi vi' : VerInfo)
    (M G : List (String × SFld)) (v : Option Int)
    (hM : vi.applySchemaUpgrades old = .ok (.struct n M v)) (hmat : materializeF fsb = .ok G)
    (wM : WFS (.struct n M v)) (wG : WFS (.struct nb G (some vi.version))) (hne : NoEmpty (.struct n M v)) (report : List Change)
    (hr : checker lower old (.data nb fsb (some vi)) = .ok report)
    (heasy : ∀ c ∈ report, Easy (.struct n M v) (.struct nb G (some vi.version)) c)
    (hapart : ((report.filter Change.marked).flatMap Change.places).Pairwise Incomp)
    (hflat : (rangeI old.versionOr0 vi'.version).flatMap vi'.rulesAt =
      (rangeI old.versionOr0 vi.version).flatMap vi.rulesAt ++ proposedFixes report) :
    ∃ report', checker lower old (.data nb fsb (some vi')) = .ok report' ∧ severityOf report' = .info := by
  have hmv : ∀ w : VerInfo, materialize (.data nb fsb (some w)) = .ok (.struct nb G (some w.version)) := by
    intro w; rw [materialize, hmat]; rfl
  unfold checker classSchema at hr
  rw [hmv] at hr
  simp only [bind, Except.bind, pure, Except.pure] at hr
  rw [hM] at hr
  obtain ⟨old', report', h1, hst, h2, h3⟩ := C58_schemas_partial lower n nb M G v _ wM wG hne report hr heasy hapart
  refine ⟨report', ?_, (C26_info _).2 h3⟩
  unfold checker classSchema
  rw [hmv]
  simp only [bind, Except.bind, pure, Except.pure]
  have hup : vi'.applySchemaUpgrades old = .ok old' := by
    unfold VerInfo.applySchemaUpgrades at hM ⊢
    rw [upgradeSchemaLoop_eq] at hM ⊢
    rw [hflat, applyRulesSchema_append, hM]
    exact h1
  rw [hup]
  dsimp only
  unfold checkSchemas at h2 ⊢
  rw [findChanges_version _ _ _ _ (some vi.version) _ hst]
  exact h2

theorem rulesAt_append {vi : VerInfo} (h : ∀ e ∈ vi.rules, e.1 < vi.version) (rs : List Rule) (w : Int) :
    ((VerInfo.mk w (vi.rules ++ [(vi.version, rs)])).rulesAt vi.version = rs) ∧
    ∀ i, i ≠ vi.version → (VerInfo.mk w (vi.rules ++ [(vi.version, rs)])).rulesAt i = vi.rulesAt i := by
  constructor
  · unfold VerInfo.rulesAt
    rw [List.find?_append, List.find?_eq_none.2]
    · simp
    · intro e he; have := h e he; simp; omega
  · intro i hi
    unfold VerInfo.rulesAt
    rw [List.find?_append]
    cases vi.rules.find? (fun e => e.1 == i) with
    | some e => rfl
    | none =>
      have : ((vi.version == i) = false) := by simp; omega
      simp [this]

/-- **C58**: A schema file is checked against a class of the same (or a newer) version and found incompatible. The user does
as told: the proposed rules are added for the current version, and the version is incremented. Then the same check passes with
severity INFO.

Partial: it is required of the report that every change is `Easy`, that no two of its rules concern the same field or a field
within the other one's, and that no struct of the old schema is empty. The theorems below show that the claim is false when
the report contains a removed default, a removed Literal value, a change of a type to a list of it, or changed values of enum
variants, although the checker proposes rules for all of these. -/
theorem C58_partial (lower : Char → String) (old : STy) (n nb : String) (fsb : List Fld) (vi : VerInfo)
    (M G : List (String × SFld)) (v : Option Int) (hkeys : ∀ e ∈ vi.rules, e.1 < vi.version) (hver : old.versionOr0 ≤ vi.version)
    (hM : vi.applySchemaUpgrades old = .ok (.struct n M v)) (hmat : materializeF fsb = .ok G)
    (wM : WFS (.struct n M v)) (wG : WFS (.struct nb G (some vi.version))) (hne : NoEmpty (.struct n M v)) (report : List Change)
    (hr : checker lower old (.data nb fsb (some vi)) = .ok report)
    (heasy : ∀ c ∈ report, Easy (.struct n M v) (.struct nb G (some vi.version)) c)
    (hapart : ((report.filter Change.marked).flatMap Change.places).Pairwise Incomp) :
    ∃ report', checker lower old (.data nb fsb
        (some ⟨vi.version + 1, vi.rules ++ [(vi.version, proposedFixes report)]⟩)) = .ok report' ∧
      severityOf report' = .info := by
  refine advice_followed lower old n nb fsb vi _ M G v hM hmat wM wG hne report hr heasy hapart ?_
  dsimp only
  obtain ⟨h1, h2⟩ := rulesAt_append hkeys (proposedFixes report) (vi.version + 1)
  rw [rangeI_append hver (c := vi.version + 1) (by omega), List.flatMap_append]
  congr 1
  · unfold List.flatMap
    congr 1
    apply List.map_congr_left
    intro i hi
    apply h2
    simp only [rangeI, List.mem_map, List.mem_range] at hi
    obtain ⟨a, ha, rfl⟩ := hi
    omega
  · have : rangeI vi.version (vi.version + 1) = [vi.version] := by
      simp [rangeI]
    rw [this]
    simp [h1]

/-- C58, when the version has been incremented already: the rules are added for the version of the schema file -/
theorem C58_bumped_partial (lower : Char → String) (old : STy) (n nb : String) (fsb : List Fld) (vi : VerInfo)
    (F G : List (String × SFld)) (v : Int) (hold : old = .struct n F (some v)) (hver : vi.version = v + 1)
    (hnone : ∀ e ∈ vi.rules, e.1 ≠ v) (hmat : materializeF fsb = .ok G)
    (wM : WFS old) (wG : WFS (.struct nb G (some vi.version))) (hne : NoEmpty old) (report : List Change)
    (hr : checker lower old (.data nb fsb (some vi)) = .ok report)
    (heasy : ∀ c ∈ report, Easy old (.struct nb G (some vi.version)) c)
    (hapart : ((report.filter Change.marked).flatMap Change.places).Pairwise Incomp) :
    ∃ report', checker lower old (.data nb fsb (some ⟨vi.version, vi.rules ++ [(v, proposedFixes report)]⟩)) = .ok report' ∧
      severityOf report' = .info := by
  subst hold
  have hrange : rangeI v (v + 1) = [v] := by
    simp [rangeI]
  have hr0 : vi.rulesAt v = [] := by
    unfold VerInfo.rulesAt
    rw [List.find?_eq_none.2]
    intro e he
    simpa using hnone e he
  have hr1 : (VerInfo.mk vi.version (vi.rules ++ [(v, proposedFixes report)])).rulesAt v = proposedFixes report := by
    unfold VerInfo.rulesAt
    rw [List.find?_append, List.find?_eq_none.2]
    · simp
    · intro e he; simpa using hnone e he
  refine advice_followed lower _ n nb fsb vi _ F G (some v) ?_ hmat wM wG hne report hr heasy hapart ?_
  · unfold VerInfo.applySchemaUpgrades
    rw [upgradeSchemaLoop_eq, hver]
    simp only [STy.versionOr0, hrange, List.flatMap_cons, List.flatMap_nil, hr0]
    rfl
  · dsimp only
    rw [hver] at hr1 ⊢
    simp only [STy.versionOr0, hrange, List.flatMap_cons, List.flatMap_nil, hr0, hr1, List.append_nil, List.nil_append]

/-! ## a case that meets the hypotheses -/

/-- the field at a path -/
def fieldAtB : STy → List String → Option SFld
  | .struct _ fs _, [k] => dget fs k
  | .struct _ fs _, k :: k' :: ks => (dget fs k).bind (fun g => fieldAtB g.type.unwrap (k' :: ks))
  | _, _ => .none

theorem fieldAtB_of {s : STy} {p : List String} {f : SFld} (h : DeepField s p f) (hw : WFS s) : fieldAtB s p = some f := by
  induction h with
  | here hm => exact dget_of_mem hw.keys hm
  | @under n fs v k g p f hm h ih =>
    cases p with
    | nil => generalize g.type.unwrap = u at h; cases h
    | cons k' ks =>
      have hd := dget_of_mem hw.keys hm
      simp only [fieldAtB, hd, Option.bind_some]
      exact ih (hw.fld hd).unwrap

def strsOf : List Val → Option (List String)
  | [] => some []
  | .str a :: vs => (strsOf vs).map (a :: ·)
  | _ => .none

theorem strsOf_eq : ∀ (vs : List Val) (a : List String), strsOf vs = some a → vs = a.map .str := by
  intro vs
  induction vs with
  | nil => intro a h; cases h; rfl
  | cons v vs ih =>
    intro a h
    cases v with
    | str x =>
      simp only [strsOf, Option.map_eq_some_iff] at h
      obtain ⟨b, hb, rfl⟩ := h
      rw [ih b hb]; rfl
    | _ => simp [strsOf] at h

/-- a test for `Easy` -/
def easyB (old new : STy) : Change → Bool
  | .fieldRemoved _ _ _ _ => true
  | .fieldRenamed p q => match fieldAtB old p, fieldAtB new q with
    | some f, some g => match findChanges q g.type f.type with
      | .ok ds => ds.all (fun c => c.severity == .info)
      | .error _ => false
    | _, _ => false
  | .defaultChanged _ a b => pyEq a a && pyEq b b
  | .fieldAdded _ (.option _) _ false => true
  | .fieldAdded _ (.list _) _ false => true
  | .typeChanged p _ (.literal vs) => match fieldAtB new p with
    | some g => match g.type with
      | .literal ws => match strsOf vs, strsOf ws with
        | some a, some b => a == b
        | _, _ => false
      | _ => false
    | _ => false
  | _ => false

/-- the types of the changes the test accepts are compatible -/
theorem easyB_easy {old new : STy} (ho : WFS old) (hn : WFS new) {c : Change} (h : easyB old new c = true) : Easy old new c := by
  cases c with
  | fieldRemoved => exact .removed
  | fieldRenamed p q =>
    refine .renamed ?_
    intro f g hf hg
    simp only [easyB, fieldAtB_of hf ho, fieldAtB_of hg hn] at h
    cases h1 : findChanges q g.type f.type with
    | error e => rw [h1] at h; exact (nomatch h)
    | ok ds =>
      rw [h1] at h
      exact ⟨ds, rfl, fun c hc => by simpa using List.all_eq_true.1 h c hc⟩
  | defaultChanged p a b =>
    simp only [easyB, Bool.and_eq_true] at h
    exact .default h.1 h.2
  | fieldAdded p t d b =>
    cases b
    · cases t <;> first | exact .option | exact .list | exact Bool.noConfusion h
    · cases t <;> exact Bool.noConfusion h
  | typeChanged p o n =>
    cases n with
    | literal vs =>
      simp only [easyB] at h
      cases hg : fieldAtB new p with
      | none => rw [hg] at h; exact (nomatch h)
      | some g =>
        rw [hg] at h
        dsimp only at h
        split at h
        · rename_i ws hw
          split at h
          · rename_i a b ha hb
            have := beq_iff_eq.1 h
            subst this
            have e1 := strsOf_eq vs a ha
            have e2 := strsOf_eq ws a hb
            refine .literal ?_ ?_
            · intro g' hg'
              have := fieldAtB_of hg' hn
              rw [hg] at this
              cases this
              rw [hw, e1, e2]
            · rw [e1]
              intro v hv
              obtain ⟨x, _, rfl⟩ := List.mem_map.1 hv
              simp [pyEq]
          · exact (nomatch h)
        · exact (nomatch h)
    | _ => exact Bool.noConfusion h
  | _ => exact Bool.noConfusion h

namespace ExA

def f (k : String) (t : STy) : String × SFld := (k, .mk k t .none false .none)
def fd (k : String) (t : STy) (d : Val) : String × SFld := (k, .mk k t d true .none)

/-- the schema in the file, version 3 -/
def old : List (String × SFld) := [f "lr" (.prim "float"), fd "steps" (.prim "int") (.int 10), f "net" (.struct "Net"
    [f "act" (.prim "str"), f "layers" (.prim "int")] .none), f "opt" (.option (.struct "Opt" [f "name" (.prim "str"),
    fd "momentum" (.prim "int") (.int 0), fd "debug" (.prim "bool") (.bool false)] .none))]
/-- the class: `lr` is now `optim.lr`, `steps` has another default, `net.act` is a Literal, `opt.momentum` has another default,
`opt.debug` is gone, `net.extra` and `tags` are new and without default -/
def cls : List Fld := [.mk "steps" .int (some (.int 20)),
  .mk "net" (.data "Net" [.mk "act" (.literal [.str "relu", .str "tanh"]) .none, .mk "layers" .float .none,
    .mk "extra" (.union [.int, .noneT]) .none] .none) .none,
  .mk "opt" (.union [.data "Opt" [.mk "name" .str .none, .mk "momentum" .int (some (.int 1))] .none, .noneT]) .none,
  .mk "optim" (.data "Optim" [.mk "lr" .float .none] .none) .none, .mk "tags" (.list .str) .none]
def new : List (String × SFld) := [fd "steps" (.prim "int") (.int 20),
  f "net" (.struct "Net" [f "act" (.literal [.str "relu", .str "tanh"]), f "layers" (.prim "float"), f "extra" (.option (.prim "int"))] .none),
  f "opt" (.option (.struct "Opt" [f "name" (.prim "str"), fd "momentum" (.prim "int") (.int 1)] .none)),
  f "optim" (.struct "Optim" [f "lr" (.prim "float")] .none), f "tags" (.list (.prim "str"))]

example : materializeF cls = .ok new := rfl

theorem wfs_f {k : String} {t : STy} (h : WFS t) : WFS (f k t).2.type := h
theorem wfs_fd {k : String} {t : STy} {d : Val} (h : WFS t) : WFS (fd k t d).2.type := h

theorem wfs_all {n : String} {fs : List (String × SFld)} {v : Option Int} (h1 : (dkeys fs).Nodup) (h2 : ∀ x ∈ fs, WFS x.2.type) :
    WFS (.struct n fs v) := .struct h1 (fun _ _ hm => h2 _ hm)
theorem noEmpty_all {n : String} {fs : List (String × SFld)} {v : Option Int} (h1 : fs ≠ []) (h2 : ∀ x ∈ fs, NoEmpty x.2.type) :
    NoEmpty (.struct n fs v) := .struct h1 (fun _ _ hm => h2 _ hm)

theorem wfs_old : WFS (.struct "C" old (some 3)) := by
  refine wfs_all (by decide) ?_
  simp only [old, f, fd, List.forall_mem_cons, List.not_mem_nil, false_imp_iff, implies_true, and_true, SFld.type]
  refine ⟨.prim, .prim, wfs_all (by decide) ?_, .option (wfs_all (by decide) ?_)⟩ <;>
    simp only [List.forall_mem_cons, List.not_mem_nil, false_imp_iff, implies_true, and_true]
  · exact ⟨.prim, .prim⟩
  · exact ⟨.prim, .prim, .prim⟩

theorem noEmpty_old : NoEmpty (.struct "C" old (some 3)) := by
  refine noEmpty_all (by simp [old]) ?_
  simp only [old, f, fd, List.forall_mem_cons, List.not_mem_nil, false_imp_iff, implies_true, and_true, SFld.type]
  refine ⟨.prim, .prim, noEmpty_all (by simp) ?_, .option (noEmpty_all (by simp) ?_)⟩ <;>
    simp only [List.forall_mem_cons, List.not_mem_nil, false_imp_iff, implies_true, and_true]
  · exact ⟨.prim, .prim⟩
  · exact ⟨.prim, .prim, .prim⟩

theorem wfs_new (v : Int) : WFS (.struct "C" new (some v)) := by
  refine wfs_all (by decide) ?_
  simp only [new, f, fd, List.forall_mem_cons, List.not_mem_nil, false_imp_iff, implies_true, and_true, SFld.type]
  refine ⟨.prim, wfs_all (by decide) ?_, .option (wfs_all (by decide) ?_), wfs_all (by decide) ?_, .list .prim⟩ <;>
    simp only [List.forall_mem_cons, List.not_mem_nil, false_imp_iff, implies_true, and_true]
  · exact ⟨.literal, .prim, .option .prim⟩
  · exact ⟨.prim, .prim⟩
  · exact .prim

/-- the report, and the proposed rules (as kind and path) -/
example : (match checker Ex.lc (.struct "C" old (some 3)) (.data "C" cls (some ⟨3, []⟩)) with
    | .ok cs => (cs.map Change.tag, cs.map Change.severity, (proposedFixes cs).map Rule.places)
    | .error _ => ([], [], [])) =
    ([(3, ["steps"]), (5, ["net", "act"]), (5, ["net", "layers"]), (0, ["net", "extra"]), (3, ["opt", "momentum"]), (1, ["opt", "debug"]),
      (0, ["tags"]), (2, ["lr"])],
     [.warn, .warn, .info, .warn, .warn, .warn, .warn, .warn],
     [[["steps"]], [["net", "act"]], [["net", "extra"]], [["opt", "momentum"]], [["opt", "debug"]], [["tags"]], [["lr"], ["optim", "lr"]]]) := by
  decide +kernel

end ExA

/-- a change without rule that the test `easyB` does not cover -/
def infoB : Change → Bool
  | .typeChanged p (.prim a) (.prim b) => (Change.typeChanged p (.prim a) (.prim b)).severity == .info
  | .fieldAdded _ _ _ true => true
  | _ => false

theorem infoB_easy {old new : STy} {c : Change} (h : infoB c = true) : Easy old new c := by
  cases c with
  | typeChanged p o n =>
    cases o <;> try exact Bool.noConfusion h
    cases n <;> try exact Bool.noConfusion h
    refine .compatible (by simpa [infoB] using h) rfl (fun _ _ _ _ h => (nomatch h))
  | fieldAdded p t d b =>
    cases b
    · cases t <;> exact Bool.noConfusion h
    · exact .compatible rfl rfl (fun _ _ _ _ h => (nomatch h))
  | _ => exact Bool.noConfusion h

/-- all hypotheses of `C58_partial` together -/
example : ∃ report, checker Ex.lc (.struct "C" ExA.old (some 3)) (.data "C" ExA.cls (some ⟨3, []⟩)) = .ok report ∧
    severityOf report = .warn ∧ ∃ report',
      checker Ex.lc (.struct "C" ExA.old (some 3)) (.data "C" ExA.cls (some ⟨4, [(3, proposedFixes report)]⟩)) = .ok report' ∧
        severityOf report' = .info := by
  have ht : (match checker Ex.lc (.struct "C" ExA.old (some 3)) (.data "C" ExA.cls (some ⟨3, []⟩)) with
    | .ok cs => (severityOf cs == .warn && cs.all (fun c => easyB (.struct "C" ExA.old (some 3)) (.struct "C" ExA.new (some 3)) c || infoB c)) &&
        decide (((cs.filter Change.marked).flatMap Change.places).Pairwise Incomp)
    | .error _ => false) = true := by decide +kernel
  cases hc : checker Ex.lc (.struct "C" ExA.old (some 3)) (.data "C" ExA.cls (some ⟨3, []⟩)) with
  | error e => rw [hc] at ht; exact (nomatch ht)
  | ok cs =>
    rw [hc] at ht
    simp only [Bool.and_eq_true, beq_iff_eq, decide_eq_true_eq] at ht
    refine ⟨cs, rfl, ht.1.1, ?_⟩
    refine C58_partial Ex.lc _ "C" "C" ExA.cls ⟨3, []⟩ ExA.old ExA.new (some 3) (by simp) (by simp [STy.versionOr0]) rfl rfl ExA.wfs_old (ExA.wfs_new _)
      ExA.noEmpty_old cs hc ?_ ht.2
    intro c hcm
    have := List.all_eq_true.1 ht.1.2 c hcm
    rw [Bool.or_eq_true] at this
    rcases this with h | h
    · exact easyB_easy ExA.wfs_old (ExA.wfs_new _) h
    · exact infoB_easy h

/-- and of `C58_bumped_partial` -/
example : ∃ report, checker Ex.lc (.struct "C" ExA.old (some 3)) (.data "C" ExA.cls (some ⟨4, [(1, [])]⟩)) = .ok report ∧
    severityOf report = .warn ∧ ∃ report',
      checker Ex.lc (.struct "C" ExA.old (some 3)) (.data "C" ExA.cls (some ⟨4, [(1, []), (3, proposedFixes report)]⟩)) = .ok report' ∧
        severityOf report' = .info := by
  have ht : (match checker Ex.lc (.struct "C" ExA.old (some 3)) (.data "C" ExA.cls (some ⟨4, [(1, [])]⟩)) with
    | .ok cs => (severityOf cs == .warn && cs.all (fun c => easyB (.struct "C" ExA.old (some 3)) (.struct "C" ExA.new (some 4)) c || infoB c)) &&
        decide (((cs.filter Change.marked).flatMap Change.places).Pairwise Incomp)
    | .error _ => false) = true := by decide +kernel
  cases hc : checker Ex.lc (.struct "C" ExA.old (some 3)) (.data "C" ExA.cls (some ⟨4, [(1, [])]⟩)) with
  | error e => rw [hc] at ht; exact (nomatch ht)
  | ok cs =>
    rw [hc] at ht
    simp only [Bool.and_eq_true, beq_iff_eq, decide_eq_true_eq] at ht
    refine ⟨cs, rfl, ht.1.1, ?_⟩
    refine C58_bumped_partial Ex.lc _ "C" "C" ExA.cls ⟨4, [(1, [])]⟩ ExA.old ExA.new 3 rfl rfl (by simp) rfl ExA.wfs_old (ExA.wfs_new _)
      ExA.noEmpty_old cs hc ?_ ht.2
    intro c hcm
    have := List.all_eq_true.1 ht.1.2 c hcm
    rw [Bool.or_eq_true] at this
    rcases this with h | h
    · exact easyB_easy ExA.wfs_old (ExA.wfs_new _) h
    · exact infoB_easy h

/-! ## where the advice does not help -/

/-- the severity before, and the result of the check after the advice has been followed -/
def afterAdvice (old : STy) (n : String) (fs : List Fld) (vi : VerInfo) : Except Err (Severity × Except Err Severity) := do
  let cs ← checker Ex.lc old (.data n fs (some vi))
  return (severityOf cs, do
    let cs' ← checker Ex.lc old (.data n fs (some ⟨vi.version + 1, vi.rules ++ [(vi.version, proposedFixes cs)]⟩))
    return severityOf cs')

def warnThen (want : Except Err Severity → Bool) (r : Except Err (Severity × Except Err Severity)) : Bool :=
  match r with | .ok (.warn, x) => want x | _ => false

def isWarn : Except Err Severity → Bool | .ok .warn => true | _ => false
def isErr : Except Err Severity → Bool | .ok .error => true | _ => false
def isAssert : Except Err Severity → Bool | .error .assertionError => true | _ => false

/-- C58 is false for a removed default: the proposed `AddDefault` leaves the old schema as it is, and the report does not change -/
theorem C58_default_removed_false : ∃ old n fs vi, warnThen isWarn (afterAdvice old n fs vi) = true :=
  ⟨.struct "C" [ExA.fd "x" (.prim "int") (.int 1)] (some 0), "C", [.mk "x" .int .none], ⟨0, []⟩, by decide +kernel⟩

/-- ... for a removed Literal value: the proposed `RejectValues` cannot be applied to a schema -/
theorem C58_literal_removed_false : ∃ old n fs vi, warnThen isAssert (afterAdvice old n fs vi) = true :=
  ⟨.struct "C" [ExA.f "x" (.literal [.str "a", .str "b"])] (some 0), "C", [.mk "x" (.literal [.str "a"]) .none], ⟨0, []⟩, by decide +kernel⟩

/-- ... for a type changed to a list of it: the proposed `MapFieldValue` does not change the type in the schema -/
theorem C58_list_false : ∃ old n fs vi, warnThen isWarn (afterAdvice old n fs vi) = true :=
  ⟨.struct "C" [ExA.f "x" (.prim "int")] (some 0), "C", [.mk "x" (.list .int) .none], ⟨0, []⟩, by decide +kernel⟩

/-- ... for two enum variants that exchange their values: the second proposed rule undoes what the first one did -/
theorem C58_enum_swap_false : ∃ old n fs vi, warnThen isWarn (afterAdvice old n fs vi) = true :=
  ⟨.struct "C" [ExA.f "x" (.enum "E" [("A", .int 1), ("B", .int 2)])] (some 0), "C",
    [.mk "x" (.enum "E" [("A", .int 2), ("B", .int 1)]) .none], ⟨0, []⟩, by decide +kernel⟩

/-- ... for a list whose elements become a Literal: the proposed `CheckValue` replaces the type of the whole field -/
theorem C58_literal_list_false : ∃ old n fs vi, warnThen isWarn (afterAdvice old n fs vi) = true :=
  ⟨.struct "C" [ExA.f "x" (.list (.prim "str"))] (some 0), "C", [.mk "x" (.list (.literal [.str "a"])) .none], ⟨0, []⟩, by decide +kernel⟩

/-- ... for a field that is renamed and whose old name becomes a dataclass, with another renamed field in it: the rule for the latter
comes first and is lost, since there is no dataclass yet -/
theorem C58_order_false : ∃ old n fs vi, warnThen isErr (afterAdvice old n fs vi) = true :=
  ⟨.struct "C" [ExA.f "x" (.prim "int"), ExA.f "y" (.prim "int")] (some 0), "C",
    [.mk "x" (.data "X" [.mk "y" .int .none] .none) .none, .mk "xx" .int .none], ⟨0, []⟩, by decide +kernel⟩

/-- ... for a renamed field whose Optional type has become narrower: `is_subtype` compares the arguments of Optionals the other way
round, so that the rename is proposed, but the comparison of the renamed field is an error -/
theorem C58_contravariant_false : ∃ old n fs vi, warnThen isErr (afterAdvice old n fs vi) = true :=
  ⟨.struct "C" [ExA.f "rate" (.option (.prim "float"))] (some 0), "C", [.mk "rates" (.union [.int, .noneT]) .none], ⟨0, []⟩, by decide +kernel⟩

/-- the rules are to be added "for the version of the schema file" (schema_checker.py:79). The result of that, for a class that is
more than one version ahead. -/
def afterLiteralAdvice (v : Int) (old : STy) (n : String) (fs : List Fld) (vi : VerInfo) : Except Err (Severity × Except Err Severity) := do
  let cs ← checker Ex.lc old (.data n fs (some vi))
  return (severityOf cs, do
    let cs' ← checker Ex.lc old (.data n fs (some ⟨vi.version, vi.rules ++ [(v, proposedFixes cs)]⟩))
    return severityOf cs')

/-- there, the proposed rules are applied before the rules of later versions, but have been found by comparing after them: the check
does not pass even for a removed field -/
theorem C58_old_version_false : ∃ v n F fs vi, (∀ e ∈ vi.rules, e.1 ≠ v) ∧
    warnThen isWarn (afterLiteralAdvice v (.struct n F (some v)) n fs vi) = true :=
  ⟨0, "C", [ExA.f "a" (.prim "int"), ExA.f "c" (.prim "int")], [.mk "c" .int .none], ⟨2, [(1, [.rename ["a"] ["b"]])]⟩,
    by simp, by decide +kernel⟩

end HS
