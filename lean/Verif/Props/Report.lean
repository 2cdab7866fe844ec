import Verif.Model.Report
import Verif.Props.Severity
import Verif.Props.Advice
/-!
# C69: the report of `check-schema`
-/
namespace HS

/-! ## the version of the old schema is not changed by upgrade rules -/

theorem removeSchema_version : ∀ (p : List String) (s s' : STy) (f : Option SFld), removeSchema s p = .ok (s', f) →
    s'.version = s.version ∧ s'.isStruct = s.isStruct
  | [], s, s', f, h => by simp [removeSchema] at h
  | [k], s, s', f, h => by
    cases s <;> simp only [removeSchema] at h
    case struct n fs v => split at h <;> (cases h; exact ⟨rfl, rfl⟩)
    all_goals (cases h; exact ⟨rfl, rfl⟩)
  | k :: k' :: ks, s, s', f, h => by
    cases s <;> simp only [removeSchema, bind, Except.bind, pure, Except.pure] at h
    case struct n fs v =>
      split at h
      · split at h
        · exact (nomatch h)
        · cases h; exact ⟨rfl, rfl⟩
      · cases h; exact ⟨rfl, rfl⟩
    all_goals (cases h; exact ⟨rfl, rfl⟩)

theorem insertSchema_version (f : SFld) : ∀ (p : List String) (s s' : STy), insertSchema f s p = .ok s' →
    s'.version = s.version ∧ s'.isStruct = s.isStruct
  | [], s, s', h => by simp [insertSchema] at h
  | [k], s, s', h => by
    cases s <;> simp only [insertSchema] at h
    all_goals (cases h; exact ⟨rfl, rfl⟩)
  | k :: k' :: ks, s, s', h => by
    cases s <;> simp only [insertSchema, bind, Except.bind, pure, Except.pure] at h
    case struct n fs v =>
      split at h
      · exact (nomatch h)
      · cases h; exact ⟨rfl, rfl⟩
    all_goals (cases h; exact ⟨rfl, rfl⟩)

theorem applySchema_version (r : Rule) (s s' : STy) (h : r.applySchema s = .ok s') :
    s'.version = s.version ∧ s'.isStruct = s.isStruct := by
  have ins : ∀ {f : SFld} {p : List String} {s1 s' : STy}, s1.version = s.version ∧ s1.isStruct = s.isStruct →
      insertSchema f s1 p = .ok s' → s'.version = s.version ∧ s'.isStruct = s.isStruct := fun h1 h =>
    have h2 := insertSchema_version _ _ _ _ h
    ⟨h2.1.trans h1.1, h2.2.trans h1.2⟩
  cases r with
  | rename p q =>
    simp only [Rule.applySchema, bind, Except.bind, pure, Except.pure] at h
    split at h
    · exact (nomatch h)
    rename_i q hq
    have h1 := removeSchema_version _ _ _ _ hq
    split at h
    · exact (nomatch h)
    · exact ins h1 h
  | delete p =>
    simp only [Rule.applySchema, bind, Except.bind, pure, Except.pure] at h
    split at h
    · exact (nomatch h)
    rename_i q hq
    have h1 := removeSchema_version _ _ _ _ hq
    cases h; exact h1
  | mapValue p fn t =>
    simp only [Rule.applySchema, bind, Except.bind, pure, Except.pure] at h
    split at h
    · exact (nomatch h)
    rename_i q hq
    have h1 := removeSchema_version _ _ _ _ hq
    split at h
    · exact (nomatch h)
    split at h
    · split at h
      · exact (nomatch h)
      · exact ins h1 h
    · exact ins h1 h
  | changeDefault p a b =>
    simp only [Rule.applySchema, bind, Except.bind, pure, Except.pure] at h
    split at h
    · exact (nomatch h)
    rename_i q hq
    have h1 := removeSchema_version _ _ _ _ hq
    split at h
    · exact (nomatch h)
    split at h
    split at h
    · exact ins h1 h
    · exact (nomatch h)
  | addDefault p d =>
    simp only [Rule.applySchema, bind, Except.bind, pure, Except.pure] at h
    split at h
    · exact (nomatch h)
    rename_i q hq
    have h1 := removeSchema_version _ _ _ _ hq
    split at h <;> exact ins h1 h
  | checkValue p vs =>
    simp only [Rule.applySchema, bind, Except.bind, pure, Except.pure] at h
    split at h
    · exact (nomatch h)
    rename_i q hq
    have h1 := removeSchema_version _ _ _ _ hq
    split at h
    · exact (nomatch h)
    split at h
    exact ins h1 h
  | rejectValues p vs =>
    simp only [Rule.applySchema, bind, Except.bind, pure, Except.pure] at h
    split at h
    · exact (nomatch h)
    rename_i q hq
    have h1 := removeSchema_version _ _ _ _ hq
    split at h <;> exact (nomatch h)

theorem applyRulesSchema_version : ∀ (rs : List Rule) (s s' : STy), applyRulesSchema rs s = .ok s' →
    s'.version = s.version ∧ s'.isStruct = s.isStruct
  | [], s, s', h => by cases h; exact ⟨rfl, rfl⟩
  | r :: rs, s, s', h => by
    simp only [applyRulesSchema, bind, Except.bind] at h
    split at h
    · exact (nomatch h)
    · rename_i s1 h1
      have a := applySchema_version r s s1 h1
      have b := applyRulesSchema_version rs s1 s' h
      exact ⟨b.1.trans a.1, b.2.trans a.2⟩

theorem upgradeSchemaLoop_version (vi : VerInfo) : ∀ (is : List Int) (s s' : STy), upgradeSchemaLoop vi is s = .ok s' →
    s'.version = s.version ∧ s'.isStruct = s.isStruct
  | [], s, s', h => by cases h; exact ⟨rfl, rfl⟩
  | i :: is, s, s', h => by
    simp only [upgradeSchemaLoop, bind, Except.bind] at h
    split at h
    · exact (nomatch h)
    · rename_i s1 h1
      have a := applyRulesSchema_version _ s s1 h1
      have b := upgradeSchemaLoop_version vi is s1 s' h
      exact ⟨b.1.trans a.1, b.2.trans a.2⟩

/-! ## the checker behind the commands -/

theorem schemaChecker_fst (lower : Char → String) (old : STy) (ty : PyTy) :
    (schemaChecker lower old ty).map (·.2.2) = checker lower old ty := by
  simp only [schemaChecker, checker, bind, Except.bind, pure, Except.pure]
  cases classSchema ty with
  | error e => rfl
  | ok q =>
    obtain ⟨new, ver⟩ := q
    cases ver with
    | none => rfl
    | some vi =>
      simp only
      cases vi.applySchemaUpgrades old with
      | error e => rfl
      | ok o =>
        simp only
        cases checkSchemas lower o new with
        | error e => rfl
        | ok cs => rfl

/-- everything about a successful check: the class is a versioned dataclass, and the versions compared are those of the file and of the class -/
theorem schemaChecker_ok {lower : Char → String} {old : STy} {ty : PyTy} {o n : STy} {cs : List Change}
    (h : schemaChecker lower old ty = .ok (o, n, cs)) :
    checker lower old ty = .ok cs ∧ materialize ty = .ok n ∧ o.version = old.version ∧
      ∃ nm fs vi, ty = .data nm fs (some vi) ∧ n.version = some vi.version := by
  have h1 := schemaChecker_fst lower old ty
  rw [h] at h1
  refine ⟨h1.symm, ?_⟩
  simp only [schemaChecker, bind, Except.bind, pure, Except.pure] at h
  split at h
  · exact (nomatch h)
  rename_i q hq
  obtain ⟨new, ver⟩ := q
  simp only at h
  split at h
  · split at h
    · exact (nomatch h)
    rename_i o' ho
    split at h
    · exact (nomatch h)
    cases h
    simp only [classSchema, bind, Except.bind, pure, Except.pure] at hq
    split at hq
    · exact (nomatch hq)
    rename_i s hm
    split at hq
    · split at hq
      · cases hq
        rename_i vi
        obtain ⟨G, _, hs⟩ := mat_data hm
        refine ⟨hm, (upgradeSchemaLoop_version _ _ _ _ ho).1, _, _, _, rfl, ?_⟩
        rw [hs]; rfl
      · exact (nomatch hq)
    · exact (nomatch hq)
  · exact (nomatch h)

theorem checkSchemaCmd_ok {lower : Char → String} {sh : Show} {old : STy} {ty : PyTy} {r : Report}
    (h : checkSchemaCmd lower sh old ty = .ok r) :
    old.isStruct = true ∧ ∃ o n cs, schemaChecker lower old ty = .ok (o, n, cs) ∧ r = printReport sh o n cs := by
  simp only [checkSchemaCmd, bind, Except.bind, pure, Except.pure] at h
  split at h
  · rename_i hs
    refine ⟨hs, ?_⟩
    split at h
    · exact (nomatch h)
    rename_i q hq
    obtain ⟨o, n, cs⟩ := q
    cases h
    exact ⟨o, n, cs, hq, rfl⟩
  · exact (nomatch h)

/-! ## C69 -/

/-- C69: one line for each change, in the order in which the changes were found, with the severity of that change and the names on its path
joined by dots -/
theorem C69_lines (lower : Char → String) (sh : Show) (old : STy) (ty : PyTy) (r : Report) (cs : List Change)
    (h : checkSchemaCmd lower sh old ty = .ok r) (hc : checker lower old ty = .ok cs) :
    r.lines.length = cs.length ∧ ∀ (i : Nat) (l : Line) (c : Change), r.lines[i]? = some l → cs[i]? = some c →
      l.sev = c.severity ∧ l.name = pyJoin "." c.path := by
  obtain ⟨_, o, n, cs', h1, rfl⟩ := checkSchemaCmd_ok h
  obtain ⟨h2, _⟩ := schemaChecker_ok h1
  rw [hc] at h2
  cases h2
  have hl : (printReport sh o n cs).lines = cs.map (Change.line sh) := by
    simp only [printReport]; split <;> rfl
  rw [hl]
  refine ⟨by simp, fun i l c hi hi' => ?_⟩
  rw [List.getElem?_map, hi'] at hi
  cases hi
  refine ⟨rfl, ?_⟩
  cases c <;> rfl

/-- C69: the verdict of `check-schema` is what `upgrade-schema` does: if it says compatible, the file is replaced by the schema of the
class; if not, the file is left alone and the same report is printed -/
theorem C69_agree (lower : Char → String) (sh : Show) (old : STy) (ty : PyTy) (r : Report)
    (h : checkSchemaCmd lower sh old ty = .ok r) :
    (r.compatible = true → ∃ s, materialize ty = .ok s ∧ upgradeSchemaCmd lower sh old ty = .ok (.written s)) ∧
      (r.compatible = false → upgradeSchemaCmd lower sh old ty = .ok (.refused r)) := by
  obtain ⟨hs, o, n, cs, h1, rfl⟩ := checkSchemaCmd_ok h
  obtain ⟨_, hm, _⟩ := schemaChecker_ok h1
  have hc : (printReport sh o n cs).compatible = decide (severityOf cs = .info) := by
    simp only [printReport]; split <;> simp_all
  rw [hc]
  simp only [upgradeSchemaCmd, hs, if_true, bind, Except.bind, pure, Except.pure, h1, hm, decide_eq_true_eq, decide_eq_false_iff_not]
  constructor
  · intro hi
    rw [hi]
    exact ⟨n, rfl, rfl⟩
  · intro hi
    have : (severityOf cs).ge .warn = true := by
      cases hv : severityOf cs with
      | info => exact absurd hv hi
      | warn => rfl
      | error => rfl
    rw [this]; rfl

/-- C69: if one of the commands fails, so does the other, in the same way -/
theorem C69_fail (lower : Char → String) (sh : Show) (old : STy) (ty : PyTy) (e : Err) :
    checkSchemaCmd lower sh old ty = .error e ↔ upgradeSchemaCmd lower sh old ty = .error e := by
  cases hr : checkSchemaCmd lower sh old ty with
  | ok r =>
    obtain ⟨a, b⟩ := C69_agree lower sh old ty r hr
    cases hc : r.compatible with
    | true => obtain ⟨s, _, h⟩ := a hc; rw [h]; simp
    | false => rw [b hc]; simp
  | error e' =>
    simp only [checkSchemaCmd, bind, Except.bind, pure, Except.pure] at hr
    simp only [upgradeSchemaCmd, bind, Except.bind, pure, Except.pure]
    split at hr
    · rename_i hs
      rw [if_pos hs]
      split at hr
      · rename_i e1 h1
        cases hr
        exact ⟨fun h => by cases h; rfl, fun h => by cases h; rfl⟩
      · exact (nomatch hr)
    · rename_i hs
      rw [if_neg hs]
      cases hr
      exact ⟨fun h => by cases h; rfl, fun h => by cases h; rfl⟩

/-- C69: the report says compatible exactly if every line is an `info` line; then nothing is advised -/
theorem C69_verdict (lower : Char → String) (sh : Show) (old : STy) (ty : PyTy) (r : Report)
    (h : checkSchemaCmd lower sh old ty = .ok r) :
    (r.compatible = true ↔ ∀ l ∈ r.lines, l.sev = .info) ∧
      (r.compatible = true → r.rules = none ∧ r.bump = none ∧ r.identical = false) := by
  obtain ⟨_, o, n, cs, h1, rfl⟩ := checkSchemaCmd_ok h
  by_cases hi : severityOf cs = .info
  · have hp : printReport sh o n cs = ⟨cs.map (Change.line sh), false, true, .none, .none⟩ := by
      simp only [printReport, hi, if_true, Severity.gt, Severity.value]
      rfl
    rw [hp]
    refine ⟨⟨fun _ l hl => ?_, fun _ => rfl⟩, fun _ => ⟨rfl, rfl, rfl⟩⟩
    obtain ⟨c, hc, rfl⟩ := List.mem_map.1 hl
    exact (C26_info cs).1 hi c hc
  · have hl : (printReport sh o n cs).compatible = false ∧ (printReport sh o n cs).lines = cs.map (Change.line sh) := by
      simp only [printReport, hi, if_false, and_self]
    rw [hl.1, hl.2]
    refine ⟨⟨fun h => (nomatch h), fun h => ?_⟩, fun h => (nomatch h)⟩
    exfalso
    apply hi
    rw [C26_info]
    intro c hc
    exact h _ (List.mem_map.2 ⟨c, hc, rfl⟩)

/-- C69: what is advised otherwise. (1) The rules are the fixes of the changes, in order, and are to be added under the version in the file;
every change that is a warning has a rule among them. (2) The version is to be bumped exactly if file and class have the same version, to the
next one, and this case is pointed out by a warning. -/
theorem C69_advice (lower : Char → String) (sh : Show) (old : STy) (nm : String) (fs : List Fld) (vi : VerInfo) (r : Report) (cs : List Change)
    (h : checkSchemaCmd lower sh old (.data nm fs (some vi)) = .ok r) (hc : checker lower old (.data nm fs (some vi)) = .ok cs)
    (hi : r.compatible = false) :
    (∀ v rs, r.rules = some (v, rs) → v = old.version ∧ rs = cs.filterMap Change.fix ∧ rs ≠ []) ∧
      (r.rules = none → ∀ c ∈ cs, c.severity ≠ .warn) ∧
      (∀ c ∈ cs, c.severity = .warn → ∃ v rs u, r.rules = some (v, rs) ∧ c.fix = some u ∧ u ∈ rs) ∧
      (r.bump.isSome = true ↔ old.version = some vi.version) ∧ (∀ b, r.bump = some b → b = vi.version + 1) ∧
      (r.identical = true ↔ old.version = some vi.version) := by
  obtain ⟨_, o, n, cs', h1, rfl⟩ := checkSchemaCmd_ok h
  obtain ⟨h2, _, h3, _, _, vi', hty, h4⟩ := schemaChecker_ok h1
  rw [hc] at h2
  cases h2
  cases hty
  have hne : severityOf cs ≠ .info := by
    intro he
    simp only [printReport, he, if_true] at hi
    exact (nomatch hi)
  have hgt : (severityOf cs).gt .info = true := by
    cases hv : severityOf cs with
    | info => exact absurd hv hne
    | warn => rfl
    | error => rfl
  have hw : ∀ c ∈ cs, c.severity = .warn → ∃ u, c.fix = some u ∧ u ∈ proposedFixes cs := by
    intro c hc' hsv
    have := (C26_fix c (by rw [hsv]; exact fun h => nomatch h)).1 hsv
    obtain ⟨u, hu⟩ := Option.isSome_iff_exists.1 this
    exact ⟨u, hu, List.mem_filterMap.2 ⟨c, hc', hu⟩⟩
  simp only [printReport, hne, if_false, hgt, Bool.true_and, h3, h4, decide_eq_true_eq]
  refine ⟨?_, ?_, ?_, ?_, ?_, trivial⟩
  · intro v rs hv
    split at hv
    · exact (nomatch hv)
    · rename_i hemp
      cases hv
      refine ⟨rfl, rfl, fun he => hemp ?_⟩
      rw [he]; rfl
  · intro hv c hc' hsv
    obtain ⟨u, _, hm⟩ := hw c hc' hsv
    split at hv
    · rename_i hemp
      rw [List.isEmpty_iff] at hemp
      rw [hemp] at hm
      exact (nomatch hm)
    · exact (nomatch hv)
  · intro c hc' hsv
    obtain ⟨u, hu, hm⟩ := hw c hc' hsv
    split
    · rename_i hemp
      rw [List.isEmpty_iff] at hemp
      rw [hemp] at hm
      exact (nomatch hm)
    · exact ⟨_, _, u, rfl, hu, hm⟩
  · split <;> simp_all
  · intro b hb
    split at hb
    · rename_i hv
      rw [hv] at hb
      cases hb
      rfl
    · exact (nomatch hb)

/-- C69: the field can be told from the name at the end of the line, since names contain no dots -/
theorem C69_name : ∀ (p : List String), p ≠ [] → (∀ s ∈ p, '.' ∉ s.toList) → pySplit '.' (pyJoin "." p) = p
  | [], h, _ => absurd rfl h
  | [a], _, h => pySplit_id (h a (by simp))
  | a :: b :: as, _, h => by
    rw [pyJoin, pySplit_join, pySplit_id (h a (by simp)), C69_name (b :: as) (by simp) (fun s hs => h s (List.mem_cons_of_mem _ hs))]
    rfl

example : pySplit '.' (pyJoin "." ["opt", "lr"]) = ["opt", "lr"] := by decide +kernel

namespace ExRep

def sh : Show := ⟨fun _ => "v", fun _ => "v", fun _ => "t"⟩

/-- version 3 with `a: Optional[int]`, `b: int`; the file has `old: int`, `b: str` and version 3 -/
def cls : PyTy := .data "C" [.mk "a" (.union [.int, .noneT]) .none, .mk "b" .int .none] (some ⟨3, []⟩)
def file : STy := .struct "C" [ExA.f "old" (.prim "int"), ExA.f "b" (.prim "str")] (some 3)

/-- an error, two warnings with their rules under version 3, and the advice to bump to 4 -/
example : (match checkSchemaCmd Ex.lc sh file cls with
    | .ok r => decide (r.lines = [⟨.warn, "new field without default value", "a"⟩, ⟨.error, "type changed from t to t", "b"⟩,
        ⟨.warn, "field removed", "old"⟩]) && r.identical && !r.compatible &&
        decide (r.rules.map (fun q => (q.1, q.2.length)) = some (some 3, 2)) && decide (r.bump = some 4)
    | _ => false) = true := by
  decide +kernel

/-- a compatible report -/
example : (checkSchemaCmd Ex.lc sh Ex.oldC Ex.clsC).toOption.map (fun r => (r.compatible, r.lines.length)) = some (true, 1) := by
  decide +kernel

theorem ok_of {α : Type} {e : Except Err α} (p : α → Bool) (h : (match e with | .ok x => p x | .error _ => false) = true) :
    ∃ x, e = .ok x ∧ p x = true := by
  cases e with
  | error e => exact (nomatch h)
  | ok x => exact ⟨x, rfl, h⟩

def enumCls : PyTy := .data "C" [.mk "x" (.enum "E" [("RED", .int 1)]) .none] (some ⟨0, []⟩)
def enumFile (v : String) : STy := .struct "C" [ExA.f "x" (.enum "E" [(v, .int 1)])] (some 0)

def renamedFrom (v : String) : List Change → Bool
  | [.variantRenamed _ _ a _] => decide (a = v)
  | _ => false

def addedWithDefault : List Change → Bool
  | [.fieldAdded p _ _ true] => decide (p = ["lr"])
  | _ => false

/-- `n: int`, `mode: Literal["a", "b"]`, where `mode` was added in version 1 with the rule AddDefault; in the file `n` is a str -/
def modeCls : PyTy := .data "C" [.mk "n" .int .none, .mk "mode" (.literal [.str "a"]) .none]
  (some ⟨1, [(0, [.addDefault ["mode"] (.str "a")])]⟩)
def modeChanges : List Change → Bool
  | [.typeChanged p (.prim a) (.prim b), .typeChanged q .nothing (.literal [.str c])] =>
    decide (p = ["n"]) && decide (a = "str") && decide (b = "int") && decide (q = ["mode"]) && decide (c = "a")
  | _ => false

def modeFile : STy := .struct "C" [ExA.f "n" (.prim "str")] (some 0)

end ExRep

/-- C69 is false for what the lines say about a renamed variant: the new name is printed twice. Two schemas with different old names of
a variant give the same report. -/
theorem C69_variant_false : ∃ (old1 old2 : STy) (ty : PyTy) (r1 r2 : Report) (c1 c2 : Change),
    checkSchemaCmd Ex.lc ExRep.sh old1 ty = .ok r1 ∧ checkSchemaCmd Ex.lc ExRep.sh old2 ty = .ok r2 ∧
      checker Ex.lc old1 ty = .ok [c1] ∧ checker Ex.lc old2 ty = .ok [c2] ∧ c1 ≠ c2 ∧ r1.lines = r2.lines := by
  obtain ⟨r1, h1, k1⟩ := ExRep.ok_of (e := checkSchemaCmd Ex.lc ExRep.sh (ExRep.enumFile "REDD") ExRep.enumCls)
    (fun r => decide (r.lines = [⟨.info, "variant RED of E renamed to RED", "x"⟩])) (by decide +kernel)
  obtain ⟨r2, h2, k2⟩ := ExRep.ok_of (e := checkSchemaCmd Ex.lc ExRep.sh (ExRep.enumFile "REDS") ExRep.enumCls)
    (fun r => decide (r.lines = [⟨.info, "variant RED of E renamed to RED", "x"⟩])) (by decide +kernel)
  obtain ⟨cs1, h3, k3⟩ := ExRep.ok_of (e := checker Ex.lc (ExRep.enumFile "REDD") ExRep.enumCls) (ExRep.renamedFrom "REDD") (by decide +kernel)
  obtain ⟨cs2, h4, k4⟩ := ExRep.ok_of (e := checker Ex.lc (ExRep.enumFile "REDS") ExRep.enumCls) (ExRep.renamedFrom "REDS") (by decide +kernel)
  simp only [ExRep.renamedFrom] at k3 k4
  split at k3
  · split at k4
    · simp only [decide_eq_true_eq] at k1 k2 k3 k4
      refine ⟨_, _, _, r1, r2, _, _, h1, h2, h3, h4, ?_, k1.trans k2.symm⟩
      intro h
      rw [k3, k4] at h
      exact absurd (Change.variantRenamed.inj h).2.2.1 (by decide)
    · exact (nomatch k4)
  · exact (nomatch k3)

/-- ... and about new fields: "new field without default value" is printed for a field with a default -/
theorem C69_default_false : ∃ (old : STy) (ty : PyTy) (r : Report) (p : List String) (t : STy) (d : Val),
    checkSchemaCmd Ex.lc ExRep.sh old ty = .ok r ∧ checker Ex.lc old ty = .ok [.fieldAdded p t d true] ∧
      r.lines = [⟨.info, "new field without default value", pyJoin "." p⟩] := by
  obtain ⟨r, h1, k1⟩ := ExRep.ok_of (e := checkSchemaCmd Ex.lc ExRep.sh Ex.oldC Ex.clsC)
    (fun r => decide (r.lines = [⟨.info, "new field without default value", "lr"⟩])) (by decide +kernel)
  obtain ⟨cs, h2, k2⟩ := ExRep.ok_of (e := checker Ex.lc Ex.oldC Ex.clsC) ExRep.addedWithDefault (by decide +kernel)
  simp only [ExRep.addedWithDefault] at k2
  split at k2
  · simp only [decide_eq_true_eq] at k1 k2
    subst k2
    exact ⟨_, _, r, _, _, _, h1, h2, k1⟩
  · exact (nomatch k2)

/-- ... and rules are advised for changes that need none, too: here the field `mode` was added by an `AddDefault` rule, its line is
`info`, and the only rule that is advised is one for `mode` (whereas the real problem, the type of `n`, has no rule) -/
theorem C69_info_rule_false : ∃ (old : STy) (ty : PyTy) (r : Report) (v : Option Int) (vs : List Val) (c : Change) (cs : List Change),
    checkSchemaCmd Ex.lc ExRep.sh old ty = .ok r ∧ checker Ex.lc old ty = .ok cs ∧ c ∈ cs ∧ c.severity = .info ∧
      c.fix = some (.checkValue ["mode"] vs) ∧ r.rules = some (v, [.checkValue ["mode"] vs]) := by
  obtain ⟨r, h1, k1⟩ := ExRep.ok_of (e := checkSchemaCmd Ex.lc ExRep.sh ExRep.modeFile ExRep.modeCls)
    (fun r => !r.compatible && r.rules.isSome) (by decide +kernel)
  obtain ⟨cs, hc, k2⟩ := ExRep.ok_of (e := checker Ex.lc ExRep.modeFile ExRep.modeCls) ExRep.modeChanges (by decide +kernel)
  simp only [ExRep.modeChanges] at k2
  split at k2
  case h_2 => exact (nomatch k2)
  simp only [Bool.and_eq_true, decide_eq_true_eq] at k2
  obtain ⟨⟨⟨⟨rfl, rfl⟩, rfl⟩, rfl⟩, rfl⟩ := k2
  simp only [Bool.and_eq_true, Bool.not_eq_true'] at k1
  obtain ⟨q, hq⟩ := Option.isSome_iff_exists.1 k1.2
  obtain ⟨v, rs⟩ := q
  obtain ⟨_, hrs, _⟩ := (C69_advice Ex.lc ExRep.sh _ _ _ _ r _ h1 hc k1.1).1 v rs hq
  exact ⟨_, _, r, v, [.str "a"], _, _, h1, hc, .tail _ (.head _), by decide +kernel, rfl, by rw [hq, hrs]; rfl⟩

end HS
