import Verif.Spec.Report
import Verif.Props.Report
/-!
# C69: what the lines of the report say
-/
namespace HS

theorem says_local {sh : Show} {old new : STy} {q : List String} {o n : STy} {c : Change} (ht : Twin old new q o n) (h : Local q o n c) :
    Says sh old new (c.diagnostic sh) c.field := by
  cases h with
  | added h1 h2 h3 => exact .added ht h1 h2 h3
  | removed h1 h2 h3 => exact .removed ht h1 h2 h3
  | defaultRemoved h1 h2 h3 h4 h5 => exact .defaultRemoved ht h1 h2 h4 h5
  | defaultChanged h1 h2 h3 h4 h5 h6 => exact .defaultChanged ht h1 h2 h4 h5 h6
  | kind h1 => exact .typeChanged ht (fun e => h1 (by rw [e]))
  | prim h1 => exact .typeChanged ht (fun e => h1 (by cases e; rfl))
  | variantAdded h1 h2 => exact .variantAdded ht h1 h2
  | variantRemoved h1 h2 => exact .variantRemoved ht h1 h2
  | variantChanged h1 h2 h3 => exact .variantChanged ht h2 h1 h3
  | @literalAdded ovs nvs h1 =>
    show Says sh old new (literalText sh "added to" (pyJoin "." q) (nvs.filter (fun v => !(pyMem v ovs)))) q
    cases hf : nvs.filter (fun v => !(pyMem v ovs)) with
    | nil => exact absurd hf h1
    | cons v vs =>
      cases vs with
      | nil =>
        have := Says.literalAdded1 (sh := sh) ht hf
        rw [show " added to literal type " = " " ++ ("added to" ++ " literal type ") from by decide] at this
        simpa only [literalText, String.append_assoc] using this
      | cons w vs =>
        have := Says.literalAdded (sh := sh) ht hf
        rw [show " added to literal type " = " " ++ ("added to" ++ " literal type ") from by decide] at this
        simpa only [literalText, String.append_assoc] using this
  | @literalRemoved ovs nvs h1 =>
    show Says sh old new (literalText sh "removed from" (pyJoin "." q) (ovs.filter (fun v => !(pyMem v nvs)))) q
    cases hf : ovs.filter (fun v => !(pyMem v nvs)) with
    | nil => exact absurd hf h1
    | cons v vs =>
      cases vs with
      | nil =>
        have := Says.literalRemoved1 (sh := sh) ht hf
        rw [show " removed from literal type " = " " ++ ("removed from" ++ " literal type ") from by decide] at this
        simpa only [literalText, String.append_assoc] using this
      | cons w vs =>
        have := Says.literalRemoved (sh := sh) ht hf
        rw [show " removed from literal type " = " " ++ ("removed from" ++ " literal type ") from by decide] at this
        simpa only [literalText, String.append_assoc] using this

/-- the field pass makes no changes of variants -/
theorem field_pass_variant {lower : Char → String} {cs : List Change} {c : Change} (h : c ∈ findRenames (fieldRenameCfg lower) cs)
    (hv : (enumRenameCfg lower).isAdded c = true ∨ (enumRenameCfg lower).isRemoved c = true) : c ∈ cs := by
  rcases C29_origin _ cs _ h with h | ⟨a, ha, r, hr, h1, h2, h3, -⟩
  · exact h
  · exfalso
    cases a <;> try (simp [fieldRenameCfg] at h1; done)
    cases r <;> try (simp [fieldRenameCfg] at h2; done)
    simp only [fieldRenameCfg] at h3
    subst h3
    simp [enumRenameCfg] at hv

theorem says_change {lower : Char → String} {sh : Show} {old new : STy} {cs : List Change} (ho : WFS old) (hn : WFS new)
    (h : checkSchemas lower old new = .ok cs) {c : Change} (hc : c ∈ cs) : Says sh old new (c.diagnostic sh) c.field := by
  simp only [checkSchemas, bind, Except.bind, pure, Except.pure] at h
  split at h
  · exact (nomatch h)
  rename_i cs0 h0
  cases h
  have hx := fun c => C28_exact old new cs0 ho hn h0 c
  rcases C29_origin _ _ _ hc with hc | ⟨a, ha, r, hr, h1, h2, h3, -⟩
  · rcases C29_origin _ _ _ hc with hc | ⟨a, ha, r, hr, h1, h2, h3, s, h4, -⟩
    · obtain ⟨q, o, n, ht, hl⟩ := (hx c).1 hc
      exact says_local ht hl
    · cases a <;> try (simp [fieldRenameCfg] at h1; done)
      cases r <;> try (simp [fieldRenameCfg] at h2; done)
      simp only [fieldRenameCfg] at h3 h4
      subst h3
      split at h4
      case isFalse => exact (nomatch h4)
      rename_i hcond
      simp only [Bool.and_eq_true, beq_iff_eq] at hcond
      obtain ⟨q, o, n, ht, hl⟩ := (hx _).1 hr
      obtain ⟨q', o', n', ht', hl'⟩ := (hx _).1 ha
      cases hl with
      | removed a1 a2 a3 =>
        cases hl' with
        | added b1 b2 b3 => exact .renamed ht a1 a2 a3 ht' b1 b2 b3 hcond.1.1 hcond.1.2 hcond.2
  · have ha := field_pass_variant ha (.inl h1)
    have hr := field_pass_variant hr (.inr h2)
    cases a <;> try (simp [enumRenameCfg] at h1; done)
    cases r <;> try (simp [enumRenameCfg] at h2; done)
    simp only [enumRenameCfg] at h3
    obtain ⟨q, o, n, ht, hl⟩ := (hx _).1 hr
    obtain ⟨q', o', n', ht', hl'⟩ := (hx _).1 ha
    cases hl with
    | variantRemoved a1 a2 =>
      cases hl' with
      | variantAdded b1 b2 =>
        split at h3
        · rename_i he
          subst h3
          exact .variantRenamed ht a1 a2 ht' b1 b2 he
        · rename_i he
          subst h3
          exact .variantMatched ht a1 a2 ht' b1 b2 (by simpa using he)

/-- C69 (partial): every line of the report is true: what it says about the field it names is how the schema in the file, after the upgrade
rules of the class, and the schema of the class differ there. What `Says` allows falls short of the property in three places:
"without default value" for every new field (C69_default_false), renamed variants (C69_variant_false), and a removed variant that was
matched with a new one of another value (C69_matched_false). -/
theorem C69_text_partial (lower : Char → String) (sh : Show) (old : STy) (ty : PyTy) (o n : STy) (cs : List Change) (r : Report)
    (h : checkSchemaCmd lower sh old ty = .ok r) (hc : schemaChecker lower old ty = .ok (o, n, cs)) (ho : WFS o) (hd : DistinctTy ty)
    (l : Line) (hl : l ∈ r.lines) : ∃ p, l.name = pyJoin "." p ∧ Says sh o n l.text p := by
  obtain ⟨_, o', n', cs', h1, rfl⟩ := checkSchemaCmd_ok h
  rw [hc] at h1
  cases h1
  have hm := (schemaChecker_ok hc).2.1
  have hk : checkSchemas lower o n = .ok cs := by
    simp only [schemaChecker, bind, Except.bind, pure, Except.pure] at hc
    split at hc
    · exact (nomatch hc)
    split at hc
    · split at hc
      · exact (nomatch hc)
      split at hc
      · exact (nomatch hc)
      rename_i h2
      cases hc
      exact h2
    · exact (nomatch hc)
  have hls : (printReport sh o n cs).lines = cs.map (Change.line sh) := by simp only [printReport]; split <;> rfl
  rw [hls] at hl
  obtain ⟨c, hcm, rfl⟩ := List.mem_map.1 hl
  exact ⟨c.field, rfl, says_change ho (wfs_materialize ty n hd hm) hk hcm⟩

namespace ExRep

/-- `x: E`, `y: F` where `F` has got a variant `RED = 2`, and `E` lost `REDD = 1` -/
def twoCls : PyTy := .data "C" [.mk "x" (.enum "E" [("A", .int 0)]) .none, .mk "y" (.enum "F" [("B", .int 0), ("RED", .int 2)]) .none] (some ⟨0, []⟩)
def twoFile : STy := .struct "C" [ExA.f "x" (.enum "E" [("A", .int 0), ("REDD", .int 1)]), ExA.f "y" (.enum "F" [("B", .int 0)])] (some 0)

end ExRep

/-- C69 is false for a removed variant that is matched with a new one: the report says that the value of `F.REDD` changed, and names the
field `x`, which is of type `E`; there is no `F.REDD` in either schema, and nothing is said about the new variant of `y`. -/
theorem C69_matched_false : ∃ r, checkSchemaCmd Ex.lc ExRep.sh ExRep.twoFile ExRep.twoCls = .ok r ∧
    r.lines = [⟨.warn, "value of F.REDD changed from v to v", "x"⟩] := by
  obtain ⟨r, h, k⟩ := ExRep.ok_of (e := checkSchemaCmd Ex.lc ExRep.sh ExRep.twoFile ExRep.twoCls)
    (fun r => decide (r.lines = [⟨.warn, "value of F.REDD changed from v to v", "x"⟩])) (by decide +kernel)
  exact ⟨r, h, by simpa using k⟩

/-- the hypotheses of C69_text_partial hold for the class and the file of the report with three lines above -/
example : DistinctTy ExRep.cls ∧ ∃ o n cs, schemaChecker Ex.lc ExRep.file ExRep.cls = .ok (o, n, cs) ∧ WFS o ∧ cs.length = 3 := by
  refine ⟨by simp [ExRep.cls, DistinctTy, DistinctTyF, DistinctTyF1, DistinctTyHd, Fld.name], ?_⟩
  obtain ⟨⟨o, n, cs⟩, h, k⟩ := ExRep.ok_of (e := schemaChecker Ex.lc ExRep.file ExRep.cls) (fun q => decide (q.2.2.length = 3)) (by decide +kernel)
  refine ⟨o, n, cs, h, ?_, by simpa using k⟩
  have : o = ExRep.file := by
    simp only [schemaChecker, bind, Except.bind, pure, Except.pure] at h
    split at h
    · exact (nomatch h)
    rename_i q hq
    have hq2 : q.2 = some ⟨3, []⟩ := by
      rw [show classSchema ExRep.cls = .ok _ from rfl] at hq
      cases hq; rfl
    rw [hq2] at h
    simp only at h
    rw [show VerInfo.applySchemaUpgrades ⟨3, []⟩ ExRep.file = .ok ExRep.file from rfl] at h
    simp only at h
    split at h
    · exact (nomatch h)
    · cases h; rfl
  subst this
  refine .struct (by simp [ExA.f]) ?_
  intro k f hf
  simp only [ExA.f, List.mem_cons, List.not_mem_nil, or_false, Prod.mk.injEq] at hf
  rcases hf with ⟨_, rfl⟩ | ⟨_, rfl⟩ <;> exact .prim

end HS
