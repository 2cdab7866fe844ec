import Verif.Proofs.CompatMain
import Verif.Props.Renames
import Verif.Props.Rewrite
import Verif.Props.Diff
/-!
# C27: a report with severity INFO means that old documents still load
-/
namespace HS

/-- C29: a change that takes part in no rename is kept; a removal or an addition that does is replaced by the rename -/
theorem C29_fate {α : Type} (c : RenameCfg α) (xs : List α) (x : α) (hx : x ∈ xs) : x ∈ findRenames c xs ∨
    (c.isRemoved x = true ∧ ∃ a ∈ xs, c.isAdded a = true ∧ c.renamed a x ∈ findRenames c xs) ∨
    (c.isAdded x = true ∧ ∃ r ∈ xs, c.isRemoved r = true ∧ c.renamed x r ∈ findRenames c xs) := by
  obtain ⟨ms, hm⟩ := C29_matching c xs
  obtain ⟨i, hi, rfl⟩ := List.mem_iff_getElem.1 hx
  by_cases h1 : i ∈ ms.map (·.1.1)
  · right; left
    obtain ⟨m, hm1, hm2⟩ := List.mem_map.1 h1
    obtain ⟨a1, a2, a3, a4⟩ := hm.mem m hm1
    rw [hm2, List.getElem?_eq_getElem hi, Option.some.injEq] at a1
    rw [a1]
    exact ⟨a2, m.2.2, List.mem_of_getElem? a3, a4, by rw [hm.result]; exact List.mem_append_right _ (List.mem_map.2 ⟨m, hm1, rfl⟩)⟩
  · by_cases h2 : i ∈ ms.map (·.2.1)
    · right; right
      obtain ⟨m, hm1, hm2⟩ := List.mem_map.1 h2
      obtain ⟨a1, a2, a3, a4⟩ := hm.mem m hm1
      rw [hm2, List.getElem?_eq_getElem hi, Option.some.injEq] at a3
      rw [a3]
      exact ⟨a4, m.1.2, List.mem_of_getElem? a1, a2, by rw [hm.result]; exact List.mem_append_right _ (List.mem_map.2 ⟨m, hm1, rfl⟩)⟩
    · left
      rw [hm.result]
      apply List.mem_append_left
      refine List.mem_map.2 ⟨(xs[i], i), ?_, rfl⟩
      simp only [List.mem_filter, decide_eq_true_eq]
      exact ⟨List.mem_zipIdx_iff_getElem?.2 (List.getElem?_eq_some_iff.2 ⟨hi, rfl⟩), h1, h2⟩

/-- what the report must not contain for the proof: enum variants counted as renamed, type changes of types with Optional,
dataclasses or unions inside -/
def PlainChange : Change → Prop
  | .variantRenamed _ _ _ _ => False
  | .typeChanged _ o _ => FlatS o
  | _ => True

theorem info_plain (c : Change) (h1 : c.severity = .info) (h2 : PlainChange c) : Harmless c := by
  cases c with
  | fieldAdded p t d b =>
    cases b with
    | true => rfl
    | false =>
      have h3 : (if (Change.fieldAdded p t d false).fix.isSome = true then Severity.warn else .error) = .info := h1
      split at h3 <;> exact (nomatch h3)
  | typeChanged p o n =>
    cases hb : isSubtype o n with
    | true => exact ⟨hb, h2⟩
    | false =>
      simp only [Change.severity, hb, Change.baseSeverity, Bool.false_eq_true, if_false] at h1
      split at h1 <;> exact (nomatch h1)
  | variantAdded => trivial
  | literalAdded => trivial
  | variantRenamed => exact h2
  | _ => exact (nomatch h1)

/-- if everything in the report is INFO and plain, nothing was renamed or removed -/
theorem info_harmless (lower : Char → String) (cs : List Change)
    (h : ∀ c ∈ findRenames (enumRenameCfg lower) (findRenames (fieldRenameCfg lower) cs), c.severity = .info ∧ PlainChange c) :
    ∀ c ∈ cs, Harmless c := by
  have noF : ∀ c ∈ cs, (fieldRenameCfg lower).isRemoved c = false := by
    intro r hr
    cases hrm : (fieldRenameCfg lower).isRemoved r with
    | false => rfl
    | true =>
      exfalso
      cases r <;> try (exact absurd (show false = true from hrm) (by decide))
      rename_i p t d b
      rcases C29_fate (fieldRenameCfg lower) cs _ hr with h1 | ⟨-, a, ha, ha2, h1⟩ | ⟨h1, -⟩
      · exact (nomatch (h _ (C29_kept (enumRenameCfg lower) _ _ h1 rfl rfl)).1)
      · cases a <;> try (exact absurd (show false = true from ha2) (by decide))
        exact (nomatch (h _ (C29_kept (enumRenameCfg lower) _ _ h1 rfl rfl)).1)
      · exact absurd (show false = true from h1) (by decide)
  have e1 : findRenames (fieldRenameCfg lower) cs = cs := by
    refine C29_no_pair _ cs ?_
    intro a ha r hr _ h2
    rw [noF r hr] at h2
    exact (nomatch h2)
  rw [e1] at h
  have noV : ∀ c ∈ cs, (enumRenameCfg lower).isRemoved c = false := by
    intro r hr
    cases hrm : (enumRenameCfg lower).isRemoved r with
    | false => rfl
    | true =>
      exfalso
      cases r <;> try (exact absurd (show false = true from hrm) (by decide))
      rename_i p n k v
      rcases C29_fate (enumRenameCfg lower) cs _ hr with h1 | ⟨-, a, ha, ha2, h1⟩ | ⟨h1, -⟩
      · exact (nomatch (h _ h1).1)
      · cases a <;> try (exact absurd (show false = true from ha2) (by decide))
        have := h _ h1
        simp only [enumRenameCfg] at this
        split at this
        · exact this.2
        · exact (nomatch this.1)
      · exact absurd (show false = true from h1) (by decide)
  have e2 : findRenames (enumRenameCfg lower) cs = cs := by
    refine C29_no_pair _ cs ?_
    intro a ha r hr _ h2
    rw [noV r hr] at h2
    exact (nomatch h2)
  rw [e2] at h
  exact fun c hc => info_plain c (h c hc).1 (h c hc).2

theorem ddel_sub {d : List (String × Val)} {k k' : String} {v : Val} (h : (k, v) ∈ ddel d k') : (k, v) ∈ d := by
  induction d with
  | nil => exact h
  | cons e d ih =>
    simp only [ddel] at h
    split at h
    · exact List.mem_cons_of_mem _ (ih h)
    · rcases List.mem_cons.1 h with h | h
      · exact h ▸ List.mem_cons_self ..
      · exact List.mem_cons_of_mem _ (ih h)

/-- with the same rules, a higher version number does not change what the rules do -/
theorem hook_same (am : Bool) (va vb : VerInfo) (hr : vb.rules = va.rules) (hk : ∀ e ∈ va.rules, e.1 < va.version)
    (hv : va.version ≤ vb.version) (x : Val) : versionHook am vb x = versionHook am va x := by
  have hk' : ∀ e ∈ vb.rules, e.1 < vb.version := by
    intro e he
    rw [hr] at he
    have := hk e he
    omega
  have hat : ∀ i, vb.rulesAt i = va.rulesAt i := by intro i; simp only [VerInfo.rulesAt, hr]
  have hap : ∀ sd v, vb.applyUpgrades sd v = va.applyUpgrades sd v := by
    intro sd v
    rw [C16_upgrade_runs vb sd v hk', C16_upgrade_runs va sd v hk]
    have hnil : ∀ is : List Int, (∀ i ∈ is, va.version ≤ i) → is.flatMap va.rulesAt = [] := by
      intro is his
      rw [List.flatMap_eq_nil_iff]
      intro i hi
      refine C16_rulesAt_none va i ?_
      intro e he hne
      have := hk e he
      have := his i hi
      omega
    have : vb.rulesAt = va.rulesAt := funext hat
    rw [this]
    by_cases h : v ≤ va.version
    · rw [rangeI_append h hv, List.flatMap_append, hnil (rangeI va.version vb.version) (fun i hi => (mem_rangeI.1 hi).1), List.append_nil]
    · rw [hnil (rangeI v vb.version) (fun i hi => by have := (mem_rangeI.1 hi).1; omega),
        hnil (rangeI v va.version) (fun i hi => by have := (mem_rangeI.1 hi).1; omega)]
  have hany : ∀ sd v, vb.upgradeAny sd v = va.upgradeAny sd v := by
    intro sd v
    have h1 : (vb.rules.all fun e => e.1 < vb.version) = true := by simpa using hk'
    have h2 : (va.rules.all fun e => e.1 < va.version) = true := by simpa using hk
    simp only [VerInfo.upgradeAny, h1, h2, if_true]
    congr 1
    funext i
    exact hap sd i
  unfold versionHook
  cases x <;> simp only [hany]

/-- no rules apply to a schema of version `va.version` -/
theorem schema_same (va vb : VerInfo) (hr : vb.rules = va.rules) (hk : ∀ e ∈ va.rules, e.1 < va.version) (n : String)
    (F : List (String × SFld)) : vb.applySchemaUpgrades (.struct n F (some va.version)) = .ok (.struct n F (some va.version)) := by
  have : ∀ (is : List Int) (s : STy), (∀ i ∈ is, va.version ≤ i) → upgradeSchemaLoop vb is s = .ok s := by
    intro is
    induction is with
    | nil => intros; rfl
    | cons i is ih =>
      intro s his
      have : vb.rulesAt i = [] := by
        refine C16_rulesAt_none vb i ?_
        intro e he
        rw [hr] at he
        have := hk e he
        have := his i (by simp)
        omega
      simp only [upgradeSchemaLoop, this, applyRulesSchema, bind, Except.bind]
      exact ih s (fun j hj => his j (List.mem_cons_of_mem _ hj))
  exact this _ _ (fun i hi => (mem_rangeI.1 hi).1)

/-- `C27_partial` with what is needed of the fields set in the document -/
theorem compat_fields (lower : Char → String) (c : DCfg) (na nb : String) (fsa fsb : List Fld) (va vb : VerInfo) (F G : List (String × SFld))
    (hF : materialize (.data na fsa (some va)) = .ok (.struct na F (some va.version)))
    (hG : materialize (.data nb fsb (some vb)) = .ok (.struct nb G (some vb.version)))
    (hr : vb.rules = va.rules) (hk : ∀ e ∈ va.rules, e.1 < va.version) (hv : va.version ≤ vb.version)
    (gF : GoodF true F) (gG : GoodF false G) (hl : LitUsableF c.ext G)
    (cs : List Change) (hc : checker lower (.struct na F (some va.version)) (.data nb fsb (some vb)) = .ok cs)
    (hs : severityOf cs = .info) (hp : ∀ c ∈ cs, PlainChange c)
    (d : List (String × Val)) (hd : dget d "version" = some (.int va.version)) (hx : Raw (.dict d)) (hi : IntsFit (.dict d))
    (path : String) (r : Val × List Ev) (h : fromDict c (.data na fsa (some va)) false path (.dict d) = .ok r) :
    ∃ r' ys zs, fromDict c (.data nb fsb (some vb)) false path (.dict d) = .ok r' ∧ KeptR (.dict (ddel d "version")) r r' ∧
      r.1 = .inst na ys ∧ r'.1 = .inst nb zs ∧
      ∀ k a, dget (ddel d "version") k = some a → k ≠ NAME_KEY → a.isWeak = false → ∃ v w, dget ys k = some v ∧ dget zs k = some w ∧ Kept a v w ∧
        ∃ f es, fsa.find? (fun f => f.name == k) = some f ∧ fromDict c f.ty false (fieldPath path k) a = .ok (v, es) := by
  have body : ∀ n fs vi z, versionHook c.allowMissing vi (.dict d) = .ok z →
      fromDict c (.data n fs (some vi)) false path (.dict d) = fromDict c (.data n fs .none) false path z := by
    intro n fs vi z hz
    conv => lhs; rw [fromDict]
    conv => rhs; rw [fromDict]
    simp only [hz, bind, Except.bind, pure, Except.pure]
  have hz : versionHook c.allowMissing va (.dict d) = .ok (.dict (ddel d "version")) := by
    have h1 : (va.rules.all fun e => e.1 < va.version) = true := by simpa using hk
    simp only [versionHook, hd, VerInfo.upgradeAny, h1, if_true, Val.asRangeInt, bind, Except.bind]
    exact C16_current va _ va.version hk (Int.le_refl _)
  have hz' : versionHook c.allowMissing vb (.dict d) = .ok (.dict (ddel d "version")) := by
    rw [hook_same _ va vb hr hk hv, hz]
  rw [body _ _ _ _ hz] at h
  rw [body _ _ _ _ hz']
  have hsub : ∀ y, Inside y (.dict (ddel d "version")) → y = .dict (ddel d "version") ∨ Inside y (.dict d) := by
    intro y hy
    cases hy with
    | refl => exact .inl rfl
    | dict h1 h2 => exact .inr (.dict (ddel_sub h1) h2)
  obtain ⟨F', hF1, hF2⟩ := mat_data hF
  obtain ⟨G', hG1, hG2⟩ := mat_data hG
  cases hF2
  cases hG2
  unfold checker classSchema at hc
  rw [hG] at hc
  simp only [bind, Except.bind, pure, Except.pure] at hc
  rw [schema_same va vb hr hk] at hc
  simp only [checkSchemas, bind, Except.bind, pure, Except.pure] at hc
  cases h0 : findChanges [] (.struct nb G (some vb.version)) (.struct na F (some va.version)) with
  | error e => rw [h0] at hc; exact (nomatch hc)
  | ok cs0 =>
    rw [h0] at hc
    cases hc
    have harm := info_harmless lower cs0 (fun c hc => ⟨(C26_info _).1 hs c hc, hp c hc⟩)
    obtain ⟨m, G', w, cs', he, h2, h3, h4⟩ := harmless_struct h0 harm
    cases he
    refine struct_sound_fields c _ (comp_sound c _) (Nat.le_refl _) hF1 hG1 gF gG hl h2 h3 h4 path _ ?_ ?_ r h
    · intro y hy
      rcases hsub y hy with rfl | hy
      · rfl
      · exact hx y hy
    · intro i hy
      rcases hsub _ hy with hy | hy
      · exact (nomatch hy)
      · exact hi i hy

/-- C27: a class gets a new definition, with the same upgrade rules and possibly a higher version number. If the checker, given
the schema of the old definition, reports severity INFO, then every document of the old version that loads with the old class loads
with the new one, every value set in the document is kept, and the same schedules and blobs are found at the same paths, in the same
order (`EvsLike`; a schedule of an int field becomes one of a float field where the type changed so).

Partial: no enum variant may be reported as renamed, no changed type may contain an Optional, dataclass or union (`PlainChange`); the old
schema contains no dataclass without fields, nested classes are not versioned, and enum values are scalars (`GoodF`); values of
Literals can be evaluated as type arguments; ints in the document are not too large for a float. The claim is false without these:
`C27_empty_false`, `C27_optional_false`, `C27_variant_false`, `C27_overflow_false`, `C27_literal_false`. -/
theorem C27_partial (lower : Char → String) (c : DCfg) (na nb : String) (fsa fsb : List Fld) (va vb : VerInfo) (F G : List (String × SFld))
    (hF : materialize (.data na fsa (some va)) = .ok (.struct na F (some va.version)))
    (hG : materialize (.data nb fsb (some vb)) = .ok (.struct nb G (some vb.version)))
    (hr : vb.rules = va.rules) (hk : ∀ e ∈ va.rules, e.1 < va.version) (hv : va.version ≤ vb.version)
    (gF : GoodF true F) (gG : GoodF false G) (hl : LitUsableF c.ext G)
    (cs : List Change) (hc : checker lower (.struct na F (some va.version)) (.data nb fsb (some vb)) = .ok cs)
    (hs : severityOf cs = .info) (hp : ∀ c ∈ cs, PlainChange c)
    (d : List (String × Val)) (hd : dget d "version" = some (.int va.version)) (hx : Raw (.dict d)) (hi : IntsFit (.dict d))
    (path : String) (r : Val × List Ev) (h : fromDict c (.data na fsa (some va)) false path (.dict d) = .ok r) :
    ∃ r', fromDict c (.data nb fsb (some vb)) false path (.dict d) = .ok r' ∧ Kept (.dict (ddel d "version")) r.1 r'.1 ∧
      EvsLike r.2 r'.2 := by
  obtain ⟨r', _, _, h1, h2, _⟩ := compat_fields lower c na nb fsa fsb va vb F G hF hG hr hk hv gF gG hl cs hc hs hp d hd hx hi path r h
  exact ⟨r', h1, h2⟩

/-! ## where it is false -/

/-- severity reported for the class `tb` against the schema of `ta` -/
def checkAgainst (lower : Char → String) (ta tb : PyTy) : Except Err Severity := do
  let s ← materialize ta
  let cs ← checker lower s tb
  return severityOf cs

/-- INFO is reported, and there is a document that loads with the old class and not with the new one -/
def Broken (c : DCfg) (fsa fsb : List Fld) : Prop :=
  checkAgainst Ex.lc (.data "C" fsa (some ⟨0, []⟩)) (.data "C" fsb (some ⟨0, []⟩)) = .ok .info ∧
  ∃ d, dget d "version" = some (.int 0) ∧ (∃ r, fromDict c (.data "C" fsa (some ⟨0, []⟩)) false "" (.dict d) = .ok r) ∧
    ∃ e, fromDict c (.data "C" fsb (some ⟨0, []⟩)) false "" (.dict d) = .error e

theorem ok_of_test {x : Except Err Severity} (h : (match x with | .ok .info => true | _ => false) = true) : x = .ok .info := by
  split at h
  · rfl
  · exact (nomatch h)

/-- removing a field whose dataclass has no fields is not reported at all, but documents may contain the (empty) section -/
theorem C27_empty_false (c : DCfg) : Broken c [.mk "x" .int .none, .mk "opt" (.data "Opt" [] .none) .none] [.mk "x" .int .none] :=
  ⟨ok_of_test (by decide +kernel), [("version", .int 0), ("x", .int 1), ("opt", .dict [])], rfl, ⟨_, rfl⟩, ⟨_, rfl⟩⟩

/-- `List[Optional[float]]` to `Optional[List[Optional[int]]]` is reported as INFO -/
theorem C27_optional_false (c : DCfg) : Broken c [.mk "x" (.list (.optional .float)) .none]
    [.mk "x" (.optional (.list (.optional .int))) .none] :=
  ⟨ok_of_test (by decide +kernel), [("version", .int 0), ("x", .list [.flt (.inf false)])], rfl, ⟨_, rfl⟩, ⟨_, rfl⟩⟩

/-- a member removed from one enum and a member with the same value added to another count as a rename, which is INFO -/
theorem C27_variant_false (c : DCfg) :
    Broken c [.mk "a" (.enum "A" [("fast", .str "fast"), ("slow", .str "slow")]) .none, .mk "b" (.enum "B" [("on", .str "on")]) .none]
      [.mk "a" (.enum "A" [("slow", .str "slow")]) .none, .mk "b" (.enum "B" [("on", .str "on"), ("fast", .str "fast")]) .none] :=
  ⟨ok_of_test (by decide +kernel), [("version", .int 0), ("a", .str "fast"), ("b", .str "on")], rfl, ⟨_, rfl⟩, ⟨_, rfl⟩⟩

/-- `int` to `float` is INFO, but an int may be too large for a float -/
theorem C27_overflow_false (c : DCfg) : Broken c [.mk "x" .int .none] [.mk "x" .float .none] := by
  refine ⟨ok_of_test (by decide +kernel), ?_⟩
  have h : ∃ n : Int, 2 ^ 1024 ≤ roundNat n.natAbs := ⟨((2 ^ 1024 : Nat) : Int), by decide +kernel⟩
  obtain ⟨n, hn⟩ := h
  have h : floatOfInt n = .error .overflow := by unfold floatOfInt; exact if_pos hn
  refine ⟨[("version", .int 0), ("x", .int n)], rfl, ⟨_, rfl⟩, .overflow, ?_⟩
  have : fromDict c (.data "C" [.mk "x" .float .none] (some ⟨0, []⟩)) false "" (.dict [("version", .int 0), ("x", .int n)]) =
    (do let q ← (do let q ← fromDict c .float false "x" (.int n); (Except.ok ([("x", q.1)], q.2) : Except Err (List (String × Val) × List Ev)))
        let kvs ← fillFields q.1 [.mk "x" .float .none]
        (Except.ok (.inst "C" kvs, q.2) : Res)) := by
    simp only [fromDict, schedHook, primBranches, toFloat, h, bind, Except.bind]
    simp [versionHook, dget, VerInfo.upgradeAny, VerInfo.applyUpgrades, Val.asRangeInt, rangeI, upgradeLoop, ddel, asRawDict, bind, Except.bind,
      pure, Except.pure, itemsLoop, NAME_KEY, Val.isWeak, fdField, fdFld, fromDict, schedHook, primBranches, toFloat, h]
  rw [this]
  simp [fromDict, schedHook, primBranches, toFloat, h, bind, Except.bind]

/-- a value was added to a Literal that cannot be evaluated as a type argument: INFO, but nothing loads any more (C08) -/
theorem C27_literal_false (c : DCfg) (h : c.ext.typeArgOk (.str "a") = true) (h' : c.ext.typeArgOk (.str "a-b") = false) :
    Broken c [.mk "x" (.literal [.str "a"]) .none] [.mk "x" (.literal [.str "a", .str "a-b"]) .none] := by
  refine ⟨ok_of_test (by decide +kernel), [("version", .int 0), ("x", .str "a")], rfl, ?_⟩
  simp [fromDict, versionHook, dget, VerInfo.upgradeAny, VerInfo.applyUpgrades, Val.asRangeInt, rangeI, upgradeLoop, ddel, asRawDict, bind, Except.bind,
      pure, Except.pure, itemsLoop, NAME_KEY, Val.isWeak, fdField, fdFld, h, h', pyMem, pyEq, fillFields, fieldValue, Fld.name]

/-! ## non-vacuity -/

namespace Ex

/-- `lr: int`, `net: Net` with `kind: Kind` -/
def cOld : List Fld := [.mk "lr" .int (some (.int 1)), .mk "net" (.data "Net" [.mk "kind" (.enum "Kind" [("a", .str "a")]) .none] .none) .none]
/-- `lr` may be a float or None, `net.kind` has a new member, `net.n` and `steps` are new -/
def cNew : List Fld := [.mk "net" (.data "Net" [.mk "kind" (.enum "Kind" [("b", .str "b"), ("a", .str "a")]) .none,
    .mk "n" .int (some (.int 3))] .none) .none, .mk "lr" (.optional .float) (some (.int 1)), .mk "steps" (.list .int) (some (.list []))]
def cOldS : List (String × SFld) := [("lr", .mk "lr" (.prim "int") (.int 1) true .none), ("net", .mk "net" (.struct "Net"
  [("kind", .mk "kind" (.enum "Kind" [("a", .str "a")]) .none false .none)] .none) .none false .none)]
def cDoc : List (String × Val) := [("version", .int 0), ("lr", .int 2), ("net", .dict [("kind", .str "a")])]

end Ex

example : checkAgainst Ex.lc (.data "C" Ex.cOld (some ⟨0, []⟩)) (.data "C" Ex.cNew (some ⟨1, []⟩)) = .ok .info := ok_of_test (by decide +kernel)
/-- four changes: `net.kind` a new variant, `net.n` and `steps` added, the type of `lr` -/
example : (match materialize (.data "C" Ex.cOld (some ⟨0, []⟩)) >>= fun s => checker Ex.lc s (.data "C" Ex.cNew (some ⟨1, []⟩)) with
    | .ok cs => cs.map (fun c => c.tag.2) | .error _ => []) = [["net", "kind"], ["net", "n"], ["lr"], ["steps"]] := by decide +kernel
example : materialize (.data "C" Ex.cOld (some ⟨0, []⟩)) = .ok (.struct "C" Ex.cOldS (some 0)) := rfl
example : GoodF true Ex.cOldS := by
  refine ⟨by decide, ?_⟩
  intro k f hf
  simp only [Ex.cOldS, List.mem_cons, Prod.mk.injEq, List.not_mem_nil, or_false] at hf
  rcases hf with ⟨rfl, rfl⟩ | ⟨rfl, rfl⟩
  · exact .prim
  · refine .struct (by simp) (by decide) ?_
    intro k f hf
    simp only [List.mem_cons, Prod.mk.injEq, List.not_mem_nil, or_false] at hf
    obtain ⟨rfl, rfl⟩ := hf
    refine .enum (by decide) ?_
    intro k v hv
    simp only [List.mem_cons, Prod.mk.injEq, List.not_mem_nil, or_false] at hv
    obtain ⟨rfl, rfl⟩ := hv
    rfl
example : Raw (.dict Ex.cDoc) ∧ IntsFit (.dict Ex.cDoc) := by
  have key : ∀ y, Inside y (.dict Ex.cDoc) → y = .dict Ex.cDoc ∨ y = .int 0 ∨ y = .int 2 ∨ y = .dict [("kind", .str "a")] ∨ y = .str "a" := by
    intro y hy
    cases hy with
    | refl => exact .inl rfl
    | dict h1 h2 =>
      simp only [Ex.cDoc, List.mem_cons, Prod.mk.injEq, List.not_mem_nil, or_false] at h1
      rcases h1 with ⟨rfl, rfl⟩ | ⟨rfl, rfl⟩ | ⟨rfl, rfl⟩
      · cases h2; simp
      · cases h2; simp
      · cases h2 with
        | refl => simp
        | dict h1 h2 =>
          simp only [List.mem_cons, Prod.mk.injEq, List.not_mem_nil, or_false] at h1
          obtain ⟨rfl, rfl⟩ := h1
          cases h2
          simp
  constructor
  · intro y hy
    rcases key y hy with rfl | rfl | rfl | rfl | rfl <;> rfl
  · intro i hi
    rcases key _ hi with h | h | h | h | h <;> simp only [Val.int.injEq, reduceCtorEq] at h <;> subst h
    · exact ⟨_, floatOfInt_small (by decide)⟩
    · exact ⟨_, floatOfInt_small (by decide)⟩
example : (fromDict (Ex.world.dcfg false false) (.data "C" Ex.cOld (some ⟨0, []⟩)) false "" (.dict Ex.cDoc)).isOk = true := rfl
example : PlainChange (.typeChanged ["lr"] (.prim "int") (.option (.prim "float"))) ∧ PlainChange (.variantAdded [] "" "" .none) := ⟨.prim, trivial⟩

end HS
