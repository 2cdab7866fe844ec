import Verif.Props.Advice
import Verif.Props.Valid
/-! # Following the advice for a removed Literal value

The fix proposed for a removed Literal value is `RejectValues` (`hyperstate/schema/schema_change.py:259-260`), which can be applied to no
schema (`hyperstate/schema/rewrite_rule.py:169-186`). -/
namespace HS

theorem applyRulesSchema_reject {p : List String} {vs : List Val} : ∀ {rs : List Rule} {s s' : STy}, .rejectValues p vs ∈ rs →
    applyRulesSchema rs s ≠ .ok s'
  | r :: rs, s, s', hm, h => by
    simp only [applyRulesSchema, bind, Except.bind] at h
    cases h1 : r.applySchema s with
    | error e => rw [h1] at h; exact (nomatch h)
    | ok s1 =>
      rw [h1] at h
      rcases List.mem_cons.1 hm with rfl | hm
      · exact C33_reject_never p vs s s1 h1
      · exact applyRulesSchema_reject hm h

theorem upgradeLoop_reject {vi : VerInfo} {p : List String} {vs : List Val} {i : Int} (hr : .rejectValues p vs ∈ vi.rulesAt i) :
    ∀ {is : List Int} {s s' : STy}, i ∈ is → upgradeSchemaLoop vi is s ≠ .ok s'
  | j :: is, s, s', hm, h => by
    simp only [upgradeSchemaLoop, bind, Except.bind] at h
    cases h1 : applyRulesSchema (vi.rulesAt j) s with
    | error e => rw [h1] at h; exact (nomatch h)
    | ok s1 =>
      rw [h1] at h
      rcases List.mem_cons.1 hm with rfl | hm
      · exact applyRulesSchema_reject hr h1
      · exact upgradeLoop_reject hr hm h

/-- C58, the failing case in general: if a Literal value was removed, then however the proposed fixes are taken over into the rules of
the class (for a version that is still to come for the old schema), no check of the old schema against the class ends any more. -/
theorem C58_literals_removed_false (lower : Char → String) (old : STy) (ty : PyTy) (cs : List Change) (p : List String) (vs : List Val)
    (_h : checker lower old ty = .ok cs) (hc : .literalRemoved p vs ∈ cs)
    (n : String) (fs : List Fld) (vi : VerInfo) (i : Int) (h1 : old.versionOr0 ≤ i) (h2 : i < vi.version)
    (hfix : ∀ r ∈ proposedFixes cs, r ∈ vi.rulesAt i) (cs' : List Change) : checker lower old (.data n fs (some vi)) ≠ .ok cs' := by
  intro h
  have hr : .rejectValues p vs ∈ vi.rulesAt i := hfix _ (List.mem_filterMap.2 ⟨_, hc, rfl⟩)
  simp only [checker, classSchema, bind, Except.bind, pure, Except.pure] at h
  cases hm : materialize (.data n fs (some vi)) with
  | error e => rw [hm] at h; exact (nomatch h)
  | ok s =>
    rw [hm] at h
    cases s with
    | struct a b c =>
      simp only at h
      cases hu : vi.applySchemaUpgrades old with
      | error e => rw [hu] at h; exact (nomatch h)
      | ok s1 =>
        refine upgradeLoop_reject hr ?_ hu
        simp only [rangeI, List.mem_map, List.mem_range]
        exact ⟨(i - old.versionOr0).toNat, by omega, by omega⟩
    | _ => exact (nomatch h)

/-- The hypotheses are met: the check of this class against the old schema reports a removed Literal value. -/
example : (match checker Ex.lc (.struct "C" [ExA.f "x" (.literal [.str "a", .str "b"])] (some 0))
      (.data "C" [.mk "x" (.literal [.str "a"]) .none] (some ⟨0, []⟩)) with
    | .ok [.literalRemoved ["x"] _] => true | _ => false) = true := by decide +kernel
end HS
