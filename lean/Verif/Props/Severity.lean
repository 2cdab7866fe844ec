import Verif.Model.Checker
/-!
# C26: severity; C34: `upgrade-schema`
-/
namespace HS

theorem severity_fold (cs : List Change) (m : Severity) :
    let r := cs.foldl (fun m (c : Change) => if c.severity.gt m then c.severity else m) m
    (r = m ∨ ∃ c ∈ cs, r = c.severity) ∧ m.value ≤ r.value ∧ ∀ c ∈ cs, c.severity.value ≤ r.value := by
  induction cs generalizing m with
  | nil => simp
  | cons c cs ih =>
    simp only [List.foldl_cons]
    have h := ih (if c.severity.gt m then c.severity else m)
    simp only at h
    generalize cs.foldl (fun m (c : Change) => if c.severity.gt m then c.severity else m)
      (if c.severity.gt m then c.severity else m) = r at h
    obtain ⟨h1, h2, h3⟩ := h
    by_cases hg : c.severity.gt m = true
    · rw [if_pos hg] at h1 h2
      simp only [Severity.gt, decide_eq_true_eq] at hg
      refine ⟨.inr ?_, by omega, ?_⟩
      · rcases h1 with h1 | ⟨d, hd, h1⟩
        · exact ⟨c, by simp, h1⟩
        · exact ⟨d, by simp [hd], h1⟩
      · intro d hd
        rcases List.mem_cons.1 hd with rfl | hd
        · exact h2
        · exact h3 d hd
    · rw [if_neg hg] at h1 h2
      simp only [Severity.gt, decide_eq_true_eq] at hg
      refine ⟨?_, h2, ?_⟩
      · rcases h1 with h1 | ⟨d, hd, h1⟩
        · exact .inl h1
        · exact .inr ⟨d, by simp [hd], h1⟩
      · intro d hd
        rcases List.mem_cons.1 hd with rfl | hd
        · omega
        · exact h3 d hd

theorem Severity.value_inj {a b : Severity} (h : a.value = b.value) : a = b := by
  cases a <;> cases b <;> first | rfl | exact absurd h (by decide)

theorem Severity.one_le (a : Severity) : 1 ≤ a.value := by cases a <;> decide

/-- C26: without changes the severity is INFO -/
theorem C26_empty : severityOf [] = .info := rfl

/-- C26: otherwise the severity is the severity of one of the changes, and none is worse -/
theorem C26_max (cs : List Change) (h : cs ≠ []) :
    (∃ c ∈ cs, severityOf cs = c.severity) ∧ ∀ c ∈ cs, c.severity.value ≤ (severityOf cs).value := by
  have hf := severity_fold cs .info
  simp only at hf
  obtain ⟨h1, h2, h3⟩ := hf
  refine ⟨?_, h3⟩
  rcases h1 with h1 | h1
  · cases cs with
    | nil => exact absurd rfl h
    | cons c cs =>
      refine ⟨c, by simp, ?_⟩
      have h4 := h3 c (by simp)
      rw [h1] at h4
      have h5 := c.severity.one_le
      unfold severityOf
      rw [h1]
      exact Severity.value_inj (Nat.le_antisymm h5 h4)
  · exact h1

/-- C26: the severity is INFO exactly when every change is INFO -/
theorem C26_info (cs : List Change) : severityOf cs = .info ↔ ∀ c ∈ cs, c.severity = .info := by
  constructor
  · intro h c hc
    have h1 := (C26_max cs (List.ne_nil_of_mem hc)).2 c hc
    rw [h] at h1
    exact Severity.value_inj (Nat.le_antisymm h1 c.severity.one_le)
  · intro h
    cases cs with
    | nil => rfl
    | cons c cs =>
      obtain ⟨⟨d, hd, h1⟩, _⟩ := C26_max (c :: cs) (by simp)
      rw [h1]
      exact h d hd

/-- C26: the severity is ERROR exactly when some change is an ERROR, and WARN exactly when some change is a WARN and none is an
ERROR (which does not mention the numbers of the severities) -/
theorem C26_error (cs : List Change) : (severityOf cs = .error ↔ ∃ c ∈ cs, c.severity = .error) ∧
    (severityOf cs = .warn ↔ (∃ c ∈ cs, c.severity = .warn) ∧ ∀ c ∈ cs, c.severity ≠ .error) := by
  have key : ∀ c ∈ cs, c.severity.value ≤ (severityOf cs).value := fun c hc => (C26_max cs (List.ne_nil_of_mem hc)).2 c hc
  have top : ∀ c ∈ cs, c.severity = .error → severityOf cs = .error := by
    intro c hc he
    have := key c hc
    rw [he] at this
    cases hs : severityOf cs <;> rw [hs] at this <;> simp [Severity.value] at this
  refine ⟨⟨fun h => ?_, fun ⟨c, hc, he⟩ => top c hc he⟩, fun h => ⟨?_, ?_⟩, fun ⟨⟨c, hc, hw⟩, hn⟩ => ?_⟩
  · have h0 : cs ≠ [] := by rintro rfl; exact (nomatch h)
    obtain ⟨⟨c, hc, h1⟩, _⟩ := C26_max cs h0
    exact ⟨c, hc, by rw [← h1, h]⟩
  · have h0 : cs ≠ [] := by rintro rfl; exact (nomatch h)
    obtain ⟨⟨c, hc, h1⟩, _⟩ := C26_max cs h0
    exact ⟨c, hc, by rw [← h1, h]⟩
  · intro c hc he
    rw [top c hc he] at h
    exact (nomatch h)
  · obtain ⟨⟨d, hd, h1⟩, _⟩ := C26_max cs (List.ne_nil_of_mem hc)
    have := key c hc
    rw [hw] at this
    cases hs : severityOf cs with
    | info => rw [hs] at this; simp [Severity.value] at this
    | warn => rfl
    | error => exact absurd (by rw [← h1, hs]) (hn d hd)

/-- C26: the order of the changes does not matter -/
theorem C26_perm (cs ds : List Change) (h : ∀ c, c ∈ cs ↔ c ∈ ds) : severityOf cs = severityOf ds := by
  by_cases h0 : cs = []
  · subst h0
    cases ds with
    | nil => rfl
    | cons d ds => exact absurd ((h d).2 (by simp)) (by simp)
  · have h0' : ds ≠ [] := by
      intro hd
      subst hd
      cases cs with
      | nil => exact h0 rfl
      | cons c cs => exact absurd ((h c).1 (by simp)) (by simp)
    obtain ⟨⟨c, hc, h1⟩, h2⟩ := C26_max cs h0
    obtain ⟨⟨d, hd, h3⟩, h4⟩ := C26_max ds h0'
    apply Severity.value_inj
    have h5 := h2 d ((h d).2 hd)
    have h6 := h4 c ((h c).1 hc)
    rw [← h1] at h6
    rw [← h3] at h5
    omega

/-- C26: no change with a proposed fix or without one is INFO by accident: a change that is not INFO is WARN if there is a
fix and ERROR otherwise -/
theorem C26_fix (c : Change) (h : c.severity ≠ .info) : c.severity = .warn ↔ c.fix.isSome = true := by
  cases c <;> simp only [Change.severity, ne_eq, not_true_eq_false] at h ⊢
  case fieldAdded p t d b =>
    split at h
    · exact absurd rfl h
    · rename_i hb
      rw [if_neg hb]
      unfold Change.baseSeverity
      split <;> rename_i h1 <;> simp [h1]
  case typeChanged p o n =>
    split at h
    · exact absurd rfl h
    · rename_i hb
      rw [if_neg hb]
      unfold Change.baseSeverity
      split <;> rename_i h1 <;> simp [h1]
  case literalRemoved p vs => simp [Change.fix]
  all_goals (unfold Change.baseSeverity; split <;> rename_i h1 <;> simp [h1])

example : severityOf [.variantAdded ["a"] "E" "X" (.int 1), .fieldRemoved ["b"] (.prim "int") (.int 0) true] = .warn := by
  decide +kernel
example : severityOf [.fieldAdded ["a"] (.prim "int") .none false, .fieldRemoved ["b"] (.prim "int") (.int 0) true] = .error := by
  decide +kernel
example : severityOf [.fieldAdded ["a"] (.prim "int") (.int 3) true, .typeChanged ["b"] (.prim "int") (.prim "float")] = .info := by
  decide +kernel
example : (Change.fieldRemoved ["b"] (.prim "int") (.int 0) true).severity ≠ .info := by decide +kernel

/-! ## C34 -/

/-- C34: `upgrade-schema` writes the file exactly when the check succeeds with changes that are all INFO; what is written is the
schema of the class. In all other cases (changes that are not INFO, or an exception) nothing is written. -/
theorem C34_iff (lower : Char → String) (old : STy) (ty : PyTy) (s : STy) :
    upgradeSchema lower old ty = .ok (some s) ↔
      ∃ cs, checker lower old ty = .ok cs ∧ (∀ c ∈ cs, c.severity = .info) ∧ materialize ty = .ok s := by
  unfold upgradeSchema
  simp only [bind, Except.bind, pure, Except.pure]
  cases h1 : checker lower old ty with
  | error e => simp
  | ok cs =>
    have hex : (∃ cs', (Except.ok cs : Except Err _) = .ok cs' ∧ (∀ c ∈ cs', c.severity = .info) ∧ materialize ty = .ok s) ↔
        ((∀ c ∈ cs, c.severity = .info) ∧ materialize ty = .ok s) := by
      constructor
      · rintro ⟨_, h, h'⟩; cases h; exact h'
      · exact fun h => ⟨cs, rfl, h⟩
    rw [hex]
    simp only
    have hiff : (severityOf cs).ge .warn = true ↔ ¬ ∀ c ∈ cs, c.severity = .info := by
      rw [← C26_info]
      cases severityOf cs <;> decide
    split
    · rename_i hw
      have := hiff.1 hw
      simp [this]
    · rename_i hw
      have h2 : ∀ c ∈ cs, c.severity = .info := by
        apply Classical.byContradiction
        intro hn
        exact hw (hiff.2 hn)
      cases h3 : materialize ty with
      | error e => simp
      | ok t => simp only [Except.ok.injEq, Option.some.injEq]; exact ⟨fun h => ⟨h2, h⟩, fun h => h.2⟩

/-- C34: in particular, if some change has severity WARN or ERROR the file is left alone -/
theorem C34_untouched (lower : Char → String) (old : STy) (ty : PyTy) (cs : List Change) (c : Change)
    (h : checker lower old ty = .ok cs) (hc : c ∈ cs) (hs : c.severity = .warn ∨ c.severity = .error) :
    upgradeSchema lower old ty = .ok .none := by
  cases h1 : upgradeSchema lower old ty with
  | error e =>
    unfold upgradeSchema at h1
    simp only [bind, Except.bind, pure, Except.pure, h] at h1
    split at h1
    · exact (nomatch h1)
    · rename_i hw
      exfalso
      apply hw
      have h2 := (C26_max cs (List.ne_nil_of_mem hc)).2 c hc
      simp only [Severity.ge, ge_iff_le, decide_eq_true_eq]
      rcases hs with hs | hs <;> rw [hs] at h2
      · exact h2
      · exact Nat.le_trans (by decide) h2
  | ok r =>
    cases r with
    | none => rfl
    | some s =>
      obtain ⟨cs', h2, h3, _⟩ := (C34_iff lower old ty s).1 h1
      rw [h] at h2
      cases h2
      rw [h3 c hc] at hs
      rcases hs with hs | hs <;> exact (nomatch hs)

/-- the class `C` of version 1 with fields `lr : float = 0.5` and `n : int` -/
def Ex.clsC : PyTy := .data "C" [.mk "lr" .float (some (.flt (.fin (1/2)))), .mk "n" .int .none] (some ⟨1, []⟩)
/-- its schema before `lr` was added -/
def Ex.oldC : STy := .struct "C" [("n", .mk "n" (.prim "int") .none false .none)] (some 1)
/-- its schema with `n : str` -/
def Ex.badC : STy := .struct "C" [("n", .mk "n" (.prim "str") .none false .none)] (some 1)
def Ex.lc (c : Char) : String := String.ofList [c.toLower]

-- a compatible schema is replaced
example : ∃ s, upgradeSchema Ex.lc Ex.oldC Ex.clsC = .ok (some s) := by
  have h : (match upgradeSchema Ex.lc Ex.oldC Ex.clsC with | .ok (some _) => true | _ => false) = true := by decide +kernel
  split at h
  · exact ⟨_, by assumption⟩
  · exact absurd h (by decide)
-- an incompatible one is not
example : ∃ cs c, checker Ex.lc Ex.badC Ex.clsC = .ok cs ∧ c ∈ cs ∧ (c.severity = .warn ∨ c.severity = .error) := by
  have h : (match checker Ex.lc Ex.badC Ex.clsC with
    | .ok [a, b] => decide (a.severity = .info) && decide (b.severity = .error) | _ => false) = true := by decide +kernel
  split at h
  · rename_i a b h1
    refine ⟨_, b, h1, by simp, .inr ?_⟩
    simp only [Bool.and_eq_true, decide_eq_true_eq] at h
    exact h.2
  · exact absurd h (by decide)

end HS
