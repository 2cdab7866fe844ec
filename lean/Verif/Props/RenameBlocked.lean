import Verif.Props.Rewrite
/-! # Renames below a value that is no object

`_insert` (`hyperstate/schema/rewrite_rule.py:215-233`) stops silently at a value that is no dict, when `_remove`
(`hyperstate/schema/rewrite_rule.py:189-201`) has already taken the value away. -/
namespace HS

theorem insertPath_blocked (value : Val) (cn : Bool) (w : Val) (hw : w.isDict = false) (k : String) (ks : List String) :
    ∀ (q : List String) (sd : Val), q ≠ [] → WEAK_REF ∉ q → sd.at? q = some w →
      ∃ sd', insertPath value cn sd (q ++ k :: ks) = .ok sd' ∧ sd'.at? q = some w
  | [], _, hq, _, _ => absurd rfl hq
  | [a], sd, _, _, h => by
    cases sd with
    | dict d =>
      simp only [Val.at?] at h
      cases hg : dget d a with
      | none => rw [hg] at h; exact (nomatch h)
      | some x =>
        rw [hg] at h
        have hx : x = w := by simpa [Val.at?] using h
        subst hx
        refine ⟨.dict d, ?_, by simp [Val.at?, hg]⟩
        rw [List.singleton_append, insertPath_cons_dict, hg]
        cases x with
        | dict dc => exact (nomatch hw)
        | _ => rfl
    | _ => exact (nomatch h)
  | a :: b :: q, sd, _, hr, h => by
    cases sd with
    | dict d =>
      simp only [Val.at?] at h
      cases hg : dget d a with
      | none => rw [hg] at h; exact (nomatch h)
      | some x =>
        rw [hg] at h
        cases x with
        | dict dc =>
          have h' : (Val.dict dc).at? (b :: q) = some w := by simpa [Val.at?] using h
          have hr' : WEAK_REF ∉ b :: q := fun hm => hr (List.mem_cons_of_mem _ hm)
          rw [← at?_weakStrip cn dc hr' (List.cons_ne_nil _ _)] at h'
          obtain ⟨c', e1, e2⟩ := insertPath_blocked value cn w hw k ks (b :: q) _ (List.cons_ne_nil _ _) hr' h'
          rw [List.cons_append] at e1
          have hh : dhas d a = true := by simp [dhas, hg]
          refine ⟨.dict (dset d a c'), ?_, by simp only [Val.at?, dget_dset_self]; exact e2⟩
          rw [List.cons_append, List.cons_append, insertPath_cons_dict, hg]
          simp only [Option.getD, e1, hh, if_true]
        | _ => exact (nomatch h)
    | _ => exact (nomatch h)

theorem at?_below {w : Val} (hw : w.isDict = false) (k : String) (ks : List String) : ∀ {q : List String} {sd : Val}, sd.at? q = some w →
    sd.at? (q ++ k :: ks) = none := by
  intro q
  induction q with
  | nil =>
    intro sd h
    simp only [Val.at?, Option.some.injEq] at h
    subst h
    cases sd <;> first | rfl | exact (nomatch hw)
  | cons a q ih =>
    intro sd h
    cases sd with
    | dict d =>
      simp only [Val.at?, List.cons_append] at h ⊢
      cases hg : dget d a with
      | none => rfl
      | some x => rw [hg] at h; exact ih h
    | _ => exact (nomatch h)

/-- C18, the failing case in general: if a proper ancestor of the new name holds something that is no object, a rename always succeeds
and the value is neither at the old nor at the new place afterwards. -/
theorem C18_blocked_false (sd v w : Val) (old q : List String) (k : String) (ks : List String) (ho : old ≠ []) (hq : q ≠ [])
    (hro : WEAK_REF ∉ old) (hrq : WEAK_REF ∉ q) (hu : Unrelated old q) (hold : sd.at? old = some v) (hat : sd.at? q = some w)
    (hw : w.isDict = false) :
    ∃ sd', (Rule.rename old (q ++ k :: ks)).apply sd = .ok sd' ∧ sd'.at? (q ++ k :: ks) = none ∧ sd'.at? old = none ∧ sd'.at? q = some w := by
  obtain ⟨sd1, e1⟩ := removePath_present ho hold
  obtain ⟨-, -, e2, e3, -⟩ := removePath_spec e1
  have hat1 : sd1.at? q = some w := by rw [e3 q hu, hat]
  obtain ⟨sd', e4, e5⟩ := insertPath_blocked v true w hw k ks q sd1 hq hrq hat1
  refine ⟨sd', ?_, at?_below hw k ks e5, ?_, e5⟩
  · simp only [Rule.apply, e1, bind, Except.bind, e4]
  · have hu' : Unrelated (q ++ k :: ks) old := by
      constructor
      · exact fun h => hu.2 ((List.prefix_append q _).trans h)
      · intro h
        rcases List.prefix_or_prefix_of_prefix h (List.prefix_append q (k :: ks)) with h | h
        · exact hu.1 h
        · exact hu.2 h
    rw [insertPath_frame v true e4 old hu' hro, e2]

/-- The hypotheses are met: `lr` becomes `opt.sgd.lr`, and `opt.sgd` is None. -/
example : (Val.dict [("lr", .int 3), ("opt", .dict [("sgd", .none)])]).at? ["lr"] = some (.int 3) ∧
    (Val.dict [("lr", .int 3), ("opt", .dict [("sgd", .none)])]).at? ["opt", "sgd"] = some .none ∧
    Unrelated ["lr"] ["opt", "sgd"] ∧ WEAK_REF ∉ ["lr"] ∧ WEAK_REF ∉ ["opt", "sgd"] :=
  ⟨rfl, rfl, by simp [Unrelated], by decide, by decide⟩
end HS
