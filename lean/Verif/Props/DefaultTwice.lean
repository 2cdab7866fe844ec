import Verif.Props.DefaultOmitted
import Verif.Props.RenameAdvice

/-!
# Several `ChangeDefault` rules for the same field: C22
-/

namespace HS

/-- once the value is there, later changes of the default leave it alone -/
theorem changeDefault_keeps {p : List String} (hp0 : p ≠ []) (hw : WEAK_REF ∉ p) (old : Val) (hold : old.isWeak = false) :
    ∀ (rs : List Rule) (sd sd' : Val), applyRules rs sd = .ok sd' →
    (∀ r ∈ rs, (∀ p' ∈ r.paths, Unrelated p' p ∧ WEAK_REF ∉ p') ∨ ∃ o n, r = .changeDefault p o n) →
    sd.at? p = some old → Solid sd p → sd'.at? p = some old ∧ Solid sd' p
  | [], sd, sd', h, _, ha, hs => by simp [applyRules] at h; subst h; exact ⟨ha, hs⟩
  | r :: rs, sd, sd', h, hr, ha, hs => by
    simp only [applyRules, bind, Except.bind] at h
    split at h
    · exact (nomatch h)
    rename_i sd1 h1
    have hstep : sd1.at? p = some old ∧ Solid sd1 p := by
      rcases hr r (List.mem_cons_self ..) with hu | ⟨o, n, rfl⟩
      · exact ⟨by rw [rule_frame h1 hw (fun p' hp' => (hu p' hp').1), ha],
          rule_solid h1 hp0 (fun p' hp' => ⟨(hu p' hp').1.notAbove, (hu p' hp').2⟩) hs⟩
      · have hren : (Rule.rename p p).apply sd = .ok sd1 := by
          obtain ⟨sdr, hrm⟩ := removePath_present hp0 ha
          simp only [Rule.apply, hrm, hold, bind, Except.bind] at h1 ⊢
          exact h1
        exact rename_solid hp0 hp0 hw ha (reachable_of_present ha) hren
    exact changeDefault_keeps hp0 hw old hold rs sd1 sd' h (fun s hs => hr s (List.mem_cons_of_mem _ hs)) hstep.1 hstep.2

/-- C22 with two or more rules: when the document leaves out the field, alone or with the objects around it, and the default was
changed at least twice since, the loaded object has the default from before the first change. -/
theorem C22_twice (c : DCfg) (n : String) (fs : List Fld) (vi : VerInfo) (ig : Bool)
    (d : List (String × Val)) (v0 : Int) (hver : dget d "version" = some (.int v0)) (p : List String) (t : PyTy)
    (hf : FieldAtU fs p t) (hn : NAME_KEY ∉ p) (hw : WEAK_REF ∉ p) (hp : p.head? ≠ some "version")
    (old new old2 new2 : Val) (hold : old.isWeak = false) (pre mid post : List Rule)
    (hrules : vi.rulesFrom v0 = pre ++ .changeDefault p old new :: (mid ++ .changeDefault p old2 new2 :: post))
    (hother : ∀ r ∈ pre ++ mid, ∀ p' ∈ r.paths, Unrelated p' p ∧ WEAK_REF ∉ p')
    (hpost : ∀ r ∈ post, (∀ p' ∈ r.paths, Unrelated p' p ∧ WEAK_REF ∉ p') ∨ ∃ o n, r = .changeDefault p o n)
    (hs : Reachable (.dict d) p) (habs : (Val.dict d).at? p = .none) (v : Val) (es : List Ev)
    (h : fromDict c (.data n fs (some vi)) ig "" (.dict d) = .ok (v, es)) :
    ∃ y es' path, v.attr p = some y ∧ fromDict c t false path old = .ok (y, es') := by
  have hp0 : p ≠ [] := by cases hf <;> simp
  have hres : WEAK_REF ∉ p.dropLast := fun hm => hw (List.dropLast_subset _ hm)
  cases hvh : versionHook c.allowMissing vi (.dict d) with
  | error e => simp [fromDict, hvh, bind, Except.bind] at h
  | ok w =>
    rw [fromDict_upgraded (show Upgraded c (some vi) (.dict d) w from hvh)] at h
    have hrun := versionHook_rules hver hvh
    rw [hrules, applyRules_append] at hrun
    obtain ⟨e1, _, e3⟩ := at_ddel_version (d := d) hp0 hp
    simp only [bind, Except.bind] at hrun
    split at hrun
    · exact (nomatch hrun)
    rename_i sd1 h1
    have hpre : ∀ r ∈ pre, ∀ p' ∈ r.paths, Unrelated p' p ∧ WEAK_REF ∉ p' := fun r hr => hother r (by simp [hr])
    obtain ⟨f1, _⟩ := applyRules_frame hw hp0 h1 hpre
    have hr1 := applyRules_reachable hp0 hw h1 (fun r hr p' hp' => (hpre r hr p' hp').1.notAbove) (e3 hs)
    obtain ⟨sd2, h2, ha2, _⟩ := C21_changeDefault_absent sd1 old new p hp0 hres hr1 (.inl (by rw [f1, e1, habs]))
    simp only [applyRules, bind, Except.bind, h2] at hrun
    rw [applyRules_append] at hrun
    simp only [bind, Except.bind] at hrun
    split at hrun
    · exact (nomatch hrun)
    rename_i sd3 h3
    obtain ⟨f3, _⟩ := applyRules_frame hw hp0 h3 (fun r hr => hother r (by simp [hr]))
    have ha3 : sd3.at? p = some old := by rw [f3, ha2]
    simp only [applyRules, bind, Except.bind] at hrun
    split at hrun
    · exact (nomatch hrun)
    rename_i sd4 h4
    have hren : (Rule.rename p p).apply sd3 = .ok sd4 := by
      obtain ⟨sdr, hr⟩ := removePath_present hp0 ha3
      simp only [Rule.apply, hr, hold, bind, Except.bind] at h4 ⊢
      exact h4
    obtain ⟨g1, g2⟩ := rename_solid hp0 hp0 hw ha3 (reachable_of_present ha3) hren
    obtain ⟨k1, k2⟩ := changeDefault_keeps hp0 hw old hold post sd4 w hrun hpost g1 g2
    exact fromDict_attr c hf n ig "" w v es old h k2 k1 hold hn

/-- the hypotheses hold for the document of `C22_twice_false` -/
example : Reachable (.dict [("version", .int 0)]) ["net", "n"] := by
  intro q hq hne x hx
  cases q with
  | nil => cases hx; rfl
  | cons k q =>
    obtain ⟨rfl, _⟩ := List.cons_prefix_cons.1 hq
    simp [dget] at hx

end HS
