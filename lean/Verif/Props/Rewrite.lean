import Verif.Model.Rewrite
import Verif.Spec.Doc
import Verif.Proofs.Rewrite
/-!
# Properties C16, C18-C21, C23: rewrite rules and upgrades on documents
-/
namespace HS

/-! ## C18 RenameField -/

/-- C18, moving: a value at `old` is found at `new` afterwards, everything unrelated to both paths is unchanged, and
nothing is left at `old` (unless one of the paths contains the other). The ancestors of `new` that exist (and do not
belong to the moved value) must be objects: see `C18_rename_false`. -/
theorem C18_rename_moves_partial (sd v : Val) (old new : List String) (ho : old ≠ []) (hn : new ≠ [])
    (hres : WEAK_REF ∉ new.dropLast) (hold : sd.at? old = some v)
    (hanc : ∀ q, q <+: new → q ≠ new → ¬ old <+: q → ∀ w, sd.at? q = some w → w.isDict = true) :
    ∃ sd', (Rule.rename old new).apply sd = .ok sd' ∧ sd'.at? new = some v ∧
      (Unrelated old new → sd'.at? old = none ∨ WEAK_REF ∈ old) ∧
      ∀ q, Unrelated old q → Unrelated new q → WEAK_REF ∉ q → sd'.at? q = sd.at? q := by
  obtain ⟨sd1, h1⟩ := removePath_present ho hold
  obtain ⟨_, _, hgone, hframe, hdict⟩ := removePath_spec h1
  have hreach : Reachable sd1 new := by
    intro q hq hne w hw
    by_cases hpre : old <+: q
    · obtain ⟨t, rfl⟩ := hpre
      rw [at?_append, hgone] at hw; simp at hw
    · by_cases hpre2 : q <+: old
      · have hqo : q ≠ old := by rintro rfl; exact hpre (List.prefix_rfl)
        have := hdict q hpre2 hqo
        rw [hw] at this
        cases hs : sd.at? q with
        | none => simp [hs] at this
        | some u => simp [hs] at this; rw [this]; exact hanc q hq hne hpre u hs
      · rw [hframe q ⟨hpre, hpre2⟩] at hw
        exact hanc q hq hne hpre w hw
  obtain ⟨sd', h2, hat⟩ := insertPath_reachable v true hn hres hreach
  refine ⟨sd', ?_, hat, ?_, ?_⟩
  · simp [Rule.apply, h1, h2, bind, Except.bind]
  · intro hu
    by_cases hw : WEAK_REF ∈ old
    · exact Or.inr hw
    · left; rw [insertPath_frame v true h2 old hu.symm hw, hgone]
  · intro q hq1 hq2 hw
    rw [insertPath_frame v true h2 q hq2 hw, hframe q hq1]

/-- hypotheses of `C18_rename_moves_partial` are met by moving `optimizer` to `optimizer.optimizer` -/
example : ∃ sd v, sd.at? ["optimizer"] = some v ∧
    (∀ q, q <+: ["optimizer", "optimizer"] → q ≠ ["optimizer", "optimizer"] → ¬ ["optimizer"] <+: q →
      ∀ w, sd.at? q = some w → w.isDict = true) ∧
    (Rule.rename ["optimizer"] ["optimizer", "optimizer"]).apply sd
      = .ok (.dict [("lr", .int 3), ("optimizer", .dict [("optimizer", .str "sgd")])]) := by
  refine ⟨.dict [("lr", .int 3), ("optimizer", .str "sgd")], .str "sgd", rfl, ?_, rfl⟩
  intro q hq hne hnp w hw
  match q, hq with
  | [], _ => simp at hw; subst hw; rfl
  | [a], h => exact absurd (by simpa using h) (by rintro rfl; exact hnp (List.prefix_rfl))
  | [a, b], h => simp at h; exact absurd (by simp [h]) hne
  | a :: b :: c :: q, h => simp at h

/-- C18, absent: a document in which nothing is stored at `old` is not changed. -/
theorem C18_rename_absent (sd : Val) (old new : List String) (ho : old ≠ []) (hd : sd.isDict = true)
    (hw : Walkable sd old) (hold : sd.at? old = none) : (Rule.rename old new).apply sd = .ok sd := by
  simp [Rule.apply, removePath_absent ho hd hw hold, bind, Except.bind, pure, Except.pure]

example : (Val.dict [("a", .none)]).isDict = true ∧ Walkable (.dict [("a", .none)]) ["a", "b"] ∧
    (Val.dict [("a", .none)]).at? ["a", "b"] = none := by
  refine ⟨rfl, ?_, rfl⟩
  intro q hq hne hn v hv
  match q, hq with
  | [], _ => exact absurd rfl hn
  | [a], h => simp at h; subst h; simp [dget] at hv; exact Or.inr hv.symm
  | [a, b], h => simp at h; exact absurd (by simp [h]) hne
  | a :: b :: c :: q, h => simp at h

/-- C18 is false without the ancestor hypothesis: under a parent that is `None` the value is lost. -/
theorem C18_rename_false : ∃ sd v old new, sd.at? old = some v ∧
    ∃ sd', (Rule.rename old new).apply sd = .ok sd' ∧ sd'.at? new = none ∧ sd'.at? old = none :=
  ⟨.dict [("lr", .int 3), ("opt", .none)], .int 3, ["lr"], ["opt", "lr"], rfl,
    .dict [("opt", .none)], rfl, rfl, rfl⟩

/-- C18, renaming back: every path that is not a proper ancestor of one of the two gets back what it held. -/
theorem C18_rename_back (sd v : Val) (old new : List String) (ho : old ≠ []) (hn : new ≠ [])
    (hro : WEAK_REF ∉ old) (hrn : WEAK_REF ∉ new) (hu : Unrelated old new)
    (hold : sd.at? old = some v) (hnew : sd.at? new = none) (hanc : Reachable sd new) :
    ∃ sd' sd'', (Rule.rename old new).apply sd = .ok sd' ∧ (Rule.rename new old).apply sd' = .ok sd'' ∧
      ∀ q, ¬ (q <+: old ∧ q ≠ old) → ¬ (q <+: new ∧ q ≠ new) → WEAK_REF ∉ q → sd''.at? q = sd.at? q := by
  have dl : ∀ {p : List String}, WEAK_REF ∉ p → WEAK_REF ∉ p.dropLast :=
    fun h hm => h ((List.dropLast_prefix _).subset hm)
  obtain ⟨sd', h1, hat, hgone, hfr⟩ := C18_rename_moves_partial sd v old new ho hn (dl hrn) hold
    (fun q hq hne _ w hw => hanc q hq hne w hw)
  have hreachNew : Reachable sd' new := reachable_of_present hat
  have hreachOld : Reachable sd old := reachable_of_present hold
  obtain ⟨sd'', h2, hat2, hgone2, hfr2⟩ := C18_rename_moves_partial sd' v new old hn ho (dl hro) hat (by
    intro q hq hne hnq w hw
    by_cases hqn : q <+: new
    · exact hreachNew q hqn (by rintro rfl; exact hu.2 hq) w hw
    · by_cases hoq : old <+: q
      · exact absurd (hq.eq_of_length_le hoq.length_le) hne
      · have hwq : WEAK_REF ∉ q := fun hm => hro (hq.subset hm)
        -- `q` is a proper prefix of `old`, unrelated to `new`: unchanged by insertion, kept an object by removal
        have hsame : (sd'.at? q).map Val.isDict = (sd.at? q).map Val.isDict := by
          obtain ⟨sd1, hr⟩ := removePath_present ho hold
          have hspec := removePath_spec hr
          have hap : insertPath v true sd1 new = .ok sd' := by
            simpa [Rule.apply, hr, bind, Except.bind] using h1
          rw [insertPath_frame v true hap q ⟨hnq, hqn⟩ hwq]
          exact hspec.2.2.2.2 q hq hne
        rw [hw] at hsame
        cases hs : sd.at? q with
        | none => simp [hs] at hsame
        | some u => simp [hs] at hsame; rw [hsame]; exact hreachOld q hq hne u hs)
  refine ⟨sd', sd'', h1, h2, ?_⟩
  intro q hq1 hq2 hwq
  by_cases hoq : old <+: q
  · obtain ⟨t, rfl⟩ := hoq
    rw [at?_append, at?_append, hat2, hold]
  · by_cases hnq : new <+: q
    · obtain ⟨t, rfl⟩ := hnq
      rw [at?_append, at?_append, hnew]
      have := (hgone2 hu.symm).resolve_right hrn
      rw [this]
    · have hqo : ¬ q <+: old := fun h => hq1 ⟨h, by rintro rfl; exact hoq List.prefix_rfl⟩
      have hqn : ¬ q <+: new := fun h => hq2 ⟨h, by rintro rfl; exact hnq List.prefix_rfl⟩
      rw [hfr2 q ⟨hnq, hqn⟩ ⟨hoq, hqo⟩ hwq, hfr q ⟨hoq, hqo⟩ ⟨hnq, hqn⟩ hwq]

example : (Val.dict [("lr", .int 3), ("b", .dict [])]).at? ["lr"] = some (.int 3) ∧
    Unrelated ["lr"] ["b", "rate"] ∧ (Val.dict [("lr", .int 3), ("b", .dict [])]).at? ["b", "rate"] = none ∧
    Reachable (.dict [("lr", .int 3), ("b", .dict [])]) ["b", "rate"] := by
  refine ⟨rfl, by simp [Unrelated], rfl, ?_⟩
  intro q hq hne v hv
  match q, hq with
  | [], _ => simp at hv; subst hv; rfl
  | [a], h => simp at h; subst h; simp [dget] at hv; subst hv; rfl
  | [a, b], h => simp at h; exact absurd (by simp [h]) hne
  | a :: b :: c :: q, h => simp at h

/-! ## C19 DeleteField -/

/-- C19: afterwards nothing is found at `p` or below, unrelated paths are unchanged, a document without `p` is
unchanged, and a second application changes nothing. Missing: documents in which an ancestor of `p` is neither an object nor None; there
the rule may raise (`C19_shape_false`), and `C19_any` applies when it does not. -/
theorem C19_delete_partial (sd : Val) (p : List String) (hp : p ≠ []) (hd : sd.isDict = true) (hw : Walkable sd p) :
    ∃ sd', (Rule.delete p).apply sd = .ok sd' ∧ (∀ t, sd'.at? (p ++ t) = none) ∧
      (∀ q, Unrelated p q → sd'.at? q = sd.at? q) ∧ (sd.at? p = none → sd' = sd) ∧
      (Rule.delete p).apply sd' = .ok sd' := by
  have key : ∃ sd' r, removePath sd p = .ok (sd', r) := by
    cases h : sd.at? p with
    | none => exact ⟨_, _, removePath_absent hp hd hw h⟩
    | some v => obtain ⟨sd', h'⟩ := removePath_present hp h; exact ⟨_, _, h'⟩
  obtain ⟨sd', r, h⟩ := key
  obtain ⟨h1, h2, h3, h4, h5⟩ := removePath_spec h
  have hd' : sd'.isDict = true := by
    have := h5 [] (by simp) (Ne.symm hp)
    simpa [hd] using this
  have hw' : Walkable sd' p := by
    intro q hq hne hq0 v hv
    by_cases hr : r = none
    · rw [h2 hr] at hv; exact hw q hq hne hq0 v hv
    · obtain ⟨u, hu⟩ := Option.ne_none_iff_exists'.1 hr
      have hre : Reachable sd p := reachable_of_present (v := u) (by rw [← h1, hu])
      exact Or.inl (reachable_removePath h hre q hq hne v hv)
  refine ⟨sd', ?_, ?_, h4, ?_, ?_⟩
  · simp [Rule.apply, h, bind, Except.bind, pure, Except.pure]
  · intro t; rw [at?_append, h3]; rfl
  · intro hn; exact h2 (by rw [h1, hn])
  · simp [Rule.apply, removePath_absent hp hd' hw' h3, bind, Except.bind, pure, Except.pure]

/-- C19 for every document: whenever the rule does not raise, the same holds. -/
theorem C19_any (sd sd' : Val) (p : List String) (h : (Rule.delete p).apply sd = .ok sd') :
    (∀ t, sd'.at? (p ++ t) = none) ∧ (∀ q, Unrelated p q → sd'.at? q = sd.at? q) ∧ (sd.at? p = none → sd' = sd) ∧
      (Rule.delete p).apply sd' = .ok sd' := by
  simp only [Rule.apply, bind, Except.bind, pure, Except.pure] at h
  split at h
  · simp at h
  · rename_i x hx
    obtain ⟨s, r⟩ := x
    simp only [Except.ok.injEq] at h
    subst h
    have hp : p ≠ [] := by rintro rfl; simp [removePath] at hx
    obtain ⟨h1, h2, h3, h4, h5⟩ := removePath_spec hx
    refine ⟨fun t => by rw [at?_append, h3]; rfl, h4, fun hn => h2 (by rw [h1, hn]), ?_⟩
    cases r with
    | none =>
      have := h2 rfl
      subst this
      simp [Rule.apply, hx, bind, Except.bind, pure, Except.pure]
    | some u =>
      have hre : Reachable sd p := reachable_of_present (v := u) h1.symm
      have hd' : s.isDict = true := by
        have := h5 [] (by simp) (Ne.symm hp)
        simpa [Reachable.isDict hp hre] using this
      have hw' : Walkable s p := fun q hq hne _ v hv => Or.inl (reachable_removePath hx hre q hq hne v hv)
      simp [Rule.apply, removePath_absent hp hd' hw' h3, bind, Except.bind, pure, Except.pure]

/-- C19 is false of documents with a number in the place of an object: the rule raises although there is nothing to delete. -/
theorem C19_shape_false (i : Int) : (Val.dict [("a", .int i)]).at? ["a", "b", "c"] = none ∧
    (Rule.delete ["a", "b", "c"]).apply (.dict [("a", .int i)]) = .error .typeError := ⟨rfl, rfl⟩

example : (Rule.delete ["a", "b"]).apply (.dict [("a", .int 1)]) = .ok (.dict [("a", .int 1)]) := rfl

example : (Rule.delete ["a", "b"]).apply (.dict [("a", .dict [("b", .int 1), ("c", .int 2)])])
    = .ok (.dict [("a", .dict [("c", .int 2)])]) := rfl

/-! ## C20 MapFieldValue -/

/-- C20, present: exactly the value at `p` is replaced by its image, and a failing function makes the rule fail. -/
theorem C20_map_present (sd v : Val) (p : List String) (f : Val → Except Err Val) (r : Option String)
    (hp : p ≠ []) (hres : WEAK_REF ∉ p.dropLast) (hat : sd.at? p = some v) :
    (∀ w, f v = .ok w → ∃ sd', (Rule.mapValue p f r).apply sd = .ok sd' ∧ sd'.at? p = some w ∧
      ∀ q, Unrelated p q → WEAK_REF ∉ q → sd'.at? q = sd.at? q) ∧
    (∀ e, f v = .error e → (Rule.mapValue p f r).apply sd = .error e) := by
  obtain ⟨sd1, h1⟩ := removePath_present hp hat
  have hspec := removePath_spec h1
  constructor
  · intro w hf
    obtain ⟨sd', h2, hat'⟩ := insertPath_reachable w true hp hres
      (reachable_removePath h1 (reachable_of_present hat))
    refine ⟨sd', by simp [Rule.apply, h1, hf, h2, bind, Except.bind], hat', ?_⟩
    intro q hq hw
    rw [insertPath_frame w true h2 q hq hw, hspec.2.2.2.1 q hq]
  · intro e hf
    simp [Rule.apply, h1, hf, bind, Except.bind]

/-- C20, absent: whatever the function, the document is unchanged. -/
theorem C20_map_absent_partial (sd : Val) (p : List String) (f : Val → Except Err Val) (r : Option String)
    (hp : p ≠ []) (hd : sd.isDict = true) (hw : Walkable sd p) (hat : sd.at? p = none) :
    (Rule.mapValue p f r).apply sd = .ok sd := by
  simp [Rule.apply, removePath_absent hp hd hw hat, bind, Except.bind, pure, Except.pure]

/-- C20, absent, for every document: the function is not called (the outcome is the same for every function), and the document is
unchanged unless the rule raises. -/
theorem C20_not_called (sd : Val) (p : List String) (f g : Val → Except Err Val) (r r' : Option String) (hat : sd.at? p = none) :
    (Rule.mapValue p f r).apply sd = (Rule.mapValue p g r').apply sd ∧
      ∀ sd', (Rule.mapValue p f r).apply sd = .ok sd' → sd' = sd := by
  cases h : removePath sd p with
  | error e => simp [Rule.apply, h, bind, Except.bind]
  | ok x =>
    obtain ⟨s, o⟩ := x
    have hs := removePath_spec h
    have ho : o = none := by rw [hs.1, hat]
    subst ho
    have := hs.2.1 rfl
    subst this
    simp [Rule.apply, h, bind, Except.bind, pure, Except.pure, eq_comm]

/-- C20 is false of documents with a number in the place of an object: the rule raises although the function cannot fail. -/
theorem C20_shape_false (i : Int) : (Val.dict [("a", .int i)]).at? ["a", "b", "c"] = none ∧
    (Rule.mapValue ["a", "b", "c"] .ok none).apply (.dict [("a", .int i)]) = .error .typeError := ⟨rfl, rfl⟩

example : (Rule.mapValue ["a"] (fun v => .ok (.list [v])) none).apply (.dict [("a", .int 1), ("b", .int 2)])
    = .ok (.dict [("b", .int 2), ("a", .list [.int 1])]) := rfl

/-! ## C21 AddDefault, ChangeDefault -/

/-- C21, AddDefault keeps what the document sets. -/
theorem C21_addDefault_present (sd v dflt : Val) (p : List String) (hp : p ≠ []) (hres : WEAK_REF ∉ p.dropLast)
    (hat : sd.at? p = some v) :
    ∃ sd', (Rule.addDefault p dflt).apply sd = .ok sd' ∧ sd'.at? p = some v ∧
      ∀ q, Unrelated p q → WEAK_REF ∉ q → sd'.at? q = sd.at? q := by
  obtain ⟨sd1, h1⟩ := removePath_present hp hat
  have hspec := removePath_spec h1
  obtain ⟨sd', h2, hat'⟩ := insertPath_reachable v false hp hres
    (reachable_removePath h1 (reachable_of_present hat))
  refine ⟨sd', by simp [Rule.apply, h1, h2, bind, Except.bind], hat', ?_⟩
  intro q hq hw
  rw [insertPath_frame v false h2 q hq hw, hspec.2.2.2.1 q hq]

theorem Reachable.walkable {sd : Val} {p : List String} (h : Reachable sd p) : Walkable sd p :=
  fun q hq hne _ v hv => Or.inl (h q hq hne v hv)

/-- C21, AddDefault fills in a missing field. -/
theorem C21_addDefault_absent (sd dflt : Val) (p : List String) (hp : p ≠ []) (hres : WEAK_REF ∉ p.dropLast)
    (hr : Reachable sd p) (hat : sd.at? p = none) :
    ∃ sd', (Rule.addDefault p dflt).apply sd = .ok sd' ∧ sd'.at? p = some dflt ∧
      ∀ q, Unrelated p q → WEAK_REF ∉ q → sd'.at? q = sd.at? q := by
  have h1 := removePath_absent hp (hr.isDict hp) hr.walkable hat
  obtain ⟨sd', h2, hat'⟩ := insertPath_reachable dflt false hp hres hr
  refine ⟨sd', by simp [Rule.apply, h1, h2, bind, Except.bind], hat', ?_⟩
  intro q hq hw
  exact insertPath_frame dflt false h2 q hq hw

/-- C21, ChangeDefault keeps what the document sets. -/
theorem C21_changeDefault_present (sd v old new : Val) (p : List String) (hp : p ≠ [])
    (hres : WEAK_REF ∉ p.dropLast) (hat : sd.at? p = some v) (hv : v.isWeak = false) :
    ∃ sd', (Rule.changeDefault p old new).apply sd = .ok sd' ∧ sd'.at? p = some v ∧
      ∀ q, Unrelated p q → WEAK_REF ∉ q → sd'.at? q = sd.at? q := by
  obtain ⟨sd1, h1⟩ := removePath_present hp hat
  have hspec := removePath_spec h1
  obtain ⟨sd', h2, hat'⟩ := insertPath_reachable v true hp hres
    (reachable_removePath h1 (reachable_of_present hat))
  refine ⟨sd', by simp [Rule.apply, h1, h2, hv, bind, Except.bind], hat', ?_⟩
  intro q hq hw
  rw [insertPath_frame v true h2 q hq hw, hspec.2.2.2.1 q hq]

/-- C21, ChangeDefault fills in the old default where the document sets nothing (or where only a weak object, created
by an earlier rule, is found). -/
theorem C21_changeDefault_absent (sd old new : Val) (p : List String) (hp : p ≠ []) (hres : WEAK_REF ∉ p.dropLast)
    (hr : Reachable sd p) (hat : sd.at? p = none ∨ ∃ v, sd.at? p = some v ∧ v.isWeak = true) :
    ∃ sd', (Rule.changeDefault p old new).apply sd = .ok sd' ∧ sd'.at? p = some old ∧
      ∀ q, Unrelated p q → WEAK_REF ∉ q → sd'.at? q = sd.at? q := by
  rcases hat with hat | ⟨v, hat, hv⟩
  · have h1 := removePath_absent hp (hr.isDict hp) hr.walkable hat
    obtain ⟨sd', h2, hat'⟩ := insertPath_reachable old false hp hres hr
    refine ⟨sd', by simp [Rule.apply, h1, h2, bind, Except.bind], hat', ?_⟩
    intro q hq hw
    exact insertPath_frame old false h2 q hq hw
  · obtain ⟨sd1, h1⟩ := removePath_present hp hat
    have hspec := removePath_spec h1
    obtain ⟨sd', h2, hat'⟩ := insertPath_reachable old false hp hres (reachable_removePath h1 hr)
    refine ⟨sd', by simp [Rule.apply, h1, h2, hv, bind, Except.bind], hat', ?_⟩
    intro q hq hw
    rw [insertPath_frame old false h2 q hq hw, hspec.2.2.2.1 q hq]

example : (Rule.changeDefault ["net", "nlayer"] (.int 1) (.int 2)).apply (.dict [("steps", .int 5)])
    = .ok (.dict [("steps", .int 5), ("net", .dict [(WEAK_REF, .bool true), ("nlayer", .int 1)])]) := rfl

/-- C21, weak marks: an ancestor that had to be created only to hold a default carries the weak mark. -/
theorem insertPath_weak_mark (value : Val) : ∀ (p : List String) (sd sd' : Val),
    insertPath value false sd p = .ok sd' → WEAK_REF ∉ p →
    ∀ q, q <+: p → q ≠ p → sd.at? q = none → sd'.at? q ≠ none → sd'.at? (q ++ [WEAK_REF]) = some (.bool true) := by
  intro p
  induction p with
  | nil => intro sd sd' h; simp [insertPath] at h
  | cons k ks ih =>
    intro sd sd' h hwp q hq hne hq0 hq1
    cases q with
    | nil => simp at hq0
    | cons k2 q =>
      obtain ⟨rfl, hq'⟩ := List.cons_prefix_cons.1 hq
      have hne' : q ≠ ks := by rintro rfl; exact hne rfl
      cases ks with
      | nil => simp at hq'; exact absurd hq' hne'
      | cons k' ks =>
        cases hd : sd.isDict
        · exfalso
          cases sd <;> simp_all [insertPath, pyGetItem, Val.isDict, bind, Except.bind]
        obtain ⟨d, rfl⟩ := (isDict_iff sd).1 hd
        rw [insertPath_cons_dict] at h
        cases hc : (dget d k2).getD (freshObj false) <;> simp only [hc] at h <;>
          try (cases h; exact absurd hq0 hq1)
        rename_i dc
        simp only [Bool.false_and, Bool.false_eq_true, if_false] at h
        split at h
        · rename_i c' hins
          cases h
          simp only [List.cons_append, at?_dict_cons, dget_dset_self, Option.bind]
          simp only [at?_dict_cons, dget_dset_self, Option.bind] at hq1
          by_cases hqnil : q = []
          · subst hqnil
            have hg : dget d k2 = none := by
              cases hg : dget d k2 with
              | none => rfl
              | some c => simp [hg] at hq0
            simp [hg, freshObj] at hc
            subst hc
            rw [List.nil_append]
            -- the marker is unrelated to the rest of the path
            have hk' : WEAK_REF ≠ k' := fun e => hwp (by simp [e])
            cases ks with
            | nil =>
              simp [insertPath, pySetItem] at hins; subst hins
              simp [dget_dset_ne _ _ (Ne.symm hk'), dget]
            | cons k'' ks =>
              rw [insertPath_cons_dict] at hins
              cases hc2 : (dget [(WEAK_REF, Val.bool true)] k').getD (freshObj false) <;> simp only [hc2] at hins <;>
                try (cases hins; simp [dget])
              split at hins
              · cases hins
                have hh : dhas [(WEAK_REF, Val.bool true)] k' = false := by simp [dhas, dget, hk']
                simp [hh, dget_dset_ne _ _ (Ne.symm hk'), dget]
              · simp at hins
          · have hnone : (Val.dict dc).at? q = none := by
              cases hg : dget d k2 with
              | none =>
                simp [hg] at hc
                rw [← hc]
                exact at?_freshObj false hqnil (fun hm => hwp (List.mem_cons_of_mem _ (hq'.subset hm)))
              | some c => simp [hg] at hc hq0; rw [← hc]; exact hq0
            exact ih _ _ hins (fun hm => hwp (List.mem_cons_of_mem _ hm)) q hq' hne' hnone hq1
        · simp at h

theorem C21_addDefault_marks_weak (sd sd' dflt : Val) (p : List String) (hp : p ≠ []) (hres : WEAK_REF ∉ p)
    (hr : Reachable sd p) (h : (Rule.addDefault p dflt).apply sd = .ok sd')
    (q : List String) (hq : q <+: p) (hne : q ≠ p) (hmiss : sd.at? q = none) :
    sd'.at? (q ++ [WEAK_REF]) = some (.bool true) := by
  have hat : sd.at? p = none := by
    obtain ⟨t, rfl⟩ := hq
    rw [at?_append, hmiss]; rfl
  have h1 := removePath_absent hp (hr.isDict hp) hr.walkable hat
  have h2 : insertPath dflt false sd p = .ok sd' := by
    simpa [Rule.apply, h1, bind, Except.bind] using h
  obtain ⟨sd2, h3, hat'⟩ := insertPath_reachable dflt false hp
    (fun hm => hres ((List.dropLast_prefix _).subset hm)) hr
  rw [h2] at h3; cases h3
  apply insertPath_weak_mark dflt p sd sd' h2 hres q hq hne hmiss
  obtain ⟨t, rfl⟩ := hq
  intro hnone
  rw [at?_append, hnone] at hat'
  simp at hat'

/-- C21, un-marking: an ordinary insertion at `p` leaves no weak mark on any object on the way to `p`. -/
theorem C21_insert_unmarks (value : Val) : ∀ (p : List String) (sd sd' : Val),
    insertPath value true sd p = .ok sd' → WEAK_REF ∉ p → sd'.at? p ≠ none →
    ∀ q, q <+: p → q ≠ p → q ≠ [] → sd'.at? (q ++ [WEAK_REF]) = none := by
  have base : ∀ (ks : List String) (dc : List (String × Val)) (c' : Val),
      dget dc WEAK_REF = none → WEAK_REF ∉ ks → ks ≠ [] → insertPath value true (.dict dc) ks = .ok c' →
      c'.at? [WEAK_REF] = none := by
    intro ks dc c' hdc hks hne h
    match ks with
    | [] => exact absurd rfl hne
    | [k] =>
      simp [insertPath, pySetItem] at h; subst h
      have : k ≠ WEAK_REF := fun e => hks (by simp [e])
      simp [dget_dset_ne _ _ this, hdc]
    | k :: k' :: ks =>
      have : k ≠ WEAK_REF := fun e => hks (by simp [e])
      rw [insertPath_cons_dict] at h
      cases hc : (dget dc k).getD (freshObj true) <;> simp only [hc] at h <;>
        try (cases h; simp [hdc])
      split at h
      · cases h
        have h0 : dget (if dhas dc k then dc else dset dc k (freshObj true)) WEAK_REF = none := by
          split <;> simp [hdc, dget_dset_ne _ _ this]
        simp [dget_dset_ne _ _ this, h0]
      · simp at h
  intro p
  induction p with
  | nil => intro sd sd' h; simp [insertPath] at h
  | cons k ks ih =>
    intro sd sd' h hwp hat q hq hne hqn
    cases q with
    | nil => exact absurd rfl hqn
    | cons k2 q =>
      obtain ⟨rfl, hq'⟩ := List.cons_prefix_cons.1 hq
      have hne' : q ≠ ks := by rintro rfl; exact hne rfl
      cases ks with
      | nil => simp at hq'; exact absurd hq' hne'
      | cons k' ks =>
        have hwp' : WEAK_REF ∉ k' :: ks := fun hm => hwp (List.mem_cons_of_mem _ hm)
        cases hd : sd.isDict
        · exfalso
          cases sd <;> simp_all [insertPath, pyGetItem, Val.isDict, bind, Except.bind]
        obtain ⟨d, rfl⟩ := (isDict_iff sd).1 hd
        rw [insertPath_cons_dict] at h
        cases hc : (dget d k2).getD (freshObj true) <;> simp only [hc] at h <;>
          try (
            cases h
            exfalso; apply hat
            cases hg : dget d k2 with
            | none => simp [hg, freshObj] at hc
            | some c => simp [hg] at hc; subst hc; simp [hg, Val.at?])
        rename_i dc
        split at h
        · rename_i c' hins
          cases h
          simp only [List.cons_append, at?_dict_cons, dget_dset_self, Option.bind] at hat ⊢
          by_cases hqnil : q = []
          · subst hqnil
            rw [List.nil_append]
            refine base _ _ _ ?_ hwp' (by simp) hins
            simp only [Bool.true_and]
            split
            · simp
            · rename_i hh; simpa [dhas] using hh
          · exact ih _ _ hins hwp' hat q hq' hne' hqnil
        · simp at h

example : insertPath (.int 4) true (.dict [("net", .dict [(WEAK_REF, .bool true), ("n", .int 1)])]) ["net", "m"]
    = .ok (.dict [("net", .dict [("n", .int 1), ("m", .int 4)])]) := rfl

/-- C21, below a parent that is `None` (an omitted optional object) AddDefault changes nothing. -/
theorem C21_addDefault_none_parent (value : Val) : ∀ (p q : List String) (sd : Val),
    q <+: p → q ≠ p → q ≠ [] → sd.at? q = some .none → (Rule.addDefault p value).apply sd = .ok sd := by
  have hrem : ∀ (p q : List String) (sd : Val), q <+: p → q ≠ p → q ≠ [] → sd.at? q = some .none →
      removePath sd p = .ok (sd, none) ∧ insertPath value false sd p = .ok sd := by
    intro p
    induction p with
    | nil => intro q sd hq hne; simp at hq; exact absurd hq hne
    | cons k ks ih =>
      intro q sd hq hne hqn hat
      cases q with
      | nil => exact absurd rfl hqn
      | cons k2 q =>
        obtain ⟨rfl, hq'⟩ := List.cons_prefix_cons.1 hq
        have hne' : q ≠ ks := by rintro rfl; exact hne rfl
        cases ks with
        | nil => simp at hq'; exact absurd hq' hne'
        | cons k' ks =>
          cases hd : sd.isDict
          · simp [at?_cons_of_not_dict _ hd] at hat
          obtain ⟨d, rfl⟩ := (isDict_iff sd).1 hd
          simp only [at?_dict_cons] at hat
          cases hg : dget d k2 with
          | none => simp [hg] at hat
          | some c =>
            simp [hg] at hat
            rw [removePath_cons_dict, insertPath_cons_dict]
            by_cases hqnil : q = []
            · subst hqnil; simp at hat; subst hat; simp [hg, Val.isNone]
            · have hcd : c.isDict = true := by
                cases q with
                | nil => exact absurd rfl hqnil
                | cons a q =>
                  cases hcd : c.isDict with
                  | true => rfl
                  | false => simp [at?_cons_of_not_dict _ hcd] at hat
              obtain ⟨dc, rfl⟩ := (isDict_iff c).1 hcd
              obtain ⟨h1, h2⟩ := ih q _ hq' hne' hqnil hat
              simp [hg, h1, h2, Val.isNone, dset_same hg, dhas]
  intro p q sd hq hne hqn hat
  obtain ⟨h1, h2⟩ := hrem p q sd hq hne hqn hat
  simp [Rule.apply, h1, h2, bind, Except.bind]

/-! ## C23 CheckValue, RejectValues -/

/-- what `_get` returns on a walkable document -/
theorem getPath_present {p : List String} : ∀ {sd v : Val}, p ≠ [] → sd.at? p = some v →
    getPath sd p = .ok (some v) := by
  induction p with
  | nil => intro sd v h; exact absurd rfl h
  | cons k ks ih =>
    intro sd v _ hat
    cases hd : sd.isDict
    · simp [at?_cons_of_not_dict _ hd] at hat
    obtain ⟨d, rfl⟩ := (isDict_iff sd).1 hd
    simp only [at?_dict_cons] at hat
    cases hg : dget d k with
    | none => simp [hg] at hat
    | some c =>
      simp [hg] at hat
      cases ks with
      | nil => simp at hat; subst hat; simp [getPath, pyIn, dhas, hg, pyGetItem, bind, Except.bind, pure, Except.pure]
      | cons k' ks => simp [getPath, pyIn, dhas, hg, pyGetItem, bind, Except.bind, ih (by simp) hat]

theorem getPath_absent {p : List String} : ∀ {sd : Val}, p ≠ [] → Reachable sd p → sd.at? p = none →
    getPath sd p = .ok none := by
  induction p with
  | nil => intro sd h; exact absurd rfl h
  | cons k ks ih =>
    intro sd hp hr hat
    obtain ⟨d, rfl⟩ := (isDict_iff sd).1 (hr.isDict hp)
    simp only [at?_dict_cons] at hat
    cases hg : dget d k with
    | none => cases ks <;> simp [getPath, pyIn, dhas, hg, bind, Except.bind, pure, Except.pure]
    | some c =>
      simp [hg] at hat
      cases ks with
      | nil => simp at hat
      | cons k' ks =>
        have hr' : Reachable c (k' :: ks) := by
          intro q hq hne v hv
          exact hr (k :: q) (by simpa using hq) (by simpa using hne) v (by simp [hg, hv])
        simp [getPath, pyIn, dhas, hg, pyGetItem, bind, Except.bind, ih (by simp) hr' hat]

/-- C23, CheckValue: on a present field it raises ValueError exactly for a (hashable) value outside the set;
otherwise the document is returned as it is. -/
theorem C23_check (sd v : Val) (p : List String) (allowed : List Val) (hp : p ≠ []) (hat : sd.at? p = some v)
    (hh : hashable v = true) :
    (Rule.checkValue p allowed).apply sd
      = if (∃ a ∈ allowed, pyEq v a = true) then .ok sd else .error .valueError := by
  simp only [Rule.apply, getPath_present hp hat, inSet, hh, if_true, bind, Except.bind]
  by_cases hm : pyMem v allowed = true
  · have : ∃ a ∈ allowed, pyEq v a = true := by simpa [pyMem] using hm
    simp [hm, this, pure, Except.pure]
  · have : ¬ ∃ a ∈ allowed, pyEq v a = true := by simpa [pyMem] using hm
    simp [hm, this, throw, throwThe, MonadExceptOf.throw]

theorem C23_check_absent (sd : Val) (p : List String) (allowed : List Val) (hp : p ≠ []) (hr : Reachable sd p)
    (hat : sd.at? p = none) : (Rule.checkValue p allowed).apply sd = .ok sd := by
  simp [Rule.apply, getPath_absent hp hr hat, bind, Except.bind, pure, Except.pure]

/-- C23, CheckValue never changes a document. -/
theorem C23_check_readonly (sd sd' : Val) (p : List String) (allowed : List Val)
    (h : (Rule.checkValue p allowed).apply sd = .ok sd') : sd' = sd := by
  simp only [Rule.apply, bind, Except.bind] at h
  cases hg : getPath sd p with
  | error e => simp [hg] at h
  | ok r =>
    simp only [hg] at h
    cases r with
    | none => simp [pure, Except.pure] at h; exact h.symm
    | some v =>
      simp only [] at h
      cases hi : inSet v allowed with
      | error e => simp [hi] at h
      | ok b =>
        cases b <;> simp [hi, throw, throwThe, MonadExceptOf.throw, pure, Except.pure] at h
        exact h.symm

example : (Rule.checkValue ["opt"] [.str "adam", .str "sgd"]).apply (.dict [("opt", .str "rms")])
    = .error .valueError := rfl

/-- C23, RejectValues: on a present field it raises ValueError exactly for a (hashable) disallowed value. The
"otherwise unchanged" half is false, see `C23_reject_false`. -/
theorem C23_reject_partial (sd v : Val) (p : List String) (bad : List Val) (hp : p ≠ []) (hat : sd.at? p = some v)
    (hh : hashable v = true) :
    ((∃ a ∈ bad, pyEq v a = true) → (Rule.rejectValues p bad).apply sd = .error .valueError) ∧
    (¬ (∃ a ∈ bad, pyEq v a = true) → ∃ sd', (Rule.rejectValues p bad).apply sd = .ok sd') := by
  obtain ⟨sd1, h1⟩ := removePath_present hp hat
  constructor
  · intro hm
    have : pyMem v bad = true := by simpa [pyMem] using hm
    simp [Rule.apply, h1, inSet, hh, this, bind, Except.bind, throw, throwThe, MonadExceptOf.throw]
  · intro hm
    have : pyMem v bad = false := by simpa [pyMem] using hm
    exact ⟨sd1, by simp [Rule.apply, h1, inSet, hh, this, bind, Except.bind, pure, Except.pure]⟩

/-- C23 is false for RejectValues: whenever the rule accepts a document, the field is gone from it. -/
theorem C23_reject_false (sd sd' v : Val) (p : List String) (bad : List Val) (hat : sd.at? p = some v)
    (h : (Rule.rejectValues p bad).apply sd = .ok sd') : sd'.at? p = none ∧ sd' ≠ sd := by
  simp only [Rule.apply, bind, Except.bind] at h
  cases hr : removePath sd p with
  | error e => simp [hr] at h
  | ok x =>
    obtain ⟨sd1, r⟩ := x
    obtain ⟨h1, _, h3, _⟩ := removePath_spec hr
    simp only [hr] at h
    have : sd' = sd1 := by
      cases r with
      | none => simp [pure, Except.pure] at h; exact h.symm
      | some v =>
        simp only [] at h
        cases hi : inSet v bad with
        | error e => simp [hi] at h
        | ok b =>
          cases b <;> simp [hi, throw, throwThe, MonadExceptOf.throw, pure, Except.pure] at h
          exact h.symm
    subst this
    exact ⟨h3, by rintro rfl; simp [hat] at h3⟩

example : (Rule.rejectValues ["opt"] [.str "rms"]).apply (.dict [("opt", .str "sgd")]) = .ok (.dict []) := rfl

/-! ## C16 upgrades -/

/-- `range(a, b)` is the increasing list of the integers from `a` up to, not including, `b`. -/
theorem mem_rangeI {a b i : Int} : i ∈ rangeI a b ↔ a ≤ i ∧ i < b := by
  simp only [rangeI, List.mem_map, List.mem_range]
  constructor
  · rintro ⟨n, hn, rfl⟩; omega
  · intro ⟨h1, h2⟩; exact ⟨(i - a).toNat, by omega, by omega⟩

theorem rangeI_sorted (a b : Int) : (rangeI a b).Pairwise (· < ·) := by
  simp only [rangeI, List.pairwise_map]
  exact List.Pairwise.imp (by intro x y h; omega) (List.pairwise_lt_range)

theorem rangeI_append {a b c : Int} (h1 : a ≤ b) (h2 : b ≤ c) : rangeI a c = rangeI a b ++ rangeI b c := by
  have e : (c - a).toNat = (b - a).toNat + (c - b).toNat := by omega
  simp only [rangeI, e, List.range_add, List.map_append, List.map_map]
  congr 1
  apply List.map_congr_left
  intro n _
  simp only [Function.comp]
  omega

theorem applyRules_append (rs ss : List Rule) (sd : Val) :
    applyRules (rs ++ ss) sd = (applyRules rs sd >>= applyRules ss) := by
  induction rs generalizing sd with
  | nil => rfl
  | cons r rs ih =>
    simp only [List.cons_append, applyRules, bind, Except.bind]
    cases r.apply sd with
    | error e => rfl
    | ok sd1 => simpa [bind, Except.bind] using ih sd1

theorem upgradeLoop_eq (vi : VerInfo) (is : List Int) (sd : Val) :
    upgradeLoop vi is sd = applyRules (is.flatMap vi.rulesAt) sd := by
  induction is generalizing sd with
  | nil => rfl
  | cons i is ih =>
    simp only [upgradeLoop, List.flatMap_cons, applyRules_append, bind, Except.bind]
    cases applyRules (vi.rulesAt i) sd with
    | error e => rfl
    | ok sd1 => exact ih sd1

/-- C16: what runs is the concatenation of the rule lists registered for `version, version+1, ..., current-1`
(`mem_rangeI`, `rangeI_sorted` say what `rangeI` is), each rule once, in order. -/
theorem C16_upgrade_runs (vi : VerInfo) (sd : Val) (v : Int) (hk : ∀ e ∈ vi.rules, e.1 < vi.version) :
    vi.applyUpgrades sd v = applyRules ((rangeI v vi.version).flatMap vi.rulesAt) sd := by
  have : (vi.rules.all fun e => e.1 < vi.version) = true := by simpa using hk
  simp only [VerInfo.applyUpgrades, this, if_true, upgradeLoop_eq]

/-- The rules registered for version `i` are those of the entry with key `i`. -/
theorem C16_rulesAt (vi : VerInfo) (hn : (vi.rules.map Prod.fst).Nodup) (i : Int) (rs : List Rule) :
    (i, rs) ∈ vi.rules → vi.rulesAt i = rs := by
  intro h
  have : ∀ l : List (Int × List Rule), (l.map Prod.fst).Nodup → (i, rs) ∈ l →
      l.find? (fun e => e.1 == i) = some (i, rs) := by
    intro l
    induction l with
    | nil => intro _ h; simp at h
    | cons e l ih =>
      intro hn h
      simp only [List.map_cons, List.nodup_cons] at hn
      rcases List.mem_cons.1 h with rfl | h
      · simp [List.find?]
      · have hne : (e.1 == i) = false := by
          simp only [beq_eq_false_iff_ne, ne_eq]
          rintro rfl
          exact hn.1 (List.mem_map.2 ⟨_, h, rfl⟩)
        simp [List.find?, hne, ih hn.2 h]
  simp [VerInfo.rulesAt, this _ hn h]

theorem C16_rulesAt_none (vi : VerInfo) (i : Int) (h : ∀ e ∈ vi.rules, e.1 ≠ i) : vi.rulesAt i = [] := by
  have : vi.rules.find? (fun e => e.1 == i) = none := by
    rw [List.find?_eq_none]; intro e he; simpa using h e he
  simp [VerInfo.rulesAt, this]

/-- C16: a document of the current (or a later) version is not changed. -/
theorem C16_current (vi : VerInfo) (sd : Val) (v : Int) (hk : ∀ e ∈ vi.rules, e.1 < vi.version)
    (hv : vi.version ≤ v) : vi.applyUpgrades sd v = .ok sd := by
  rw [C16_upgrade_runs vi sd v hk]
  have : rangeI v vi.version = [] := by
    rw [List.eq_nil_iff_forall_not_mem]; intro i hi; rw [mem_rangeI] at hi; omega
  simp [this, applyRules]

/-- The class as it was when its version was `w`: the rules registered for versions below `w`. -/
def VerInfo.asOf (vi : VerInfo) (w : Int) : VerInfo := ⟨w, vi.rules.filter (fun e => e.1 < w)⟩

/-- C16: upgrading from `v` to `w` and then from `w` to the current version is upgrading from `v`. -/
theorem C16_compose (vi : VerInfo) (sd : Val) (v w : Int) (hk : ∀ e ∈ vi.rules, e.1 < vi.version)
    (h1 : v ≤ w) (h2 : w ≤ vi.version) :
    ((vi.asOf w).applyUpgrades sd v >>= fun sd' => vi.applyUpgrades sd' w) = vi.applyUpgrades sd v := by
  have hk' : ∀ e ∈ (vi.asOf w).rules, e.1 < (vi.asOf w).version := by
    intro e he; simpa [VerInfo.asOf] using (List.mem_filter.1 he).2
  have hr : ∀ i ∈ rangeI v w, (vi.asOf w).rulesAt i = vi.rulesAt i := by
    intro i hi
    rw [mem_rangeI] at hi
    have : ∀ l : List (Int × List Rule), (l.filter (fun e => decide (e.1 < w))).find? (fun e => e.1 == i)
        = l.find? (fun e => e.1 == i) := by
      intro l
      induction l with
      | nil => rfl
      | cons e l ih =>
        by_cases he : e.1 = i
        · have : e.1 < w := by omega
          rw [List.filter_cons_of_pos (by simpa using this)]; simp [he]
        · by_cases hw : e.1 < w <;> simp [hw, he, ih]
    simp only [VerInfo.rulesAt, VerInfo.asOf, this]
  rw [C16_upgrade_runs _ sd v hk', C16_upgrade_runs vi sd v hk, rangeI_append h1 h2, List.flatMap_append,
    applyRules_append]
  have e1 : (rangeI v (vi.asOf w).version).flatMap (vi.asOf w).rulesAt = (rangeI v w).flatMap vi.rulesAt := by
    show (rangeI v w).flatMap _ = _
    rw [List.flatMap_def, List.flatMap_def, List.map_congr_left hr]
  rw [e1]
  simp only [bind, Except.bind]
  cases applyRules ((rangeI v w).flatMap vi.rulesAt) sd with
  | error e => rfl
  | ok sd1 => exact C16_upgrade_runs vi sd1 w hk

/-- C16: a rule table with a key that is not below the current version is rejected. -/
theorem C16_bad_table (vi : VerInfo) (sd : Val) (v : Int) (h : ∃ e ∈ vi.rules, vi.version ≤ e.1) :
    vi.applyUpgrades sd v = .error .assertionError := by
  obtain ⟨e, he, hv⟩ := h
  have : (vi.rules.all fun e => e.1 < vi.version) = false := by
    rw [List.all_eq_false]; exact ⟨e, he, by simpa using hv⟩
  simp [VerInfo.applyUpgrades, this]

example : let vi : VerInfo := ⟨3, [(2, [.rename ["learning_rate"] ["lr"]]), (0, [.delete ["x"]])]⟩
    (∀ e ∈ vi.rules, e.1 < vi.version) ∧
    vi.applyUpgrades (.dict [("learning_rate", .int 1), ("x", .int 2)]) 1
      = .ok (.dict [("x", .int 2), ("lr", .int 1)]) := by
  exact ⟨by decide, rfl⟩

end HS
