import Verif.Proofs.Surgery
import Verif.Props.Renames
/-!
# Lemmas: the effect of the proposed rules on the report
-/
namespace HS

/-! ## one rule -/

def Rule.places : Rule → List (List String)
  | .rename p q => [p, q]
  | .delete p => [p]
  | .mapValue p _ _ => [p]
  | .changeDefault p _ _ => [p]
  | .addDefault p _ => [p]
  | .checkValue p _ => [p]
  | .rejectValues p _ => [p]

/-- all changes are compatible -/
def AllInfo (ds : List Change) : Prop := ∀ c ∈ ds, c.severity = .info

/-- the rule can be applied to the schema, and what is reported for its fields afterwards is compatible -/
inductive Pend (new old : STy) : Rule → Prop
  | delete {p x f ds} : Open new old p x (some f) → slotChanges p .none x = .ok ds → AllInfo ds → Pend new old (.delete p)
  | rename {p q x x' f y' ds ds'} : Open new old p x (some f) → slotChanges p .none x = .ok ds → AllInfo ds →
      Open new old q x' y' → Incomp p q → WFS f.type → slotChanges q (some f) x' = .ok ds' → AllInfo ds' →
      Pend new old (.rename p q)
  | changeDefault {p x n t d h doc a b ds} : Open new old p x (some (.mk n t d h doc)) → WFS t → pyEq d a = true →
      slotChanges p (some (.mk n t b h doc)) x = .ok ds → AllInfo ds → Pend new old (.changeDefault p a b)
  | addDefault {p x v ds} : Open new old p x .none →
      slotChanges p (some (.mk (p.getLastD "") .nothing .none false .none)) x = .ok ds → AllInfo ds →
      Pend new old (.addDefault p v)
  | checkValue {p x n t d h doc vs ds} : Open new old p x (some (.mk n t d h doc)) →
      slotChanges p (some (.mk n (.literal vs) d h doc)) x = .ok ds → AllInfo ds → Pend new old (.checkValue p vs)

/-- the effect of a rule: what was reported elsewhere still is, what is reported for its fields is compatible, and other fields
are as they were -/
structure RuleStep (new old old' : STy) (cs : List Change) (ps : List (List String)) : Prop where
  wfs : WFS old'
  isStruct : old'.isStruct = old.isStruct
  report : ∃ cs', findChanges [] new old' = .ok cs' ∧
    ∀ c ∈ cs', (c ∈ cs ∧ ∀ p ∈ ps, ¬ p <+: c.path) ∨ c.severity = .info
  others : ∀ q x y, Open new old q x y → (∀ p ∈ ps, Incomp p q) → Open new old' q x y

theorem slot_any {x : Option SFld} {full : List String} {f : SFld} {ds : List Change} (h : slotChanges full (some f) x = .ok ds) :
    ∃ es, slotChanges full .none x = .ok es := by
  cases x <;> exact ⟨_, rfl⟩

theorem open_wfs_new {new old : STy} {p : List String} {x y : Option SFld} (h : Open new old p x y) (hn : WFS new) :
    ∀ g, x = some g → WFS g.type := by
  induction h with
  | here => intro g hg; exact hn.fld hg
  | under hw hop ih => exact ih (wfs_slotTy (fun g hg => hn.fld hg)).unwrap

theorem open_wfs_old {new old : STy} {p : List String} {x y : Option SFld} (h : Open new old p x y) (ho : WFS old) :
    ∀ f, y = some f → WFS f.type := by
  induction h with
  | here => intro g hg; exact ho.fld hg
  | under hw hop ih => exact ih (wfs_slotTy (fun g hg => ho.fld hg)).unwrap

/-- put one field -/
theorem step_put {new old : STy} {p : List String} {x y z : Option SFld} {cs ds : List Change} (hop : Open new old p x y)
    (hn : WFS new) (ho : WFS old) (hz : ∀ f, z = some f → WFS f.type) (hcs : findChanges [] new old = .ok cs)
    (hds : slotChanges p z x = .ok ds) :
    WFS (putSchema z old p) ∧ (∃ cs', findChanges [] new (putSchema z old p) = .ok cs' ∧
        ∀ c, c ∈ cs' ↔ (c ∈ cs ∧ ¬ p <+: c.path) ∨ c ∈ ds) ∧ Open new (putSchema z old p) p x z ∧
      ∀ q x' y', Open new old q x' y' → Incomp p q → Open new (putSchema z old p) q x' y' := by
  obtain ⟨h1, h2⟩ := open_put hop hn ho hz (path := []) hcs hds
  exact ⟨h1, h2, open_put_same hop z, fun q x' y' hq hi => open_put_other hop z hq hi.1 hi.2⟩

/-- remove the field, then put another one at the same path -/
theorem step_replace {new old : STy} {p : List String} {x : Option SFld} {f z : SFld} {cs ds : List Change}
    (hop : Open new old p x (some f)) (hn : WFS new) (ho : WFS old) (hz : WFS z.type) (hcs : findChanges [] new old = .ok cs)
    (hds : slotChanges p (some z) x = .ok ds) (hi : AllInfo ds) :
    removeSchema old p = .ok (putSchema .none old p, some f) ∧
    insertSchema z (putSchema .none old p) p = .ok (putSchema (some z) (putSchema .none old p) p) ∧
    RuleStep new old (putSchema (some z) (putSchema .none old p) p) cs [p] := by
  obtain ⟨es, hes⟩ := slot_any hds
  obtain ⟨h1, ⟨cs1, h2, h3⟩, h4, h5⟩ := step_put hop hn ho (z := .none) (fun f hf => nomatch hf) hcs hes
  obtain ⟨h6, ⟨cs2, h7, h8⟩, h9, h10⟩ := step_put h4 hn h1 (z := some z) (fun f hf => by cases hf; exact hz) h2 hds
  refine ⟨removeSchema_some hop f rfl, insertSchema_eq z p _ (open_ne_nil hop), h6, by rw [putSchema_isStruct, putSchema_isStruct], ⟨cs2, h7, ?_⟩, ?_⟩
  · intro c hc
    rcases (h8 c).1 hc with ⟨hc, hp⟩ | hc
    · rcases (h3 c).1 hc with ⟨hc, _⟩ | hc'
      · exact .inl ⟨hc, by simpa using hp⟩
      · exact absurd (slot_path (y := .none) (fun f hf => nomatch hf) (open_wfs_new hop hn) hes hc') hp
    · exact .inr (hi c hc)
  · intro q x' y' hq hp
    exact h10 q x' y' (h5 q x' y' hq (hp p (by simp))) (hp p (by simp))

theorem rule_step {new old : STy} {r : Rule} {cs : List Change} (h : Pend new old r) (hn : WFS new) (ho : WFS old)
    (hcs : findChanges [] new old = .ok cs) : ∃ old', r.applySchema old = .ok old' ∧ RuleStep new old old' cs r.places := by
  cases h with
  | @delete p x f ds hop hds hi =>
    obtain ⟨h1, ⟨cs1, h2, h3⟩, h4, h5⟩ := step_put hop hn ho (z := .none) (fun f hf => nomatch hf) hcs hds
    refine ⟨_, ?_, h1, putSchema_isStruct _ _ _, ⟨cs1, h2, ?_⟩, ?_⟩
    · simp only [Rule.applySchema, removeSchema_some hop f rfl, bind, Except.bind, pure, Except.pure]
    · intro c hc
      rcases (h3 c).1 hc with ⟨hc, hp⟩ | hc
      · exact .inl ⟨hc, by simpa [Rule.places] using hp⟩
      · exact .inr (hi c hc)
    · intro q x' y' hq hp
      exact h5 q x' y' hq (hp p (by simp [Rule.places]))
  | @rename p q x x' f y' ds ds' hop hds hi hop' hinc hwf hds' hi' =>
    obtain ⟨h1, ⟨cs1, h2, h3⟩, h4, h5⟩ := step_put hop hn ho (z := .none) (fun f hf => nomatch hf) hcs hds
    have hq := h5 q x' y' hop' hinc
    obtain ⟨h6, ⟨cs2, h7, h8⟩, h9, h10⟩ := step_put hq hn h1 (z := some f) (fun g hg => by cases hg; exact hwf) h2 hds'
    refine ⟨_, ?_, h6, by rw [putSchema_isStruct, putSchema_isStruct], ⟨cs2, h7, ?_⟩, ?_⟩
    · simp only [Rule.applySchema, removeSchema_some hop f rfl, assertField, insertSchema_eq f q _ (open_ne_nil hq), bind,
        Except.bind]
    · intro c hc
      rcases (h8 c).1 hc with ⟨hc, hp⟩ | hc
      · rcases (h3 c).1 hc with ⟨hc, hp'⟩ | hc
        · exact .inl ⟨hc, by simpa [Rule.places] using ⟨hp', hp⟩⟩
        · exact .inr (hi c hc)
      · exact .inr (hi' c hc)
    · intro q2 x2 y2 hq2 hp
      exact h10 q2 x2 y2 (h5 q2 x2 y2 hq2 (hp p (by simp [Rule.places]))) (hp q (by simp [Rule.places]))
  | @changeDefault p x n t d h doc a b ds hop hwf ha hds hi =>
    obtain ⟨h1, h2, h3⟩ := step_replace hop hn ho (by exact hwf) hcs hds hi
    refine ⟨_, ?_, h3⟩
    simp only [Rule.applySchema, h1, assertField, ha, if_true, h2, bind, Except.bind]
  | @addDefault p x v ds hop hds hi =>
    obtain ⟨h1, ⟨cs1, h2, h3⟩, h4, h5⟩ := step_put hop hn ho (z := some _) (fun f hf => by cases hf; exact .nothing) hcs hds
    refine ⟨_, ?_, h1, putSchema_isStruct _ _ _, ⟨cs1, h2, ?_⟩, ?_⟩
    · simp only [Rule.applySchema, removeSchema_none hop rfl, insertSchema_eq _ p _ (open_ne_nil hop), bind, Except.bind]
    · intro c hc
      rcases (h3 c).1 hc with ⟨hc, hp⟩ | hc
      · exact .inl ⟨hc, by simpa [Rule.places] using hp⟩
      · exact .inr (hi c hc)
    · intro q x' y' hq hp
      exact h5 q x' y' hq (hp p (by simp [Rule.places]))
  | @checkValue p x n t d h doc vs ds hop hds hi =>
    obtain ⟨h1, h2, h3⟩ := step_replace hop hn ho (z := .mk n (.literal vs) d h doc) .literal hcs hds hi
    refine ⟨_, ?_, h3⟩
    simp only [Rule.applySchema, h1, assertField, h2, bind, Except.bind]

theorem pend_other {new old old' : STy} {r : Rule} {cs : List Change} {ps : List (List String)} (h : Pend new old r)
    (hs : RuleStep new old old' cs ps) (hps : ∀ p ∈ ps, ∀ q ∈ r.places, Incomp p q) : Pend new old' r := by
  have hcase : ∀ q x y, q ∈ r.places → Open new old q x y → Open new old' q x y :=
    fun q x y hq hop => hs.others q x y hop (fun p hp => hps p hp q hq)
  cases h with
  | delete hop hds hi => exact .delete (hcase _ _ _ (by simp [Rule.places]) hop) hds hi
  | rename hop hds hi hop' hinc hwf hds' hi' =>
    exact .rename (hcase _ _ _ (by simp [Rule.places]) hop) hds hi (hcase _ _ _ (by simp [Rule.places]) hop') hinc hwf hds' hi'
  | changeDefault hop hwf ha hds hi => exact .changeDefault (hcase _ _ _ (by simp [Rule.places]) hop) hwf ha hds hi
  | addDefault hop hds hi => exact .addDefault (hcase _ _ _ (by simp [Rule.places]) hop) hds hi
  | checkValue hop hds hi => exact .checkValue (hcase _ _ _ (by simp [Rule.places]) hop) hds hi

/-! ## all rules -/

theorem rules_settle (new : STy) (hn : WFS new) : ∀ (rs : List Rule) (old : STy) (cs : List Change), WFS old →
    findChanges [] new old = .ok cs → (∀ r ∈ rs, Pend new old r) →
    rs.Pairwise (fun r r' => ∀ p ∈ r.places, ∀ q ∈ r'.places, Incomp p q) →
    (∀ c ∈ cs, c.severity = .info ∨ ∃ r ∈ rs, ∃ p ∈ r.places, p <+: c.path) →
    ∃ old' cs', applyRulesSchema rs old = .ok old' ∧ old'.isStruct = old.isStruct ∧ findChanges [] new old' = .ok cs' ∧ AllInfo cs' := by
  intro rs
  induction rs with
  | nil =>
    intro old cs ho hcs _ _ hc
    refine ⟨old, cs, rfl, rfl, hcs, fun c hm => ?_⟩
    rcases hc c hm with h | ⟨r, hr, _⟩
    · exact h
    · exact (nomatch hr)
  | cons r rs ih =>
    intro old cs ho hcs hp hpw hc
    obtain ⟨old1, h1, hs⟩ := rule_step (hp r (by simp)) hn ho hcs
    obtain ⟨cs1, h2, h3⟩ := hs.report
    rw [List.pairwise_cons] at hpw
    obtain ⟨old', cs', h4, h5, h6, h7⟩ := ih old1 cs1 hs.wfs h2
      (fun r' hr' => pend_other (hp r' (List.mem_cons_of_mem _ hr')) hs (hpw.1 r' hr')) hpw.2 (by
        intro c hcm
        rcases h3 c hcm with ⟨hcm, hn⟩ | h
        · rcases hc c hcm with h | ⟨r', hr', p, hp', hpc⟩
          · exact .inl h
          · rcases List.mem_cons.1 hr' with rfl | hr'
            · exact absurd hpc (hn p hp')
            · exact .inr ⟨r', hr', p, hp', hpc⟩
        · exact .inl h)
    refine ⟨old', cs', ?_, h5.trans hs.isStruct, h6, h7⟩
    simp only [applyRulesSchema, h1, bind, Except.bind]
    exact h4

end HS
