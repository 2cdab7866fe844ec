import Verif.Proofs.Valid
import Verif.Proofs.ValidLoad
import Verif.Props.Compat
/-!
# C33: upgrade rules act the same way on schemas and documents

`Valid leaf s doc` (`Verif/Spec/Valid.lean`) is parametric in what is valid for types other than dataclasses and Optional. For
each rule: if the document is valid for the schema and the rule maps the schema to `s'`, then the rule maps the document to one
that is valid for `s'`. The conditions under which this holds differ from rule to rule; without them it is false
(`C33_false_*`).
-/
namespace HS

/-- **C33, DeleteField**: for every schema, path through dataclasses, and valid document. -/
theorem C33_delete (leaf : STy → Val → Prop) {n fs v s'} {doc : Val} {p : List String} (hv : Valid leaf (.struct n fs v) doc)
    (hp : StructPath (.struct n fs v) p) (hw : Clean p) (h : (Rule.delete p).applySchema (.struct n fs v) = .ok s') :
    ∃ doc', (Rule.delete p).apply doc = .ok doc' ∧ Valid leaf s' doc' ∧ doc'.isWeak = doc.isWeak := by
  simp only [Rule.applySchema, bind, Except.bind, pure, Except.pure] at h
  cases h1 : removeSchema (.struct n fs v) p with
  | error e => rw [h1] at h; exact (nomatch h)
  | ok q =>
    obtain ⟨s1, r⟩ := q
    rw [h1] at h
    cases h
    obtain ⟨x', rv, h2, h3, hwk, -⟩ := remove_valid leaf p hp hw hv h1
    exact ⟨x', by simp only [Rule.apply, h2, bind, Except.bind, pure, Except.pure], h3, hwk⟩

/-- **C33, RenameField** (partial). The field is `f`, `s1` is the schema without it. The new path must be free; a document that
has the field must have room for it at the new path (every object on the way is present, None, new or consists of fields that
may be left out); a document that lacks the field must have been allowed to. -/
theorem C33_rename_partial (leaf : STy → Val → Prop) {n fs v s1 s' f} {doc : Val} {old new : List String}
    (hv : Valid leaf (.struct n fs v) doc) (hf : SField (.struct n fs v) old f) (hwo : Clean old) (hwn : Clean new)
    (hs1 : (Rule.delete old).applySchema (.struct n fs v) = .ok s1) (hnew : NewPath s1 new)
    (hpres : ∀ y, doc.at? old = some y → (y.isWeak = false ∨ Omit f) ∧
      ∀ doc1, (Rule.delete old).apply doc = .ok doc1 → Room s1 doc1 new)
    (habs : doc.at? old = none → Omit f)
    (h : (Rule.rename old new).applySchema (.struct n fs v) = .ok s') :
    ∃ doc', (Rule.rename old new).apply doc = .ok doc' ∧ Valid leaf s' doc' ∧ doc'.isWeak = doc.isWeak := by
  obtain ⟨hp, fs1, h1, -⟩ := remove_field _ hf
  simp only [Rule.applySchema, h1, assertField, bind, Except.bind, pure, Except.pure] at h hs1
  cases hs1
  obtain ⟨x', rv, h2, h3, hwk, h4, h5⟩ := remove_valid leaf old hp hwo hv h1
  have hat := (removePath_spec h2).1
  simp only [Rule.apply, h2, bind, Except.bind, pure, Except.pure] at hpres ⊢
  cases rv with
  | none =>
    refine ⟨x', rfl, insert_absent leaf f (habs hat.symm) _ hnew hwn h3 h, hwk⟩
  | some y =>
    obtain ⟨hyw, hroom⟩ := hpres y hat.symm
    obtain ⟨f', hf', hy⟩ := h4 y rfl
    cases hf'
    obtain ⟨x2, h6, h7, h8⟩ := insert_valid leaf f y true hy hyw (fun h => nomatch h) new hnew.struct hwn h3 h (fun _ => hroom x' rfl)
    exact ⟨x2, h6, h7, h8.trans hwk⟩

/-- a field is put back where it was -/
private theorem put_back (leaf : STy → Val → Prop) {n fs v s1 s' f} (f' : SFld) {doc doc1 : Val} {y : Val} {p : List String}
    (hv : Valid leaf (.struct n fs v) doc) (hf : SField (.struct n fs v) p f) (hw : Clean p)
    (hpar : Parents doc p) (h1 : removeSchema (.struct n fs v) p = .ok (s1, some f)) (h2 : removePath doc p = .ok (doc1, some y))
    (z : Val) (cn : Bool) (hz : Valid leaf f'.type z) (hzw : z.isWeak = false ∨ Omit f') (h : insertSchema f' s1 p = .ok s') :
    ∃ doc', insertPath z cn doc1 p = .ok doc' ∧ Valid leaf s' doc' ∧ doc'.isWeak = doc.isWeak := by
  obtain ⟨hp, fs1, h1', hnew⟩ := remove_field _ hf
  rw [h1] at h1'
  cases h1'
  obtain ⟨x', rv, h2', h3, hwk, -⟩ := remove_valid leaf p hp hw hv h1
  rw [h2] at h2'
  cases h2'
  have hpar' := parents_remove p hw.weak hpar h2
  obtain ⟨x2, h6, h7, h8⟩ := insert_valid leaf f' z true hz hzw (fun h => nomatch h) p hnew.struct hw h3 h
    (fun _ => parents_room p hnew.struct hpar')
  cases cn with
  | true => exact ⟨x2, h6, h7, h8.trans hwk⟩
  | false => exact ⟨x2, by rw [insert_present z p hpar']; exact h6, h7, h8.trans hwk⟩

/-- **C33, MapFieldValue** (partial): the function must map values that are valid for the type of the field to values that are
valid for the type that the field has in the rewritten schema, and no object on the way to a value may be marked weak. -/
theorem C33_map_partial (leaf : STy → Val → Prop) {n fs v s' f} {doc : Val} {p : List String} {fn : Val → Except Err Val} {r : Option String}
    (hv : Valid leaf (.struct n fs v) doc) (hf : SField (.struct n fs v) p f) (hw : Clean p)
    (hpar : ∀ y, doc.at? p = some y → Parents doc p)
    (hfn : ∀ f', SField s' p f' → ∀ y, Valid leaf f.type y → ∃ z, fn y = .ok z ∧ Valid leaf f'.type z ∧ z.isWeak = false)
    (h : (Rule.mapValue p fn r).applySchema (.struct n fs v) = .ok s') :
    ∃ doc', (Rule.mapValue p fn r).apply doc = .ok doc' ∧ Valid leaf s' doc' ∧ doc'.isWeak = doc.isWeak := by
  obtain ⟨hp, fs1, h1, hnew⟩ := remove_field _ hf
  have key : ∃ f', insertSchema f' (.struct n fs1 v) p = .ok s' ∧ (Omit f → Omit f') := by
    simp only [Rule.applySchema, h1, assertField, bind, Except.bind, pure, Except.pure] at h
    split at h
    · rename_i fn1 en vs d hd doc1
      cases h2 : mapVariants fn vs with
      | error e => rw [h2] at h; exact (nomatch h)
      | ok vs' =>
        rw [h2] at h
        refine ⟨_, h, fun ho => ?_⟩
        cases ho
        exact .dflt
    · exact ⟨f, h, id⟩
  obtain ⟨f', hins, ho⟩ := key
  obtain ⟨x', rv, h2, h3, hwk, h4, h5⟩ := remove_valid leaf p hp hw hv h1
  have hat := (removePath_spec h2).1
  simp only [Rule.apply, h2, bind, Except.bind, pure, Except.pure]
  have hf' : SField s' p f' := insert_field f' p hnew.struct hins
  cases rv with
  | none =>
    refine ⟨x', rfl, ?_, hwk⟩
    rw [h5 rfl] at h3 ⊢
    exact retype leaf f' p hf hw hv h1 hins ho (fun y hy => by rw [← hat] at hy; exact (nomatch hy))
  | some y =>
    obtain ⟨f2, hf2, hy⟩ := h4 y rfl
    cases hf2
    obtain ⟨z, hz, hvz, hzw⟩ := hfn f' hf' y hy
    dsimp only
    rw [hz]
    exact put_back leaf f' hv hf hw (hpar y hat.symm) h1 h2 z true hvz (.inl hzw) hins

/-- **C33, ChangeDefault** (partial): of a field with a default, whose old default is valid for its type. No object on the way to
a value may be marked weak; the objects on the way to a missing one may be missing too. -/
theorem C33_changeDefault_partial (leaf : STy → Val → Prop) {n fs v s' fname t d doc0} {doc : Val} {p : List String} {old new : Val}
    (hv : Valid leaf (.struct n fs v) doc) (hf : SField (.struct n fs v) p (.mk fname t d true doc0)) (hw : Clean p)
    (hpar : ∀ y, doc.at? p = some y → Parents doc p) (hold : Valid leaf t old)
    (h : (Rule.changeDefault p old new).applySchema (.struct n fs v) = .ok s') :
    ∃ doc', (Rule.changeDefault p old new).apply doc = .ok doc' ∧ Valid leaf s' doc' ∧ doc'.isWeak = doc.isWeak := by
  obtain ⟨hp, fs1, h1, hnew⟩ := remove_field _ hf
  simp only [Rule.applySchema, h1, assertField, bind, Except.bind, pure, Except.pure] at h
  split at h
  · obtain ⟨x', rv, h2, h3, hwk, h4, h5⟩ := remove_valid leaf p hp hw hv h1
    have hat := (removePath_spec h2).1
    have ins_old : ∃ doc', insertPath old false x' p = .ok doc' ∧ Valid leaf s' doc' ∧ doc'.isWeak = doc.isWeak := by
      obtain ⟨x2, h6, h7, h8⟩ := insert_valid leaf (.mk fname t new true doc0) old false hold (.inr .dflt) (fun _ => .dflt) p hnew.struct hw h3 h
        (fun h => nomatch h)
      exact ⟨x2, h6, h7, h8.trans hwk⟩
    simp only [Rule.apply, h2, bind, Except.bind, pure, Except.pure]
    cases rv with
    | none => exact ins_old
    | some y =>
      obtain ⟨f2, hf2, hy⟩ := h4 y rfl
      cases hf2
      dsimp only
      split
      · exact ins_old
      · exact put_back leaf (.mk fname t new true doc0) hv hf hw (hpar y hat.symm) h1 h2 y true hy (.inr .dflt) h
  · exact (nomatch h)

/-- **C33, AddDefault** to a field that the schema has: for every document, whatever is missing on the way to the field, if the
default is valid for the type of the field. -/
theorem C33_addDefault (leaf : STy → Val → Prop) {n fs v s' f} {doc : Val} {p : List String} {dflt : Val}
    (hv : Valid leaf (.struct n fs v) doc) (hf : SField (.struct n fs v) p f) (hw : Clean p) (hd : Valid leaf f.type dflt)
    (h : (Rule.addDefault p dflt).applySchema (.struct n fs v) = .ok s') :
    ∃ doc', (Rule.addDefault p dflt).apply doc = .ok doc' ∧ Valid leaf s' doc' ∧ doc'.isWeak = doc.isWeak := by
  obtain ⟨hp, fs1, h1, hnew⟩ := remove_field _ hf
  cases f with
  | mk fname t d hh doc0 =>
    simp only [Rule.applySchema, h1, bind, Except.bind, pure, Except.pure] at h
    obtain ⟨x', rv, h2, h3, hwk, h4, h5⟩ := remove_valid leaf p hp hw hv h1
    have ins : ∀ y, Valid leaf t y → ∃ doc', insertPath y false x' p = .ok doc' ∧ Valid leaf s' doc' ∧ doc'.isWeak = doc.isWeak := by
      intro y hy
      obtain ⟨x2, h6, h7, h8⟩ := insert_valid leaf (.mk fname t dflt true doc0) y false hy (.inr .dflt) (fun _ => .dflt) p hnew.struct hw h3 h
        (fun h => nomatch h)
      exact ⟨x2, h6, h7, h8.trans hwk⟩
    simp only [Rule.apply, h2, bind, Except.bind, pure, Except.pure]
    cases rv with
    | none => exact ins dflt hd
    | some y =>
      obtain ⟨f2, hf2, hy⟩ := h4 y rfl
      cases hf2
      exact ins y hy

/-- **C33, CheckValue**: a document that passes the check is valid for the schema with the type `Literal[allowed]`. -/
theorem C33_check (leaf : STy → Val → Prop) {n fs v s' f} {doc doc' : Val} {p : List String} {allowed : List Val}
    (hv : Valid leaf (.struct n fs v) doc) (hf : SField (.struct n fs v) p f) (hw : Clean p)
    (hdf : Omit f → f.hasDefault = true)
    (hlit : ∀ y, pyMem y allowed = true → leaf (.literal allowed) y)
    (h : (Rule.checkValue p allowed).applySchema (.struct n fs v) = .ok s')
    (hd : (Rule.checkValue p allowed).apply doc = .ok doc') : doc' = doc ∧ Valid leaf s' doc' := by
  obtain ⟨hp, fs1, h1, hnew⟩ := remove_field _ hf
  cases f with
  | mk fname t d hh doc0 =>
    simp only [Rule.applySchema, h1, assertField, bind, Except.bind, pure, Except.pure] at h
    have hdoc : doc' = doc ∧ ∀ y, doc.at? p = some y → pyMem y allowed = true := by
      simp only [Rule.apply, bind, Except.bind, pure, Except.pure] at hd
      cases hg : getPath doc p with
      | error e => rw [hg] at hd; exact (nomatch hd)
      | ok r =>
        rw [hg] at hd
        have hpn : p ≠ [] := by rintro rfl; exact (nomatch hp)
        cases r with
        | none =>
          cases hd
          refine ⟨rfl, fun y hy => ?_⟩
          rw [getPath_present hpn hy] at hg
          exact (nomatch hg)
        | some y =>
          dsimp only at hd
          unfold inSet at hd
          split at hd
          · exact (nomatch hd)
          · rename_i b hb
            split at hb
            · cases hb
              split at hd
              · exact (nomatch hd)
              · rename_i hm
                cases hd
                refine ⟨rfl, fun y' hy => ?_⟩
                rw [getPath_present hpn hy] at hg
                cases hg
                simpa using hm
            · exact (nomatch hb)
    obtain ⟨rfl, hall⟩ := hdoc
    refine ⟨rfl, retype leaf _ p hf hw hv h1 h ?_ ?_⟩
    · intro ho
      have : hh = true := hdf ho
      subst this
      exact .dflt
    · intro y hy
      exact hlit y (hall y hy)

/-- **C33, RejectValues**: the rule cannot be applied to any schema; it always raises. -/
theorem C33_reject_never (p : List String) (vs : List Val) (s s' : STy) : (Rule.rejectValues p vs).applySchema s ≠ .ok s' := by
  intro h
  simp only [Rule.applySchema, bind, Except.bind, pure, Except.pure] at h
  cases h1 : removeSchema s p with
  | error e => rw [h1] at h; exact (nomatch h)
  | ok q =>
    rw [h1] at h
    cases q with
    | mk s1 f => cases f <;> exact (nomatch h)

/-! ## lists of rules -/

/-- **C33** for every kind of rule, under the conditions of `Agree`. -/
theorem C33_rule_partial (leaf : STy → Val → Prop) {n fs v s' r} {doc : Val} (ha : Agree leaf r (.struct n fs v) doc)
    (hv : Valid leaf (.struct n fs v) doc) (h : r.applySchema (.struct n fs v) = .ok s') :
    ∃ doc', r.apply doc = .ok doc' ∧ Valid leaf s' doc' ∧ doc'.isWeak = doc.isWeak := by
  cases ha with
  | delete h1 h2 => exact C33_delete leaf hv h1 h2 h
  | rename h1 h2 h3 h4 h5 h6 h7 => exact C33_rename_partial leaf hv h1 h2 h3 h4 h5 h6 h7 h
  | mapValue h1 h2 h3 h4 => exact C33_map_partial leaf hv h1 h2 h3 (fun f' hf' => h4 s' f' h hf') h
  | changeDefault h1 h2 h3 h4 => exact C33_changeDefault_partial leaf hv h1 h2 h3 h4 h
  | addDefault h1 h2 h3 => exact C33_addDefault leaf hv h1 h2 h3 h
  | checkValue h1 h2 h3 h4 h5 =>
    obtain ⟨doc', hd⟩ := h5
    obtain ⟨rfl, h6⟩ := C33_check leaf hv h1 h2 h3 h4 h hd
    exact ⟨_, hd, h6, rfl⟩

theorem remove_top (n fs v p s' r) (h : removeSchema (.struct n fs v) p = .ok (s', r)) : ∃ fs', s' = .struct n fs' v := by
  cases p with
  | nil => exact (nomatch h)
  | cons k ks =>
    cases ks with
    | nil =>
      simp only [removeSchema] at h
      cases hg : dget fs k <;> rw [hg] at h <;> cases h <;> exact ⟨_, rfl⟩
    | cons k' ks =>
      simp only [removeSchema, bind, Except.bind, pure, Except.pure] at h
      cases hg : dget fs k with
      | none => rw [hg] at h; cases h; exact ⟨_, rfl⟩
      | some f =>
        rw [hg] at h
        dsimp only at h
        split at h
        · exact (nomatch h)
        · cases h; exact ⟨_, rfl⟩

theorem insert_top (f n fs v p s') (h : insertSchema f (.struct n fs v) p = .ok s') : ∃ fs', s' = .struct n fs' v := by
  cases p with
  | nil => exact (nomatch h)
  | cons k ks =>
    cases ks with
    | nil => simp only [insertSchema] at h; cases h; exact ⟨_, rfl⟩
    | cons k' ks =>
      simp only [insertSchema, bind, Except.bind, pure, Except.pure] at h
      split at h
      · exact (nomatch h)
      · cases h; exact ⟨_, rfl⟩

/-- a rule leaves name and version of the main class alone -/
theorem rule_top {r : Rule} {n fs v s'} (h : r.applySchema (.struct n fs v) = .ok s') : ∃ fs', s' = .struct n fs' v := by
  cases r <;> simp only [Rule.applySchema, bind, Except.bind, pure, Except.pure] at h
  case rename old new =>
    cases h1 : removeSchema (.struct n fs v) old with
    | error e => rw [h1] at h; exact (nomatch h)
    | ok q =>
      obtain ⟨s1, r1⟩ := q
      rw [h1] at h
      obtain ⟨fs1, rfl⟩ := remove_top _ _ _ _ _ _ h1
      dsimp only at h
      cases r1 with
      | none => exact (nomatch h)
      | some f => exact insert_top _ _ _ _ _ _ h
  case delete p =>
    cases h1 : removeSchema (.struct n fs v) p with
    | error e => rw [h1] at h; exact (nomatch h)
    | ok q =>
      obtain ⟨s1, r1⟩ := q
      rw [h1] at h
      obtain ⟨fs1, rfl⟩ := remove_top _ _ _ _ _ _ h1
      dsimp only at h
      cases h
      exact ⟨_, rfl⟩
  case mapValue p fn rd =>
    cases h1 : removeSchema (.struct n fs v) p with
    | error e => rw [h1] at h; exact (nomatch h)
    | ok q =>
      obtain ⟨s1, r1⟩ := q
      rw [h1] at h
      obtain ⟨fs1, rfl⟩ := remove_top _ _ _ _ _ _ h1
      dsimp only at h
      cases r1 with
      | none => exact (nomatch h)
      | some f =>
        simp only [assertField] at h
        split at h
        · split at h
          · exact (nomatch h)
          · exact insert_top _ _ _ _ _ _ h
        · exact insert_top _ _ _ _ _ _ h
  case changeDefault p old new =>
    cases h1 : removeSchema (.struct n fs v) p with
    | error e => rw [h1] at h; exact (nomatch h)
    | ok q =>
      obtain ⟨s1, r1⟩ := q
      rw [h1] at h
      obtain ⟨fs1, rfl⟩ := remove_top _ _ _ _ _ _ h1
      dsimp only at h
      cases r1 with
      | none => exact (nomatch h)
      | some f =>
        cases f
        simp only [assertField] at h
        split at h
        · exact insert_top _ _ _ _ _ _ h
        · exact (nomatch h)
  case addDefault p d =>
    cases h1 : removeSchema (.struct n fs v) p with
    | error e => rw [h1] at h; exact (nomatch h)
    | ok q =>
      obtain ⟨s1, r1⟩ := q
      rw [h1] at h
      obtain ⟨fs1, rfl⟩ := remove_top _ _ _ _ _ _ h1
      dsimp only at h
      cases r1 with
      | none => exact insert_top _ _ _ _ _ _ h
      | some f => cases f; exact insert_top _ _ _ _ _ _ h
  case checkValue p a =>
    cases h1 : removeSchema (.struct n fs v) p with
    | error e => rw [h1] at h; exact (nomatch h)
    | ok q =>
      obtain ⟨s1, r1⟩ := q
      rw [h1] at h
      obtain ⟨fs1, rfl⟩ := remove_top _ _ _ _ _ _ h1
      dsimp only at h
      cases r1 with
      | none => exact (nomatch h)
      | some f => cases f; exact insert_top _ _ _ _ _ _ h
  case rejectValues p a =>
    cases h1 : removeSchema (.struct n fs v) p with
    | error e => rw [h1] at h; exact (nomatch h)
    | ok q =>
      obtain ⟨s1, r1⟩ := q
      rw [h1] at h
      cases r1 <;> exact (nomatch h)

/-- **C33** for lists of rules of any length. -/
theorem C33_rules_partial (leaf : STy → Val → Prop) : ∀ (rs : List Rule) {n fs v s'} {doc : Val}, AgreeL leaf rs (.struct n fs v) doc →
    Valid leaf (.struct n fs v) doc → applyRulesSchema rs (.struct n fs v) = .ok s' →
    ∃ doc', applyRules rs doc = .ok doc' ∧ Valid leaf s' doc' ∧ doc'.isWeak = doc.isWeak
  | [], n, fs, v, s', doc, _, hv, h => by cases h; exact ⟨doc, rfl, hv, rfl⟩
  | r :: rs, n, fs, v, s', doc, ha, hv, h => by
    cases ha with
    | cons ha hrest =>
    simp only [applyRulesSchema, bind, Except.bind] at h
    cases h1 : r.applySchema (.struct n fs v) with
    | error e => rw [h1] at h; exact (nomatch h)
    | ok s1 =>
      rw [h1] at h
      obtain ⟨fs1, rfl⟩ := rule_top h1
      obtain ⟨doc1, h2, h3, h4⟩ := C33_rule_partial leaf ha hv h1
      obtain ⟨doc', h5, h6, h7⟩ := C33_rules_partial leaf rs (hrest _ _ h1 h2) h3 h
      exact ⟨doc', by simp only [applyRules, h2, bind, Except.bind]; exact h5, h6, h7.trans h4⟩

theorem upgradeSchemaLoop_eq (vi : VerInfo) : ∀ (is : List Int) (s : STy), upgradeSchemaLoop vi is s = applyRulesSchema (is.flatMap vi.rulesAt) s
  | [], s => rfl
  | i :: is, s => by
    have happ : ∀ (a b : List Rule) (s : STy), applyRulesSchema (a ++ b) s = (do applyRulesSchema b (← applyRulesSchema a s)) := by
      intro a
      induction a with
      | nil => intros; rfl
      | cons r a ih =>
        intro b s
        simp only [List.cons_append, applyRulesSchema, bind, Except.bind]
        cases h : r.applySchema s with
        | error e => rfl
        | ok s1 => exact ih b s1
    rw [List.flatMap_cons, happ]
    simp only [upgradeSchemaLoop, bind, Except.bind]
    cases h : applyRulesSchema (vi.rulesAt i) s with
    | error e => rfl
    | ok s1 => exact upgradeSchemaLoop_eq vi is s1

/-- **C33, C27** for documents of any older version. The schema file holds the schema of version `v0`; the document has version
`v0` and is valid for it. The class has a newer version and rules that act alike on both (`AgreeL`). If the check of the schema file
against the class then reports severity INFO, the document loads with the class.

Partial as `C27_partial` and `C33_rules_partial`. -/
theorem C27_older_partial (lower : Char → String) (c : DCfg) (n nb : String) (fsb : List Fld) (vb : VerInfo) (v0 : Int)
    (F M G : List (String × SFld)) (hk : ∀ e ∈ vb.rules, e.1 < vb.version)
    (hM : vb.applySchemaUpgrades (.struct n F (some v0)) = .ok (.struct n M (some v0)))
    (hG : materialize (.data nb fsb (some vb)) = .ok (.struct nb G (some vb.version)))
    (gM : MidS (.struct n M (some v0))) (gG : GoodF false G) (hl : LitUsableF c.ext G)
    (cs : List Change) (hc : checker lower (.struct n F (some v0)) (.data nb fsb (some vb)) = .ok cs)
    (hs : severityOf cs = .info) (hp : ∀ c ∈ cs, PlainChange c)
    (d : List (String × Val)) (hd : dget d "version" = some (.int v0))
    (hv : Valid (LoadsAs c) (.struct n F (some v0)) (.dict (ddel d "version"))) (hdw : dhas d WEAK_REF = false)
    (ha : AgreeL (LoadsAs c) ((rangeI v0 vb.version).flatMap vb.rulesAt) (.struct n F (some v0)) (.dict (ddel d "version")))
    (hraw : ∀ doc', vb.applyUpgrades (.dict (ddel d "version")) v0 = .ok doc' → Raw doc' ∧ IntsFit doc')
    (path : String) : ∃ r, fromDict c (.data nb fsb (some vb)) false path (.dict d) = .ok r := by
  have hM' := hM
  unfold VerInfo.applySchemaUpgrades at hM'
  rw [upgradeSchemaLoop_eq] at hM'
  obtain ⟨doc', h1, h2, h3⟩ := C33_rules_partial (LoadsAs c) _ ha hv hM'
  have hup : vb.applyUpgrades (.dict (ddel d "version")) v0 = .ok doc' := by rw [C16_upgrade_runs vb _ v0 hk]; exact h1
  have hz : versionHook c.allowMissing vb (.dict d) = .ok doc' := by
    have h1 : (vb.rules.all fun e => e.1 < vb.version) = true := by simpa using hk
    simp only [versionHook, hd, VerInfo.upgradeAny, h1, if_true, Val.asRangeInt, bind, Except.bind]
    exact hup
  have body : fromDict c (.data nb fsb (some vb)) false path (.dict d) = fromDict c (.data nb fsb .none) false path doc' := by
    conv => lhs; rw [fromDict]
    conv => rhs; rw [fromDict]
    simp only [hz, bind, Except.bind, pure, Except.pure]
  rw [body]
  obtain ⟨G', hG1, hG2⟩ := mat_data hG
  cases hG2
  unfold checker classSchema at hc
  rw [hG] at hc
  simp only [bind, Except.bind, pure, Except.pure] at hc
  rw [hM] at hc
  simp only [checkSchemas, bind, Except.bind, pure, Except.pure] at hc
  cases h0 : findChanges [] (.struct nb G (some vb.version)) (.struct n M (some v0)) with
  | error e => rw [h0] at hc; exact (nomatch hc)
  | ok cs0 =>
    rw [h0] at hc
    cases hc
    have harm := info_harmless lower cs0 (fun c hc => ⟨(C26_info _).1 hs c hc, hp c hc⟩)
    obtain ⟨m, G', w, cs', he, h4, h5, h6⟩ := harmless_struct h0 harm
    cases he
    have hweak : (Val.dict (ddel d "version")).isWeak = false := by
      show dhas (ddel d "version") WEAK_REF = false
      rw [dhas_ddel_ne _ (by decide)]
      exact hdw
    exact valid_fields c _ (valid_comp c _) (Nat.le_refl _) hG1 gM gG hl h4 h5 h6 doc' (hraw doc' hup).1 (hraw doc' hup).2 h2
      (h3.trans hweak) path

/-! ## rules for fields of the main class: conditions on the schema only -/

theorem parents_one {doc : Val} {k : String} (h : doc.isWeak = false) : Parents doc [k] := by
  intro q hq hne
  have : q = [] := by
    obtain ⟨t, ht⟩ := hq
    cases q with
    | nil => rfl
    | cons a q => simp at ht; obtain ⟨rfl, rfl, rfl⟩ := ht; exact absurd rfl hne
  subst this
  exact ⟨doc, by simp, h⟩

theorem clean_one {k : String} (h : ¬ Reserved k) : Clean [k] := by
  intro q hq
  rw [List.mem_singleton] at hq
  exact hq ▸ h

theorem top_agree {leaf : STy → Val → Prop} {r : Rule} {S : STy} {doc : Val} (ht : TopRule leaf r S) (hv : Valid leaf S doc) (hu : Unmarked doc) :
    Agree leaf r S doc := by
  cases ht with
  | delete h1 => exact .delete .last (clean_one h1)
  | @rename n fs v a b f h1 h2 h3 h4 =>
    refine .rename (S1 := .struct n (ddel fs a) v) (.here h1) (clean_one h2) (clean_one h3) ?_ (.last ?_) ?_ ?_
    · simp only [Rule.applySchema, removeSchema, h1, bind, Except.bind, pure, Except.pure]
    · rcases h4 with rfl | h4
      · exact dget_ddel_self ..
      · by_cases hab : a = b
        · subst hab; exact dget_ddel_self ..
        · rw [dget_ddel_ne _ hab]; exact h4
    · intro y hy
      exact ⟨.inl (hu.2 _ _ hy), fun _ _ => .last⟩
    · intro hn
      obtain ⟨d, rfl, -, -, hreq⟩ := (valid_struct ..).1 hv
      rcases hreq hu.1 _ _ h1 with ⟨x, hx, -⟩ | ho
      · simp [hx] at hn
      · exact ho
  | mapValue h1 h2 h3 => exact .mapValue (.here h1) (clean_one h2) (fun _ _ => parents_one hu.1) h3
  | changeDefault h1 h2 h3 _ => exact .changeDefault (.here h1) (clean_one h2) (fun _ _ => parents_one hu.1) h3
  | addDefault h1 h2 h3 _ => exact .addDefault (.here h1) (clean_one h2) h3

theorem unmarked_dict {d : List (String × Val)} : Unmarked (.dict d) ↔ dhas d WEAK_REF = false ∧ ∀ k x, dget d k = some x → x.isWeak = false := by
  constructor
  · rintro ⟨h1, h2⟩
    exact ⟨h1, fun k x hx => h2 k x (by simp [hx])⟩
  · rintro ⟨h1, h2⟩
    refine ⟨h1, fun k x hx => h2 k x ?_⟩
    cases hd : dget d k with
    | none => simp [hd] at hx
    | some y => simpa [hd] using hx

theorem unmarked_ddel {d : List (String × Val)} {k : String} (h : Unmarked (.dict d)) : Unmarked (.dict (ddel d k)) := by
  rw [unmarked_dict] at h ⊢
  refine ⟨?_, fun q x hx => ?_⟩
  · by_cases hk : k = WEAK_REF
    · subst hk; simp [dhas, dget_ddel_self]
    · rw [dhas_ddel_ne _ hk]; exact h.1
  · by_cases hk : k = q
    · subst hk; rw [dget_ddel_self] at hx; exact (nomatch hx)
    · rw [dget_ddel_ne _ hk] at hx; exact h.2 q x hx

theorem unmarked_dset {d : List (String × Val)} {k : String} {y : Val} (hk : ¬ Reserved k) (hy : y.isWeak = false) (h : Unmarked (.dict d)) :
    Unmarked (.dict (dset d k y)) := by
  rw [unmarked_dict] at h ⊢
  refine ⟨?_, fun q x hx => ?_⟩
  · rw [dhas_dset_ne _ _ (fun h => hk (.inl h))]; exact h.1
  · by_cases hq : k = q
    · subst hq; rw [dget_dset_self] at hx; cases hx; exact hy
    · rw [dget_dset_ne _ _ hq] at hx; exact h.2 q x hx

theorem top_unmarked {leaf : STy → Val → Prop} {r : Rule} {S S' : STy} {doc doc' : Val} (ht : TopRule leaf r S) (hv : Valid leaf S doc) (hu : Unmarked doc)
    (hs : r.applySchema S = .ok S') (h : r.apply doc = .ok doc') : Unmarked doc' := by
  have rem : ∀ (d : List (String × Val)) (k : String), Unmarked (.dict d) → ∃ d1, removePath (.dict d) [k] = .ok (.dict d1, dget d k) ∧ Unmarked (.dict d1) := by
    intro d k hu
    rw [removePath_single_dict]
    cases hk : dget d k with
    | none => exact ⟨d, rfl, hu⟩
    | some y => exact ⟨ddel d k, rfl, unmarked_ddel hu⟩
  have hdoc : ∃ d, doc = .dict d := by cases ht <;> (obtain ⟨d, rfl, -⟩ := (valid_struct ..).1 hv; exact ⟨d, rfl⟩)
  obtain ⟨d, rfl⟩ := hdoc
  have hent := (unmarked_dict.1 hu).2
  cases ht with
  | @delete n fs v k h1 =>
    obtain ⟨d1, h2, h3⟩ := rem d k hu
    simp only [Rule.apply, h2, bind, Except.bind, pure, Except.pure] at h
    cases h
    exact h3
  | @rename n fs v a b f h1 h2 h3 h4 =>
    obtain ⟨d1, h5, h6⟩ := rem d a hu
    simp only [Rule.apply, h5, bind, Except.bind, pure, Except.pure] at h
    cases hd : dget d a with
    | none => rw [hd] at h; cases h; exact h6
    | some y => rw [hd] at h; cases h; exact unmarked_dset h3 (hent _ _ hd) h6
  | @mapValue n fs v k f fn rd h1 h2 h3 =>
    obtain ⟨d1, h5, h6⟩ := rem d k hu
    simp only [Rule.apply, h5, bind, Except.bind, pure, Except.pure] at h
    cases hd : dget d k with
    | none => rw [hd] at h; cases h; exact h6
    | some y =>
      rw [hd] at h
      obtain ⟨d0, he, -, hkeys, -⟩ := (valid_struct ..).1 hv
      cases he
      rcases hkeys k y hd with hr | ⟨f0, hf0, hy⟩
      · exact absurd hr h2
      · rw [h1] at hf0
        cases hf0
        obtain ⟨f', hf'⟩ : ∃ f', SField S' [k] f' := by
          simp only [Rule.applySchema, removeSchema, h1, assertField, bind, Except.bind, pure, Except.pure] at hs
          split at hs
          · split at hs
            · exact (nomatch hs)
            · exact ⟨_, insert_field _ _ .last hs⟩
          · exact ⟨_, insert_field _ _ .last hs⟩
        obtain ⟨z, hz, -, hzw⟩ := h3 S' f' hs hf' y hy
        dsimp only at h
        rw [hz] at h
        cases h
        exact unmarked_dset h2 hzw h6
  | @changeDefault n fs v k m t d0 h0 old new h1 h2 h3 h4 =>
    obtain ⟨d1, h5, h6⟩ := rem d k hu
    simp only [Rule.apply, h5, bind, Except.bind, pure, Except.pure] at h
    cases hd : dget d k with
    | none => rw [hd] at h; cases h; exact unmarked_dset h2 h4 h6
    | some y =>
      rw [hd] at h
      dsimp only at h
      rw [hent _ _ hd] at h
      cases h
      exact unmarked_dset h2 (hent _ _ hd) h6
  | @addDefault n fs v k f d0 h1 h2 h3 h4 =>
    obtain ⟨d1, h5, h6⟩ := rem d k hu
    simp only [Rule.apply, h5, bind, Except.bind, pure, Except.pure] at h
    cases hd : dget d k with
    | none => rw [hd] at h; cases h; exact unmarked_dset h2 h4 h6
    | some y => rw [hd] at h; cases h; exact unmarked_dset h2 (hent _ _ hd) h6

theorem top_agreeL {leaf : STy → Val → Prop} : ∀ (rs : List Rule) {n fs v} {doc : Val}, TopRules leaf rs (.struct n fs v) → Valid leaf (.struct n fs v) doc →
    Unmarked doc → AgreeL leaf rs (.struct n fs v) doc
  | [], _, _, _, _, _, _, _ => .nil
  | r :: rs, n, fs, v, doc, ht, hv, hu => by
    cases ht with
    | cons h1 h2 =>
    refine .cons (top_agree h1 hv hu) (fun S' doc' h3 h4 => ?_)
    obtain ⟨fs', rfl⟩ := rule_top h3
    obtain ⟨doc1, h5, h6, -⟩ := C33_rule_partial leaf (top_agree h1 hv hu) hv h3
    rw [h4] at h5
    cases h5
    exact top_agreeL rs (h2 _ h3) h6 (top_unmarked h1 hv hu h3 h4)

/-- **C33** for every list of rules for fields of the main class, and every document without marks: no condition on what the
document contains. -/
theorem C33_top_partial (leaf : STy → Val → Prop) (rs : List Rule) {n fs v s'} {doc : Val} (ht : TopRules leaf rs (.struct n fs v))
    (hv : Valid leaf (.struct n fs v) doc) (hu : Unmarked doc) (h : applyRulesSchema rs (.struct n fs v) = .ok s') :
    ∃ doc', applyRules rs doc = .ok doc' ∧ Valid leaf s' doc' := by
  obtain ⟨doc', h1, h2, -⟩ := C33_rules_partial leaf rs (top_agreeL rs ht hv hu) hv h
  exact ⟨doc', h1, h2⟩

/-! ## where it is false -/

/-- The class gets a new definition with a new version and these rules, which account for all changes: the check of the old schema
against the new class reports nothing. Yet there is a document that loads with the old class and not with the new one. -/
def Disagree (c : DCfg) (fsa fsb : List Fld) (rs : List Rule) : Prop :=
  (∃ s, materialize (.data "C" fsa (some ⟨0, []⟩)) = .ok s ∧ checker Ex.lc s (.data "C" fsb (some ⟨1, [(0, rs)]⟩)) = .ok []) ∧
  ∃ d, dget d "version" = some (.int 0) ∧ (∃ r, fromDict c (.data "C" fsa (some ⟨0, []⟩)) false "" (.dict d) = .ok r) ∧
    ∃ e, fromDict c (.data "C" fsb (some ⟨1, [(0, rs)]⟩)) false "" (.dict d) = .error e

theorem nil_of_test {α : Type} {x : Except Err (List α)} (h : (match x with | .ok [] => true | _ => false) = true) : x = .ok [] := by
  split at h
  · rfl
  · exact (nomatch h)

/-- the rules on schemas go through lists, those on documents do not -/
theorem C33_list_false (c : DCfg) : Disagree c [.mk "xs" (.list (.data "X" [.mk "a" .int .none] .none)) .none]
    [.mk "xs" (.list (.data "X" [.mk "b" .int .none] .none)) .none] [.rename ["xs", "a"] ["xs", "b"]] :=
  ⟨⟨_, rfl, nil_of_test (by decide +kernel)⟩, [("version", .int 0), ("xs", .list [.dict [("a", .int 1)]])], rfl, ⟨_, rfl⟩, ⟨_, rfl⟩⟩

/-- a field is renamed into an object that the document leaves out: the object is created, and lacks its other fields -/
theorem C33_created_false (c : DCfg) : Disagree c
    [.mk "x" .int .none, .mk "net" (.optional (.data "Net" [.mk "n" .int .none] .none)) (some .none)]
    [.mk "net" (.optional (.data "Net" [.mk "n" .int .none, .mk "x" .int .none] .none)) (some .none)] [.rename ["x"] ["net", "x"]] :=
  ⟨⟨_, rfl, nil_of_test (by decide +kernel)⟩, [("version", .int 0), ("x", .int 1)], rfl, ⟨_, rfl⟩, ⟨_, rfl⟩⟩

/-- a required field is renamed out of an Optional object that is None -/
theorem C33_none_false (c : DCfg) : Disagree c
    [.mk "net" (.optional (.data "Net" [.mk "n" .int .none, .mk "x" .int .none] .none)) .none]
    [.mk "net" (.optional (.data "Net" [.mk "n" .int .none] .none)) .none, .mk "x" .int .none] [.rename ["net", "x"] ["x"]] :=
  ⟨⟨_, rfl, nil_of_test (by decide +kernel)⟩, [("version", .int 0), ("net", .none)], rfl, ⟨_, rfl⟩, ⟨_, rfl⟩⟩

/-- two rules for the same field, the first of which has put its default into an object that is only kept if needed: the second
takes the value for one that was given, and the object for one that is needed -/
theorem C33_two_rules_false (c : DCfg) : Disagree c
    [.mk "net" (.optional (.data "Net" [.mk "n" .int .none, .mk "x" .int .none] .none)) (some .none)]
    [.mk "net" (.optional (.data "Net" [.mk "n" .int .none, .mk "x" .int (some (.int 2))] .none)) (some .none)]
    [.addDefault ["net", "x"] (.int 1), .changeDefault ["net", "x"] (.int 1) (.int 2)] :=
  ⟨⟨_, rfl, nil_of_test (by decide +kernel)⟩, [("version", .int 0)], rfl, ⟨_, rfl⟩, ⟨_, rfl⟩⟩

/-! ## non-vacuity -/

namespace Ex

/-- version 0: `lr: int`, `net: Net` with `n: int`, `old: int = 5` -/
def r0 : List (String × SFld) := [("lr", .mk "lr" (.prim "int") .none false .none), ("net", .mk "net" (.struct "Net"
  [("n", .mk "n" (.prim "int") .none false .none)] .none) .none false .none), ("old", .mk "old" (.prim "int") (.int 5) true .none)]
/-- `lr` is now `rate`, `net.n` is `net.m`, `old` is gone, `net.m` has a default -/
def rRules : List Rule := [.rename ["lr"] ["rate"], .rename ["net", "n"] ["net", "m"], .delete ["old"], .addDefault ["net", "m"] (.int 7)]
/-- what the rules make of the schema -/
def r1 : List (String × SFld) := [("net", .mk "net" (.struct "Net" [("m", .mk "n" (.prim "int") (.int 7) true .none)] .none) .none false .none),
  ("rate", .mk "lr" (.prim "int") .none false .none)]
/-- version 1: `rate` may be a float, `net.k` is new -/
def rNew : List Fld := [.mk "net" (.data "Net" [.mk "m" .int (some (.int 7)), .mk "k" .str (some (.str "a"))] .none) .none, .mk "rate" .float .none]
def rDoc : List (String × Val) := [("version", .int 0), ("lr", .int 3), ("net", .dict [("n", .int 4)])]
def rVer : VerInfo := ⟨1, [(0, rRules)]⟩

theorem int_leaf (c : DCfg) (i : Int) : LoadsAs c (.prim "int") (.int i) := ⟨.int, rfl, fun _ => ⟨(.int i, []), rfl⟩⟩

theorem rDoc_valid (c : DCfg) : Valid (LoadsAs c) (.struct "C" r0 (some 0)) (.dict (ddel rDoc "version")) := by
  refine ⟨_, rfl, by decide, ?_, ?_⟩
  · intro k x hx
    simp [rDoc, ddel, dget] at hx
    split at hx
    · rename_i hk
      cases hx
      subst hk
      exact .inr (.inl ⟨rfl, int_leaf c 3⟩)
    · split at hx
      · rename_i hk
        cases hx
        subst hk
        refine .inr (.inr ⟨by decide, .inl ⟨rfl, _, rfl, by decide, ?_, ?_⟩⟩)
        · intro k x hx
          simp [dget] at hx
          obtain ⟨rfl, rfl⟩ := hx
          exact .inr (.inl ⟨rfl, int_leaf c 4⟩)
        · intro _ k f hf
          simp [dget] at hf
          obtain ⟨rfl, rfl⟩ := hf
          exact .inl ⟨_, rfl, rfl⟩
      · exact (nomatch hx)
  · intro _ k f hf
    simp [r0, dget] at hf
    split at hf
    · subst_vars; exact .inl ⟨_, rfl, rfl⟩
    · split at hf
      · subst_vars; exact .inl ⟨_, rfl, rfl⟩
      · split at hf
        · cases hf; exact .inr .dflt
        · exact (nomatch hf)

theorem clean_dec {p : List String} (h : p.all (fun k => k != WEAK_REF && k != NAME_KEY) = true) : Clean p := by
  intro k hk hr
  have := List.all_eq_true.1 h k hk
  rcases hr with rfl | rfl <;> simp at this

def plainB : Change → Bool
  | .typeChanged _ (.prim _) _ => true
  | .fieldAdded .. => true
  | _ => false

theorem plainB_plain (c : Change) (h : plainB c = true) : PlainChange c := by
  cases c with
  | typeChanged p o n => cases o <;> first | exact FlatS.prim | exact (nomatch h)
  | fieldAdded => trivial
  | _ => exact (nomatch h)

/-- the rules act alike on the schema and the document -/
theorem rDoc_agree (c : DCfg) : AgreeL (LoadsAs c) rRules (.struct "C" r0 (some 0)) (.dict (ddel rDoc "version")) := by
  refine .cons (.rename (.here rfl) (clean_dec (by decide)) (clean_dec (by decide)) rfl (.last rfl) ?_ ?_) ?_
  · intro y hy
    cases hy
    exact ⟨.inl rfl, fun _ _ => .last⟩
  · intro h; exact (nomatch h)
  intro S1 d1 h1 h2
  cases h1
  cases h2
  refine .cons (.rename (.under rfl (.here rfl)) (clean_dec (by decide)) (clean_dec (by decide)) rfl (.under rfl (.last rfl)) ?_ ?_) ?_
  · intro y hy
    cases hy
    refine ⟨.inl rfl, fun _ h => ?_⟩
    cases h
    refine .step rfl rfl ?_ ?_ .last
    · intro x hx hw; cases hx; exact (nomatch hw)
    · intro h; exact (nomatch h)
  · intro h; exact (nomatch h)
  intro S2 d2 h1 h2
  cases h1
  cases h2
  refine .cons (.delete .last (clean_dec (by decide))) ?_
  intro S3 d3 h1 h2
  cases h1
  cases h2
  refine .cons (.addDefault (.under rfl (.here rfl)) (clean_dec (by decide)) (int_leaf c 7)) ?_
  intro S4 d4 h1 h2
  exact .nil

end Ex

example : Ex.rVer.applySchemaUpgrades (.struct "C" Ex.r0 (some 0)) = .ok (.struct "C" Ex.r1 (some 0)) := rfl
example : (match checker Ex.lc (.struct "C" Ex.r0 (some 0)) (.data "C" Ex.rNew (some Ex.rVer)) with
  | .ok cs => cs.map (fun c => c.tag.2) == [["net", "k"], ["rate"]] && severityOf cs == .info | .error _ => false) = true := by decide +kernel
/-- all hypotheses of `C27_older_partial` together -/
example (c : DCfg) : ∃ r, fromDict c (.data "C" Ex.rNew (some Ex.rVer)) false "" (.dict Ex.rDoc) = .ok r := by
  have ht : (match checker Ex.lc (.struct "C" Ex.r0 (some 0)) (.data "C" Ex.rNew (some Ex.rVer)) with
    | .ok cs => severityOf cs == .info && cs.all Ex.plainB | .error _ => false) = true := by decide +kernel
  cases hc : checker Ex.lc (.struct "C" Ex.r0 (some 0)) (.data "C" Ex.rNew (some Ex.rVer)) with
  | error e => rw [hc] at ht; exact (nomatch ht)
  | ok cs =>
    rw [hc] at ht
    simp only [Bool.and_eq_true, beq_iff_eq] at ht
    refine C27_older_partial Ex.lc c "C" "C" Ex.rNew Ex.rVer 0 Ex.r0 Ex.r1 _ (by simp [Ex.rVer]) rfl rfl ?_ ?_ ?_ cs hc ht.1
      (fun c hc => Ex.plainB_plain c (List.all_eq_true.1 ht.2 c hc)) Ex.rDoc rfl (Ex.rDoc_valid c) (by decide) (Ex.rDoc_agree c) ?_ ""
    · refine .struct (by simp [Ex.r1]) (by decide) ?_
      intro k f hf
      simp [Ex.r1] at hf
      rcases hf with ⟨rfl, rfl⟩ | ⟨rfl, rfl⟩
      · refine .struct (by simp) (by decide) ?_
        intro k f hf
        simp at hf
        obtain ⟨rfl, rfl⟩ := hf
        exact .leaf rfl (by simp [SFld.type]) .prim
      · exact .leaf rfl (by simp [SFld.type]) .prim
    · refine ⟨by decide, ?_⟩
      intro k f hf
      simp at hf
      rcases hf with ⟨rfl, rfl⟩ | ⟨rfl, rfl⟩
      · refine .struct (by simp) (by decide) ?_
        intro k f hf
        simp at hf
        rcases hf with ⟨rfl, rfl⟩ | ⟨rfl, rfl⟩ <;> exact .prim
      · exact .prim
    · simp [LitUsableF, LitUsableP, LitUsableS, LitUsable]
    · intro doc' h
      cases h
      have key : ∀ y, Inside y (.dict [("net", .dict [("m", .int 4)]), ("rate", .int 3)]) →
          (y = .dict [("net", .dict [("m", .int 4)]), ("rate", .int 3)]) ∨ y = .dict [("m", .int 4)] ∨ y = .int 4 ∨ y = .int 3 := by
        intro y hy
        cases hy with
        | refl => exact .inl rfl
        | dict h1 h2 =>
          simp at h1
          rcases h1 with ⟨rfl, rfl⟩ | ⟨rfl, rfl⟩
          · cases h2 with
            | refl => simp
            | dict h1 h2 =>
              simp at h1
              obtain ⟨rfl, rfl⟩ := h1
              cases h2
              simp
          · cases h2
            simp
      constructor
      · intro y hy
        rcases key y hy with rfl | rfl | rfl | rfl <;> rfl
      · intro i hi
        rcases key _ hi with h | h | h | h <;> simp only [Val.int.injEq, reduceCtorEq] at h <;> subst h
        · exact ⟨_, floatOfInt_small (by decide)⟩
        · exact ⟨_, floatOfInt_small (by decide)⟩
/-- the rules for fields of the main class -/
example (c : DCfg) : TopRules (LoadsAs c) [.rename ["lr"] ["rate"], .delete ["old"]] (.struct "C" Ex.r0 (some 0)) := by
  refine .cons (.rename rfl ?_ ?_ (.inr rfl)) fun S' h => ?_
  · rintro (h | h) <;> exact absurd h (by decide)
  · rintro (h | h) <;> exact absurd h (by decide)
  cases h
  exact .cons (.delete (by rintro (h | h) <;> exact absurd h (by decide))) fun _ _ => .nil
example : Unmarked (.dict (ddel Ex.rDoc "version")) := by
  rw [unmarked_dict]
  refine ⟨by decide, ?_⟩
  intro k x hx
  simp [Ex.rDoc, ddel, dget] at hx
  split at hx
  · cases hx; rfl
  · split at hx
    · cases hx; rfl
    · exact (nomatch hx)

/-- ints and Literals only -/
def Ex.intLeaf (t : STy) (v : Val) : Prop := (t = .prim "int" ∧ ∃ i, v = .int i) ∨ ∃ vs, t = .literal vs ∧ pyMem v vs = true
/-- MapFieldValue, ChangeDefault and CheckValue on `{lr: 3, net: {n: 4}}` and `{lr: 3}` -/
example : Agree Ex.intLeaf (.mapValue ["net", "n"] (fun v => match v with | .int i => .ok (.int (2 * i)) | _ => .error .typeError) .none)
    (.struct "C" Ex.r0 .none) (.dict [("lr", .int 3), ("net", .dict [("n", .int 4)])]) := by
  refine .mapValue (.under rfl (.here rfl)) (Ex.clean_dec (by decide)) ?_ ?_
  · intro y _ q hq hne
    have hm := (List.prefix_iff_eq_take.1 hq)
    have hl := hq.length_le
    simp only [List.length_cons, List.length_nil] at hl
    match h : q.length, hl with
    | 0, _ => rw [h] at hm; subst hm; exact ⟨_, rfl, rfl⟩
    | 1, _ => rw [h] at hm; subst hm; exact ⟨_, rfl, rfl⟩
    | 2, _ => rw [h] at hm; exact absurd hm hne
  · intro S' f' h hf y hy
    cases h
    cases hf with
    | under h1 h2 =>
      cases h1
      cases h2 with
      | here h1 =>
        cases h1
        rcases hy with ⟨-, i, rfl⟩ | ⟨_, h, _⟩
        · exact ⟨.int (2 * i), rfl, .inl ⟨rfl, _, rfl⟩, rfl⟩
        · exact (nomatch h)
example : Agree Ex.intLeaf (.changeDefault ["old"] (.int 5) (.int 6)) (.struct "C" Ex.r0 .none) (.dict [("lr", .int 3)]) :=
  .changeDefault (.here rfl) (Ex.clean_dec (by decide)) (fun y hy => nomatch hy) (.inl ⟨rfl, 5, rfl⟩)
example : Agree Ex.intLeaf (.checkValue ["lr"] [.int 3, .int 4]) (.struct "C" Ex.r0 .none) (.dict [("lr", .int 3)]) := by
  refine .checkValue (.here rfl) (Ex.clean_dec (by decide)) ?_ ?_ ⟨_, rfl⟩
  · intro h; cases h
  · intro y hy; exact .inr ⟨_, rfl, hy⟩

/-! ## without a version -/

/-- C33: a schema without a version counts as version 0: it is upgraded by the rules of all versions from 0 on, in order -/
theorem C33_versionless (vi : VerInfo) (n : String) (fs : List (String × SFld)) :
    vi.applySchemaUpgrades (.struct n fs .none) =
      applyRulesSchema ((List.range vi.version.toNat).flatMap fun i : Nat => vi.rulesAt i) (.struct n fs .none) := by
  rw [VerInfo.applySchemaUpgrades, upgradeSchemaLoop_eq]
  congr 1
  simp [rangeI, STy.versionOr0, List.flatMap_map]

/-- C33: a schema of version `v` is upgraded by the rules of the versions from `v` on, in order -/
theorem C33_versions (vi : VerInfo) (n : String) (fs : List (String × SFld)) (v : Int) :
    vi.applySchemaUpgrades (.struct n fs (some v)) =
      applyRulesSchema ((List.range (vi.version - v).toNat).flatMap fun i : Nat => vi.rulesAt (v + i)) (.struct n fs (some v)) := by
  rw [VerInfo.applySchemaUpgrades, upgradeSchemaLoop_eq]
  congr 1
  simp [rangeI, STy.versionOr0, List.flatMap_map]

/-- Without versions documents and schemas are treated differently: a document without a version, where this is allowed (in a load
without a file, where it holds nothing but overrides), is not upgraded at all, while a schema without one is upgraded from version
0 on. Here the schema has a field `b` after the upgrade, and the document still has `a`. -/
theorem C33_versionless_differs : ∃ (vi : VerInfo) (s s' : STy) (d : List (String × Val)),
    vi.applySchemaUpgrades s = .ok s' ∧ (∃ f, SField s ["a"] f) ∧ (∃ f, SField s' ["b"] f) ∧ (∀ f, ¬ SField s' ["a"] f) ∧
    versionHook true vi (.dict d) = .ok (.dict d) ∧ dget d "a" = some (.int 1) ∧ dget d "b" = .none := by
  refine ⟨⟨1, [(0, [.rename ["a"] ["b"]])]⟩, .struct "C" [("a", .mk "a" (.prim "int") .none false .none)] .none, _, [("a", .int 1)],
    rfl, ⟨_, .here rfl⟩, ⟨_, .here rfl⟩, ?_, rfl, rfl, rfl⟩
  intro f h
  cases h with
  | here h => exact (nomatch h)

/-- the rule of version 0 has been applied to the schema without a version -/
example : (match (VerInfo.mk 1 [(0, [.rename ["a"] ["b"]])]).applySchemaUpgrades
      (.struct "C" [("a", .mk "a" (.prim "int") .none false .none)] .none) with
    | .ok (.struct _ fs _) => fs.map Prod.fst | _ => []) = ["b"] := by decide +kernel

end HS
