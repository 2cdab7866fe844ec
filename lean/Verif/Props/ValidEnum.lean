import Verif.Props.Valid
/-!
# C33: MapFieldValue on a field with an enum type
-/
namespace HS

theorem SField.det : ∀ {p : List String} {s : STy} {f g : SFld}, SField s p f → SField s p g → f = g := by
  intro p
  induction p with
  | nil => intro s f g h _; exact (nomatch h)
  | cons k p ih =>
    intro s f g h h'
    cases h with
    | here h1 => cases h' with | here h2 => rw [h1] at h2; cases h2; rfl
    | under h1 h3 => cases h' with | under h2 h4 => rw [h1] at h2; cases h2; exact ih h3 h4

theorem mapVariants_mem {fn : Val → Except Err Val} : ∀ {vs vs' : List (String × Val)}, mapVariants fn vs = .ok vs' →
    ∀ k w, (k, w) ∈ vs' ↔ ∃ v, (k, v) ∈ vs ∧ fn v = .ok w := by
  intro vs
  induction vs with
  | nil => intro vs' h; cases h; simp
  | cons e vs ih =>
    obtain ⟨k0, v0⟩ := e
    intro vs' h k w
    simp only [mapVariants, bind, Except.bind, pure, Except.pure] at h
    cases h1 : fn v0 with
    | error e => rw [h1] at h; exact (nomatch h)
    | ok w0 =>
      rw [h1] at h
      cases h2 : mapVariants fn vs with
      | error e => rw [h2] at h; exact (nomatch h)
      | ok ws =>
        rw [h2] at h
        cases h
        simp only [List.mem_cons, Prod.mk.injEq, ih h2 k w]
        constructor
        · rintro (⟨rfl, rfl⟩ | ⟨v, hm, hv⟩)
          · exact ⟨v0, .inl ⟨rfl, rfl⟩, h1⟩
          · exact ⟨v, .inr hm, hv⟩
        · rintro ⟨v, ⟨rfl, rfl⟩ | hm, hv⟩
          · rw [h1] at hv; cases hv; exact .inl ⟨rfl, rfl⟩
          · exact .inr ⟨v, hm, hv⟩

theorem mapVariants_keys {fn : Val → Except Err Val} : ∀ {vs vs' : List (String × Val)}, mapVariants fn vs = .ok vs' → dkeys vs' = dkeys vs := by
  intro vs
  induction vs with
  | nil => intro vs' h; cases h; rfl
  | cons e vs ih =>
    obtain ⟨k0, v0⟩ := e
    intro vs' h
    simp only [mapVariants, bind, Except.bind, pure, Except.pure] at h
    cases h1 : fn v0 with
    | error e => rw [h1] at h; exact (nomatch h)
    | ok w0 =>
      rw [h1] at h
      cases h2 : mapVariants fn vs with
      | error e => rw [h2] at h; exact (nomatch h)
      | ok ws =>
        rw [h2] at h
        cases h
        simp only [dkeys, List.map_cons, List.cons.injEq, true_and]
        exact ih h2

theorem mapVariants_all {fn : Val → Except Err Val} : ∀ {vs vs' : List (String × Val)}, mapVariants fn vs = .ok vs' →
    ∀ k v, (k, v) ∈ vs → ∃ w, fn v = .ok w := by
  intro vs
  induction vs with
  | nil => intro vs' _ k v h; exact (nomatch h)
  | cons e vs ih =>
    obtain ⟨k0, v0⟩ := e
    intro vs' h k v hm
    simp only [mapVariants, bind, Except.bind, pure, Except.pure] at h
    cases h1 : fn v0 with
    | error e => rw [h1] at h; exact (nomatch h)
    | ok w0 =>
      rw [h1] at h
      cases h2 : mapVariants fn vs with
      | error e => rw [h2] at h; exact (nomatch h)
      | ok ws =>
        rcases List.mem_cons.1 hm with e | hm
        · cases e; exact ⟨w0, h1⟩
        · exact ih h2 k v hm

/-- C33, MapFieldValue on an enum field, in the schema: the field keeps its name, default and description, the enum its name and its
variants in their order; the value of a variant is what the function makes of the old one. -/
theorem C33_map_variants {n fs v s' fname en vs d hd doc} {p : List String} {fn : Val → Except Err Val} {r : Option String}
    (hf : SField (.struct n fs v) p (.mk fname (.enum en vs) d hd doc))
    (h : (Rule.mapValue p fn r).applySchema (.struct n fs v) = .ok s') :
    ∃ vs', SField s' p (.mk fname (.enum en vs') d hd doc) ∧ dkeys vs' = dkeys vs ∧
      (∀ k v, (k, v) ∈ vs → ∃ w, fn v = .ok w) ∧ ∀ k w, (k, w) ∈ vs' ↔ ∃ v, (k, v) ∈ vs ∧ fn v = .ok w := by
  obtain ⟨_, fs1, h1, hnew⟩ := remove_field _ hf
  simp only [Rule.applySchema, h1, assertField, bind, Except.bind] at h
  cases h2 : mapVariants fn vs with
  | error e => rw [h2] at h; exact (nomatch h)
  | ok vs' =>
    rw [h2] at h
    exact ⟨vs', insert_field _ p hnew.struct h, mapVariants_keys h2, mapVariants_all h2, mapVariants_mem h2⟩

/-- C33, MapFieldValue on an enum field, schema and document together: if a document is valid for the schema then the upgraded document is
valid for the rewritten schema. Nothing is assumed about the function but that it does not create the marker of weak objects: that its
results are variants of the new enum follows. -/
theorem C33_map_enum (leaf : STy → Val → Prop) {n fs v s' fname en vs d hd doc0} {doc : Val} {p : List String} {fn : Val → Except Err Val}
    {r : Option String} (hleaf : ∀ e ws y, leaf (.enum e ws) y ↔ ∃ k, (k, y) ∈ ws)
    (hv : Valid leaf (.struct n fs v) doc) (hf : SField (.struct n fs v) p (.mk fname (.enum en vs) d hd doc0)) (hw : Clean p)
    (hpar : ∀ y, doc.at? p = some y → Parents doc p) (hweak : ∀ y z, fn y = .ok z → z.isWeak = false)
    (h : (Rule.mapValue p fn r).applySchema (.struct n fs v) = .ok s') :
    ∃ doc', (Rule.mapValue p fn r).apply doc = .ok doc' ∧ Valid leaf s' doc' ∧ doc'.isWeak = doc.isWeak := by
  obtain ⟨vs', hf', hk, hall, hm⟩ := C33_map_variants hf h
  refine C33_map_partial leaf hv hf hw hpar ?_ h
  intro f' hf2 y hy
  cases hf'.det hf2
  have hy : leaf (.enum en vs) y := hy
  obtain ⟨k, hky⟩ := (hleaf _ _ _).1 hy
  obtain ⟨w, hwy⟩ := hall k y hky
  refine ⟨w, hwy, ?_, hweak y w hwy⟩
  show leaf (.enum en vs') w
  exact (hleaf _ _ _).2 ⟨k, (hm k w).2 ⟨y, hky, hwy⟩⟩

/-! ## examples and counterexamples -/

namespace ExVE
/-- `lambda s: {"fast": "quick"}.get(s, s)` -/
def fn : Val → Except Err Val
  | .str "fast" => .ok (.str "quick")
  | .dict _ => .error .typeError
  | x => .ok x

def leaf : STy → Val → Prop
  | .enum _ ws, y => ∃ k, (k, y) ∈ ws
  | _, _ => True

def vs : List (String × Val) := [("FAST", .str "fast"), ("SLOW", .str "slow")]
def vs' : List (String × Val) := [("FAST", .str "quick"), ("SLOW", .str "slow")]
def sch (t : STy) (d : Val) (h : Bool) : STy := .struct "C" [("mode", .mk "mode" t d h .none)] (some 0)
def doc (v : Val) : Val := .dict [("mode", v)]

theorem rule_schema : (Rule.mapValue ["mode"] fn .none).applySchema (sch (.enum "M" vs) .none false) = .ok (sch (.enum "M" vs') .none false) := rfl

theorem valid (t : STy) (d : Val) (h : Bool) (y : Val) (hy : Valid leaf t y) (hw : y.isWeak = false) : Valid leaf (sch t d h) (doc y) := by
  refine ⟨_, rfl, by simp [dkeys], ?_, ?_⟩
  · intro k x hk
    simp only [dget] at hk
    split at hk
    · rename_i e; subst e; cases hk; exact .inr (.inl ⟨rfl, hy⟩)
    · exact (nomatch hk)
  · intro _ k f hf
    simp only [dget] at hf
    split at hf
    · rename_i e; subst e; exact .inl ⟨y, by simp [dget], hw⟩
    · exact (nomatch hf)

theorem mode_free : ¬ Reserved "mode" := by simp [Reserved, WEAK_REF, NAME_KEY]

theorem fn_weak (y z : Val) (h : fn y = .ok z) : z.isWeak = false := by
  unfold fn at h
  split at h
  · cases h; rfl
  · exact (nomatch h)
  · rename_i hd; cases h; cases y <;> first | rfl | exact absurd rfl (hd _)

/-- C33_map_enum applies -/
example : ∃ d, (Rule.mapValue ["mode"] fn .none).apply (doc (.str "fast")) = .ok d ∧ Valid leaf (sch (.enum "M" vs') .none false) d ∧
    d.isWeak = (doc (.str "fast")).isWeak := by
  have hy : Valid leaf (.enum "M" vs) (.str "fast") := ⟨"FAST", by simp [vs]⟩
  exact C33_map_enum leaf (fun _ _ _ => Iff.rfl) (valid _ .none false _ hy rfl) (.here rfl) (clean_one mode_free)
    (fun _ _ => parents_one (by decide)) fn_weak rule_schema
end ExVE

/-- C33 is false of MapFieldValue on an Optional enum field: the schema is left as it is, so that the upgraded document is not valid for
it (rewrite_rule.py:68 looks for Enum only). -/
theorem C33_map_optional_false : ∃ (leaf : STy → Val → Prop) (s s' : STy) (r : Rule) (doc doc' : Val),
    (∀ e ws y, leaf (.enum e ws) y ↔ ∃ k, (k, y) ∈ ws) ∧ Valid leaf s doc ∧ r.applySchema s = .ok s' ∧ r.apply doc = .ok doc' ∧
    ¬ Valid leaf s' doc' := by
  have hy : Valid ExVE.leaf (.option (.enum "M" ExVE.vs)) (.str "fast") := .inr ⟨"FAST", by simp [ExVE.vs]⟩
  refine ⟨ExVE.leaf, ExVE.sch (.option (.enum "M" ExVE.vs)) .none false, ExVE.sch (.option (.enum "M" ExVE.vs)) .none false,
    .mapValue ["mode"] ExVE.fn .none, ExVE.doc (.str "fast"), ExVE.doc (.str "quick"), fun _ _ _ => Iff.rfl, ExVE.valid _ _ _ _ hy rfl, rfl, rfl, ?_⟩
  rintro ⟨d, hd, _, h, _⟩
  cases hd
  rcases h "mode" (.str "quick") rfl with h | h
  · exact absurd h ExVE.mode_free
  · rcases h with ⟨_, h⟩ | ⟨h, _⟩
    · rcases (show (Val.str "quick" = .none ∨ ExVE.leaf (.enum "M" ExVE.vs) (.str "quick")) from h) with h | ⟨k, h⟩
      · exact (nomatch h)
      · simp [ExVE.vs] at h
    · exact h rfl

/-- C33 is false of the default of an enum field: MapFieldValue maps the variants but not the default, so that in the rewritten schema
the default is none of the variants (rewrite_rule.py:69-81). -/
theorem C33_map_default_false : ∃ (s s' : STy) (r : Rule) (f f' : SFld) (en : String) (vs vs' : List (String × Val)),
    r.applySchema s = .ok s' ∧ SField s ["mode"] f ∧ SField s' ["mode"] f' ∧ f.type = .enum en vs ∧ f'.type = .enum en vs' ∧
    f.hasDefault = true ∧ f'.hasDefault = true ∧ (∃ k, (k, f.dflt) ∈ vs) ∧ ¬ ∃ k, (k, f'.dflt) ∈ vs' :=
  ⟨ExVE.sch (.enum "M" ExVE.vs) (.str "fast") true, ExVE.sch (.enum "M" ExVE.vs') (.str "fast") true, .mapValue ["mode"] ExVE.fn .none, _, _, "M",
    ExVE.vs, ExVE.vs', rfl, .here rfl, .here rfl, rfl, rfl, rfl, rfl, ⟨"FAST", by simp [ExVE.vs, SFld.dflt]⟩,
    by rintro ⟨k, h⟩; simp [ExVE.vs', SFld.dflt] at h⟩

end HS
