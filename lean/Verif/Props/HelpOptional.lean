import Verif.Props.Help
/-! # Help and the fields below optional dataclasses

`find_fields` (`hyperstate/schema/help.py:92`) walks into fields whose type is a dataclass and not into `Optional` ones, while an
override walks into both. -/
namespace HS
variable {lower : Char → String}

theorem direct_fieldAt {fs : List Fld} {p : List String} {f : Fld} (h : DirectAt fs p f) : DistinctNames fs →
    ∀ {n : String} {fs' : List Fld} {ver : Option VerInfo} {k : String} {ks : List String} {t : PyTy},
    Strips f.ty (.data n fs' ver) → FieldAt fs' (k :: ks) t → FieldAt fs (p ++ k :: ks) t := by
  induction h with
  | @here fs f hf =>
    intro hd n fs' ver k ks t hs ha
    cases hd with
    | mk hn _ => exact .there (find_of_mem hn hf) hs ha
  | @there fs f g m fs₁ ver₁ p hf hty hd' ih =>
    intro hd n fs' ver k ks t hs ha
    cases hd with
    | mk hn hr =>
      have hp : ∃ j js, p = j :: js := by cases hd' <;> exact ⟨_, _, rfl⟩
      obtain ⟨j, js, rfl⟩ := hp
      refine .there (f := f) (n := m) (fs' := fs₁) (ver := ver₁) (find_of_mem hn hf) ?_ (ih (hr f m fs₁ ver₁ hf hty) hs ha)
      rw [hty]
      exact .refl m fs₁ ver₁

theorem direct_not_below {fs : List Fld} {p : List String} {f : Fld} (h : DirectAt fs p f) : DistinctNames fs →
    (∀ n fs' ver, f.ty ≠ .data n fs' ver) → ∀ (k : String) (ks : List String) (g : Fld), ¬ DirectAt fs (p ++ k :: ks) g := by
  induction h with
  | @here fs f hf =>
    intro hd hn k ks g hg
    obtain ⟨f', d1, d2⟩ := (direct_iff _ _ _).1 hg
    cases hd with
    | mk hnd _ =>
      rcases d2 with ⟨d2, _⟩ | ⟨p', d2, n, fs', ver, d3, _⟩
      · simp at d2
      · simp only [List.singleton_append, List.cons.injEq] at d2
        have e1 := find_of_mem hnd hf
        have e2 := find_of_mem hnd d1
        rw [d2.1, e2] at e1
        cases e1
        exact hn n fs' ver d3
  | @there fs f g m fs₁ ver₁ p hf hty hd' ih =>
    intro hd hn k ks g' hg
    obtain ⟨f', d1, d2⟩ := (direct_iff _ _ _).1 hg
    cases hd with
    | mk hnd hr =>
      rcases d2 with ⟨d2, _⟩ | ⟨p', d2, n, fs', ver, d3, d4⟩
      · simp at d2
      · simp only [List.cons_append, List.cons.injEq] at d2
        have e1 := find_of_mem hnd hf
        have e2 := find_of_mem hnd d1
        rw [d2.1, e2] at e1
        cases e1
        rw [hty] at d3
        cases d3
        exact ih (hr _ m fs₁ ver₁ hf hty) hn k ks g' (d2.2 ▸ d4)

/-- C53, the failing case in general: for every class and every field help lists whose type is an optional dataclass, every path that
goes on below that field is one an override may name, and help lists it for no query. -/
theorem C53_below_optional_false (fs : List Fld) (F : List (String × SFld)) (hm : materializeF fs = .ok F) (hd : DistinctNames fs)
    (p : List String) (f : Fld) (hp : DirectAt fs p f) (t : PyTy) (hty : f.ty = .optional t)
    (n : String) (fs' : List Fld) (ver : Option VerInfo) (hs : Strips t (.data n fs' ver))
    (k : String) (ks : List String) (u : PyTy) (ha : FieldAt fs' (k :: ks) u) :
    (∃ sf, findField F (p ++ k :: ks) = some sf ∧ materialize u = .ok sf.type) ∧
    ∀ (q : String) (rs : List Found), helpF lower q [] F = .ok rs → ∀ r ∈ rs, r.fullPath ≠ p ++ k :: ks := by
  have hs' : Strips f.ty (.data n fs' ver) := by rw [hty]; exact .opt hs
  refine ⟨(findField_iff _ hm).1 u (direct_fieldAt hp hd hs' ha), ?_⟩
  intro q rs h r hr he
  obtain ⟨h4, _⟩ := helpF_ok fs F [] rs hm h
  obtain ⟨p', g, t', c1, c2, _⟩ := h4.sound r hr
  rw [List.nil_append] at c1
  rw [← c1, he] at c2
  exact direct_not_below hp hd (fun a b c e => by rw [hty] at e; exact (nomatch e)) k ks g c2

/-- The hypotheses are met: `extra: Optional[Opt]`, and `extra.lr`. -/
example : (∃ F, materializeF Ex.hFields = .ok F) ∧ DistinctNames Ex.hFields ∧
    DirectAt Ex.hFields ["extra"] (.mk "extra" (.optional Ex.hOpt) (some .none)) ∧
    (∃ n fs' ver, Strips Ex.hOpt (.data n fs' ver) ∧ FieldAt fs' ["lr"] .float) :=
  ⟨⟨_, rfl⟩, Ex.hDistinct, .here (f := .mk "extra" (.optional Ex.hOpt) (some .none)) (by simp [Ex.hFields]),
    _, _, _, .refl _ _ _, .here (f := .mk "lr" .float .none) rfl⟩
end HS
