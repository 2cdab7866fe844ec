import Verif.Proofs.Help
import Verif.Props.Names
/-!
# C53: the fields that help searches; C56: what help shows for a query
-/
namespace HS
variable (lower : Char → String)

mutual
theorem helpT_total (q : String) : ∀ (S : STy) (path : List String), ∃ rs, helpT lower q path S = .ok rs
  | .struct _ fs _, path => helpF_total q fs path
  | .prim _, _ | .list _, _ | .tuple _, _ | .dict _ _, _ | .union _, _ | .enum _ _, _ | .literal _, _ | .option _, _ | .nothing, _ =>
    ⟨[], rfl⟩
theorem helpF_total (q : String) : ∀ (F : List (String × SFld)) (path : List String), ∃ rs, helpF lower q path F = .ok rs
  | [], _ => ⟨[], rfl⟩
  | f :: fs, path => by
    obtain ⟨r, h1⟩ := helpP_total q f path
    obtain ⟨rs, h2⟩ := helpF_total q fs path
    exact ⟨r ++ rs, by simp [helpF, h1, h2, bind, Except.bind, pure, Except.pure]⟩
theorem helpP_total (q : String) : ∀ (f : String × SFld) (path : List String), ∃ rs, helpP lower q path f = .ok rs
  | (_, f), path => helpS_total q f path
theorem helpS_total (q : String) : ∀ (f : SFld) (path : List String), ∃ rs, helpS lower q path f = .ok rs
  | .mk n t d h doc, path => by
    obtain ⟨s, h1, _⟩ := C31_range lower n q
    obtain ⟨rs, h2⟩ := helpT_total q t (path ++ [n])
    exact ⟨_, by simp only [helpS, h1, h2, bind, Except.bind, pure, Except.pure]; rfl⟩
end

/-- C53: for every class and every query the search succeeds, lists every field of the class and of directly nested
dataclasses exactly once, lists nothing else, and the path shown for a field is a path that overrides accept for that
field. Missing: fields of `Optional` dataclasses, which overrides accept too, are not listed (`C53_optional_false`). -/
theorem C53_listed_partial (n : String) (fs : List Fld) (ver : Option VerInfo) (N : String) (F : List (String × SFld))
    (v : Option Int) (q : String) (hm : materialize (.data n fs ver) = .ok (.struct N F v)) (hd : DistinctNames fs) :
    ∃ rs, helpF lower q [] F = .ok rs ∧ (rs.map Found.fullPath).Nodup ∧
      (∀ p, (∃ f, DirectAt fs p f) ↔ ∃ r ∈ rs, r.fullPath = p) ∧
      (∀ r ∈ rs, findField F r.fullPath = some r.field) ∧
      (∀ r ∈ rs, nameSimilarity lower r.field.name q = .ok r.sim) := by
  obtain ⟨F', h1, h2⟩ := materialize_data hm
  cases h2
  obtain ⟨rs, h3⟩ := helpF_total lower q F []
  obtain ⟨h4, h5⟩ := helpF_ok fs F [] rs h1 h3
  refine ⟨rs, h3, ?_, ?_, ?_, ?_⟩
  · cases hd with
    | mk a b => exact h5 a (fun f hf n' fs' ver' he => b f n' fs' ver' hf he)
  · intro p
    constructor
    · rintro ⟨f, hf⟩
      exact h4.complete p f hf
    · rintro ⟨r, hr, rfl⟩
      obtain ⟨p, f, _, c1, c2, _⟩ := h4.sound r hr
      rw [List.nil_append] at c1
      exact ⟨f, c1 ▸ c2⟩
  · intro r hr
    obtain ⟨p, f, t, c1, c2, c3, c4, _⟩ := h4.sound r hr
    rw [List.nil_append] at c1
    obtain ⟨t', d1, d2⟩ := direct_find c2 hd h1
    rw [c3] at d1; cases d1
    rw [c1, c4, d2]
  · intro r hr
    obtain ⟨p, f, t, c1, c2, c3, c4, c5⟩ := h4.sound r hr
    rw [c4]; exact c5

/-- C53: the paths listed are paths of the class in the sense of the override theorems (`FieldAt`). -/
theorem C53_paths (fs : List Fld) (hd : DistinctNames fs) (p : List String) (f : Fld) (h : DirectAt fs p f) : FieldAt fs p f.ty := by
  induction h with
  | @here fs f hf =>
    cases hd with
    | mk hn _ => exact .here (find_of_mem hn hf)
  | @there fs f g n fs' ver p hf hty hd' ih =>
    cases hd with
    | mk hn hr =>
      have hp : ∃ k ks, p = k :: ks := by cases hd' <;> exact ⟨_, _, rfl⟩
      obtain ⟨k, ks, rfl⟩ := hp
      refine .there (f := f) (n := n) (fs' := fs') (ver := ver) (find_of_mem hn hf) ?_ (ih (hr f n fs' ver hf hty))
      rw [hty]
      exact .refl n fs' ver

namespace Ex
/-- `class Opt: lr: float; steps: int`, `class Main: optimizer: Opt; seed: int = 0; extra: Optional[Opt] = None` -/
def hOpt : PyTy := .data "Opt" [.mk "lr" .float .none, .mk "steps" .int .none] .none
def hFields : List Fld := [.mk "optimizer" hOpt .none, .mk "seed" .int (some (.int 0)), .mk "extra" (.optional hOpt) (some .none)]
end Ex

theorem Ex.hDistinct : DistinctNames Ex.hFields := by
  refine .mk (by decide +kernel) ?_
  intro f n fs' ver hf hty
  simp only [Ex.hFields, List.mem_cons, List.not_mem_nil, or_false] at hf
  rcases hf with rfl | rfl | rfl
  · cases hty
    refine .mk (by decide +kernel) ?_
    intro f n fs' ver hf hty
    simp only [List.mem_cons, List.not_mem_nil, or_false] at hf
    rcases hf with rfl | rfl
    · exact (nomatch hty)
    · exact (nomatch hty)
  · exact (nomatch hty)
  · exact absurd hty (by simp [Fld.ty, PyTy.optional])

/-- The hypotheses are met by a class with a nested dataclass, and the field inside it is listed. -/
example : (∃ F, materialize (.data "Main" Ex.hFields .none) = .ok (.struct "Main" F .none)) ∧ DistinctNames Ex.hFields ∧
    DirectAt Ex.hFields ["optimizer", "lr"] (.mk "lr" .float .none) :=
  ⟨⟨_, rfl⟩, Ex.hDistinct, .there (f := .mk "optimizer" Ex.hOpt .none) (by simp [Ex.hFields]) rfl (.here (f := .mk "lr" .float .none) (by simp))⟩

/-- C53 is false as stated: overrides accept `extra.lr`, but help does not list it, whatever the query. -/
theorem C53_optional_false : ∃ (fs : List Fld) (F : List (String × SFld)), materializeF fs = .ok F ∧ DistinctNames fs ∧
    (findField F ["extra", "lr"]).isSome = true ∧
    ∀ (q : String) (rs : List Found), helpF lower q [] F = .ok rs → ∀ r ∈ rs, r.fullPath ≠ ["extra", "lr"] := by
  refine ⟨Ex.hFields, _, rfl, Ex.hDistinct, by decide +kernel, ?_⟩
  intro q rs h r hr he
  obtain ⟨h4, _⟩ := helpF_ok Ex.hFields _ [] rs rfl h
  obtain ⟨p, f, t, c1, c2, _⟩ := h4.sound r hr
  rw [List.nil_append] at c1
  rw [← c1, he] at c2
  obtain ⟨f', d1, d2⟩ := (direct_iff _ _ _).1 c2
  simp only [Ex.hFields, List.mem_cons, List.not_mem_nil, or_false] at d1
  rcases d2 with ⟨d2, _⟩ | ⟨p', d2, n, fs', ver, d3, _⟩
  · simp at d2
  · rcases d1 with rfl | rfl | rfl
    · injection d2 with d2 _; exact absurd d2 (by decide)
    · exact (nomatch d3)
    · exact absurd d3 (by simp [Fld.ty, PyTy.optional])

/-! ## what is shown -/

theorem insertFound_perm (r : Found) : ∀ rs, (insertFound r rs).Perm (r :: rs)
  | [] => List.Perm.refl _
  | r' :: rs => by
    unfold insertFound
    split
    · exact List.Perm.refl _
    · exact ((insertFound_perm r rs).cons r').trans (List.Perm.swap r r' rs)

theorem helpSorted_perm : ∀ rs : List Found, (helpSorted rs).Perm rs
  | [] => List.Perm.refl _
  | r :: rs => (insertFound_perm r _).trans ((helpSorted_perm rs).cons r)

theorem insertFound_desc (r : Found) : ∀ rs : List Found, rs.Pairwise (fun a b => b.sim ≤ a.sim) →
    (insertFound r rs).Pairwise (fun a b => b.sim ≤ a.sim)
  | [], _ => List.pairwise_singleton _ _
  | r' :: rs, h => by
    unfold insertFound
    have h' := List.pairwise_cons.1 h
    split
    · rename_i hl
      refine List.pairwise_cons.2 ⟨?_, h⟩
      intro x hx
      rcases List.mem_cons.1 hx with rfl | hx
      · exact hl
      · exact le_trans (h'.1 x hx) hl
    · rename_i hl
      refine List.pairwise_cons.2 ⟨?_, insertFound_desc r rs h'.2⟩
      intro x hx
      rcases List.mem_cons.1 ((insertFound_perm r rs).mem_iff.1 hx) with rfl | hx
      · exact le_of_lt (not_le.1 hl)
      · exact h'.1 x hx

theorem helpSorted_desc : ∀ rs : List Found, (helpSorted rs).Pairwise (fun a b => b.sim ≤ a.sim)
  | [] => List.Pairwise.nil
  | r :: rs => insertFound_desc r _ (helpSorted_desc rs)

theorem helpLoop_prefix (q : String) (best : Rat) : ∀ (rs : List Found) (i : Nat) (last : Rat), helpLoop q best i last rs <+: rs
  | [], _, _ => List.prefix_refl _
  | r :: rs, i, last => by
    unfold helpLoop
    split
    · exact List.nil_prefix
    · exact List.cons_prefix_cons.2 ⟨rfl, helpLoop_prefix q best rs _ _⟩

theorem helpLoop_exact (q : String) (best : Rat) : ∀ (rs : List Found) (i : Nat) (last : Rat),
    rs.Pairwise (fun a b => b.sim ≤ a.sim) → ∀ r ∈ rs, 1 ≤ r.sim → r ∈ helpLoop q best i last rs
  | [], _, _, _, r, hr, _ => (nomatch hr)
  | r0 :: rs, i, last, hp, r, hr, h1 => by
    rw [List.pairwise_cons] at hp
    have h0 : 1 ≤ r0.sim := by
      rcases List.mem_cons.1 hr with rfl | hr
      · exact h1
      · exact le_trans h1 (hp.1 r hr)
    have hs : helpStops q best last i r0 = false := by
      simp [helpStops, not_lt.2 h0]
    unfold helpLoop
    rw [hs]
    rcases List.mem_cons.1 hr with rfl | hr
    · exact List.mem_cons_self
    · exact List.mem_cons_of_mem _ (helpLoop_exact q best rs _ _ hp.2 r hr h1)

mutual
theorem helpT_sims (q : String) : ∀ (S : STy) (path : List String) (rs : List Found), helpT lower q path S = .ok rs →
    ∀ r ∈ rs, nameSimilarity lower r.field.name q = .ok r.sim
  | .struct _ fs _, path, rs, h, r, hr => helpF_sims q fs path rs h r hr
  | .prim _, _, _, h, r, hr | .list _, _, _, h, r, hr | .tuple _, _, _, h, r, hr | .dict _ _, _, _, h, r, hr
  | .union _, _, _, h, r, hr | .enum _ _, _, _, h, r, hr | .literal _, _, _, h, r, hr | .option _, _, _, h, r, hr
  | .nothing, _, _, h, r, hr => by simp only [helpT] at h; cases h; exact (nomatch hr)
theorem helpF_sims (q : String) : ∀ (F : List (String × SFld)) (path : List String) (rs : List Found), helpF lower q path F = .ok rs →
    ∀ r ∈ rs, nameSimilarity lower r.field.name q = .ok r.sim
  | [], _, _, h, r, hr => by simp only [helpF] at h; cases h; exact (nomatch hr)
  | f :: fs, path, rs, h, r, hr => by
    simp only [helpF, bind, Except.bind, pure, Except.pure] at h
    cases h1 : helpP lower q path f with
    | error e => rw [h1] at h; exact (nomatch h)
    | ok r1 =>
      cases h2 : helpF lower q path fs with
      | error e => rw [h1, h2] at h; exact (nomatch h)
      | ok r2 =>
        rw [h1, h2] at h
        cases h
        rcases List.mem_append.1 hr with hr | hr
        · exact helpP_sims q f path r1 h1 r hr
        · exact helpF_sims q fs path r2 h2 r hr
theorem helpP_sims (q : String) : ∀ (f : String × SFld) (path : List String) (rs : List Found), helpP lower q path f = .ok rs →
    ∀ r ∈ rs, nameSimilarity lower r.field.name q = .ok r.sim
  | (_, f), path, rs, h, r, hr => helpS_sims q f path rs h r hr
theorem helpS_sims (q : String) : ∀ (f : SFld) (path : List String) (rs : List Found), helpS lower q path f = .ok rs →
    ∀ r ∈ rs, nameSimilarity lower r.field.name q = .ok r.sim
  | .mk n t d hh doc, path, rs, h, r, hr => by
    simp only [helpS, bind, Except.bind, pure, Except.pure] at h
    cases h1 : nameSimilarity lower n q with
    | error e => rw [h1] at h; exact (nomatch h)
    | ok s =>
      cases h2 : helpT lower q (path ++ [n]) t with
      | error e => rw [h1, h2] at h; exact (nomatch h)
      | ok r2 =>
        rw [h1, h2] at h
        cases h
        rcases List.mem_cons.1 hr with rfl | hr
        · exact h1
        · exact helpT_sims q t _ r2 h2 r hr
end

/-- C56: for every query, if the class has a field, help shows one, and the first one shown is at least as similar to the query as
every other field. -/
theorem C56_best_first (ty : PyTy) (q : String) (N : String) (F : List (String × SFld)) (v : Option Int)
    (hm : materialize ty = .ok (.struct N F v)) (hF : F ≠ []) (hq0 : q ≠ "") :
    ∃ r rest rs, helpCmd lower ty q = .ok (.fields (r :: rest)) ∧ helpF lower q [] F = .ok rs ∧ r ∈ rs ∧
      ∀ r' ∈ rs, r'.sim ≤ r.sim := by
  have hq1 : ¬ q.toList.length = 0 := fun h => hq0 (String.toList_eq_nil_iff.1 (List.length_eq_zero_iff.1 h))
  simp only [helpCmd, hm, bind, Except.bind, pure, Except.pure, if_neg hq1]
  · obtain ⟨rs, h1⟩ := helpF_total lower q F []
    rw [h1]
    have hne : rs ≠ [] := by
      intro h0
      cases F with
      | nil => exact hF rfl
      | cons f F =>
        obtain ⟨k, n, t, d, hh, doc⟩ := f
        simp only [helpF, helpP, helpS, bind, Except.bind, pure, Except.pure] at h1
        obtain ⟨s, e1, _⟩ := C31_range lower n q
        obtain ⟨a, e2⟩ := helpT_total lower q t ([] ++ [n])
        obtain ⟨b, e3⟩ := helpF_total lower q F []
        rw [e1] at h1
        simp only [e2, e3] at h1
        subst h0
        simp at h1
    have hp := helpSorted_desc rs
    have hq := helpSorted_perm rs
    cases hs : helpSorted rs with
    | nil => rw [hs] at hq; exact absurd hq.symm.eq_nil hne
    | cons r rest =>
      rw [hs] at hp hq
      rw [List.pairwise_cons] at hp
      have hr : r ∈ rs := hq.mem_iff.1 List.mem_cons_self
      have h0 : helpStops q r.sim (-1) 0 r = false := by
        obtain ⟨s, e1, e2, _⟩ := C31_range lower r.field.name q
        have e3 : 0 ≤ r.sim := by
          have := helpF_sims lower q F [] rs h1 r hr
          rw [e1] at this; cases this; exact e2
        have : ¬ r.sim ≤ -1 := by intro hh; linarith
        simp [helpStops, this]
      refine ⟨r, helpLoop q r.sim 1 r.sim rest, rs, ?_, rfl, hr, ?_⟩
      · simp only [helpShown, hs, helpLoop, h0]
        rfl
      · intro r' hr'
        rcases List.mem_cons.1 (hq.mem_iff.2 hr') with rfl | h2
        · exact le_refl _
        · exact hp.1 r' h2

/-- C56: every field whose name is the query, or is the query up to underscores, or has the query as initials (and vice versa)
is shown. -/
theorem C56_exact_shown (ty : PyTy) (q : String) (shown : List Found) (N : String) (F : List (String × SFld)) (v : Option Int)
    (rs : List Found) (hm : materialize ty = .ok (.struct N F v)) (h : helpCmd lower ty q = .ok (.fields shown))
    (hr : helpF lower q [] F = .ok rs) (r : Found) (h1 : r ∈ rs)
    (h2 : r.field.name = q ∨ dropUnderscores r.field.name = dropUnderscores q ∨ r.field.name = initials q ∨
      q = initials r.field.name) : r ∈ shown := by
  simp only [helpCmd, hm, bind, Except.bind, pure, Except.pure] at h
  split at h
  · exact (nomatch h)
  · rw [hr] at h
    cases h
    apply helpLoop_exact _ _ _ _ _ (helpSorted_desc rs) r ((helpSorted_perm rs).mem_iff.2 h1)
    have h3 := helpF_sims lower q F [] rs hr r h1
    unfold nameSimilarity at h3
    by_cases c1 : r.field.name = q
    · rw [if_pos c1] at h3
      injection h3 with h3
      rw [← h3]; decide +kernel
    · rw [if_neg c1] at h3
      by_cases c2 : dropUnderscores r.field.name = dropUnderscores q
      · rw [if_pos c2] at h3
        injection h3 with h3
        rw [← h3]
      · rw [if_neg c2] at h3
        have c3 : r.field.name = initials q ∨ q = initials r.field.name := by tauto
        rw [if_pos c3] at h3
        injection h3 with h3
        rw [← h3]

/-- C56: what is shown is a beginning of the list of all fields, ranked by similarity. -/
theorem C56_ranked (q : String) (rs : List Found) : ∃ ranked : List Found, ranked.Perm rs ∧
    ranked.Pairwise (fun a b => b.sim ≤ a.sim) ∧ helpShown q rs <+: ranked :=
  ⟨helpSorted rs, helpSorted_perm rs, helpSorted_desc rs, helpLoop_prefix _ _ _ _ _⟩

theorem isInfixC_iff (p : List Char) : ∀ cs : List Char, isInfixC p cs = true ↔ p <:+: cs
  | [] => by simp [isInfixC, List.isEmpty_iff]
  | c :: cs => by
    simp only [isInfixC, Bool.or_eq_true, List.isPrefixOf_iff_prefix, isInfixC_iff p cs, List.infix_cons_iff]

theorem helpLoop_cut (q : String) (best : Rat) : ∀ (rs : List Found) (i : Nat) (last : Rat),
    ∃ hidden, rs = helpLoop q best i last rs ++ hidden ∧ ∀ r rest, hidden = r :: rest →
      ¬ q.toList <:+: r.field.name.toList ∧ r.sim < 1 ∧
      (3 < i + (helpLoop q best i last rs).length ∨ r.sim < 4 / 10 ∨ 1 ≤ best ∨ 2 / 10 < best - r.sim)
  | [], _, _ => ⟨[], rfl, fun _ _ h => nomatch h⟩
  | r0 :: rs, i, last => by
    unfold helpLoop
    split
    · rename_i hs
      refine ⟨r0 :: rs, rfl, ?_⟩
      intro r rest h
      cases h
      simp only [helpStops, Bool.and_eq_true, Bool.or_eq_true, decide_eq_true_eq, Bool.not_eq_true'] at hs
      obtain ⟨⟨⟨_, h1⟩, h2⟩, h3⟩ := hs
      refine ⟨?_, h2, ?_⟩
      · rw [← isInfixC_iff, h1]; simp
      · rcases h3 with ((h3 | h3) | h3) | h3
        · exact .inl h3
        · exact .inr (.inl h3)
        · exact .inr (.inr (.inl h3))
        · exact .inr (.inr (.inr h3))
    · obtain ⟨hidden, h1, h2⟩ := helpLoop_cut q best rs (i + 1) r0.sim
      refine ⟨hidden, by rw [List.cons_append, ← h1], ?_⟩
      intro r rest h
      obtain ⟨a, b, c⟩ := h2 r rest h
      refine ⟨a, b, ?_⟩
      rcases c with c | c
      · left; simp only [List.length_cons]; omega
      · exact .inr c

theorem helpLoop_reason (q : String) (best : Rat) : ∀ (rs : List Found) (i : Nat) (last : Rat),
    rs.Pairwise (fun a b => b.sim ≤ a.sim) → (∀ r ∈ rs, r.sim ≤ last) → ∀ j r, (helpLoop q best i last rs)[j]? = some r →
      q.toList <:+: r.field.name.toList ∨ 1 ≤ r.sim ∨ (i + j ≤ 3 ∧ 4 / 10 ≤ r.sim ∧ best < 1 ∧ best - r.sim ≤ 2 / 10)
  | [], _, _, _, _, j, r, h => by simp [helpLoop] at h
  | r0 :: rs, i, last, hp, hl, j, r, h => by
    unfold helpLoop at h
    rw [List.pairwise_cons] at hp
    split at h
    · simp at h
    · rename_i hs
      cases j with
      | zero =>
        simp only [List.getElem?_cons_zero, Option.some.injEq] at h
        subst h
        simp only [helpStops, Bool.and_eq_true, Bool.or_eq_true, decide_eq_true_eq, Bool.not_eq_true', hl r0 List.mem_cons_self,
          true_and] at hs
        by_cases h1 : isInfixC q.toList r0.field.name.toList = true
        · exact .inl ((isInfixC_iff _ _).1 h1)
        · by_cases h2 : r0.sim < 1
          · right; right
            simp only [Bool.not_eq_true] at h1
            simp only [h1, h2, true_and, not_or, not_lt, not_le] at hs
            exact ⟨by omega, hs.1.1.2, hs.1.2, hs.2⟩
          · exact .inr (.inl (not_lt.1 h2))
      | succ j =>
        simp only [List.getElem?_cons_succ] at h
        rcases helpLoop_reason q best rs (i + 1) r0.sim hp.2 hp.1 j r h with h | h | h
        · exact .inl h
        · exact .inr (.inl h)
        · exact .inr (.inr ⟨by omega, h.2⟩)

/-- C56: where the ranked list is cut. The first field that is left out does not contain the query and does not match it exactly,
and it is not among the first four, or its similarity is below 0.4, or some field matches exactly, or it is more than 0.2 less
similar than the best field; conversely, each field shown after the first contains the query, or matches exactly, or is none of
the above. -/
theorem C56_cut (q : String) (rs : List Found) : ∃ best ranked hidden : List Found, ranked.Perm rs ∧
    ranked.Pairwise (fun a b => b.sim ≤ a.sim) ∧ best = ranked.take 1 ∧ ranked = helpShown q rs ++ hidden ∧
    (∀ r rest, hidden = r :: rest → ¬ q.toList <:+: r.field.name.toList ∧ r.sim < 1 ∧
      (3 < (helpShown q rs).length ∨ r.sim < 4 / 10 ∨ ∃ b ∈ best, 1 ≤ b.sim ∨ 2 / 10 < b.sim - r.sim)) ∧
    (∀ j r, (helpShown q rs)[j + 1]? = some r → q.toList <:+: r.field.name.toList ∨ 1 ≤ r.sim ∨
      (j < 3 ∧ 4 / 10 ≤ r.sim ∧ ∀ b ∈ best, b.sim < 1 ∧ b.sim - r.sim ≤ 2 / 10)) := by
  have hp := helpSorted_desc rs
  refine ⟨(helpSorted rs).take 1, helpSorted rs, ?_⟩
  cases hs : helpSorted rs with
  | nil =>
    refine ⟨[], hs ▸ helpSorted_perm rs, by simp, rfl, ?_⟩
    simp [helpShown, hs, helpLoop]
  | cons b rest =>
    rw [hs, List.pairwise_cons] at hp
    obtain ⟨hidden, h1, h2⟩ := helpLoop_cut q b.sim (b :: rest) 0 (-1)
    refine ⟨hidden, hs ▸ helpSorted_perm rs, List.pairwise_cons.2 hp, rfl, by simpa [helpShown, hs] using h1, ?_, ?_⟩
    · intro r rest' h
      obtain ⟨a, c, d⟩ := h2 r rest' h
      refine ⟨a, c, ?_⟩
      rcases d with d | d | d | d
      · left; simpa [helpShown, hs] using d
      · exact .inr (.inl d)
      · exact .inr (.inr ⟨b, by simp, .inl d⟩)
      · exact .inr (.inr ⟨b, by simp, .inr d⟩)
    · intro j r h
      simp only [helpShown, hs] at h
      unfold helpLoop at h
      split at h
      · simp at h
      · simp only [List.getElem?_cons_succ] at h
        rcases helpLoop_reason q b.sim rest 1 b.sim hp.2 hp.1 j r h with h | h | h
        · exact .inl h
        · exact .inr (.inl h)
        · refine .inr (.inr ⟨by omega, h.2.1, ?_⟩)
          intro b' hb
          simp only [List.take_succ_cons, List.take_zero, List.mem_singleton] at hb
          subst hb
          exact h.2.2

/-- names shown by help for a class with fields of type int -/
def shownNames (names : List String) (q : String) : Option (List String) :=
  match helpCmd (fun c => String.singleton c) (.data "C" (names.map (fun n => .mk n .int .none)) .none) q with
  | .ok (.fields rs) => some (rs.map (fun r => r.field.name))
  | _ => .none

/-- The hypotheses of the C56 theorems are met: a query that is the name of a field. -/
example : shownNames ["steps", "rare", "rate", "learning_rate"] "rate" = some ["rate"] := by decide +kernel
/-- A query without exact match. -/
example : shownNames ["steps", "rares", "learning_rate"] "rate" = some ["rares", "learning_rate"] := by decide +kernel

/-- A field is not always shown when its name contains the query: the list is cut at the first less similar field without the
query in its name. -/
theorem C56_contains_false : ∃ (names : List String) (q : String) (shown : List String), shownNames names q = some shown ∧
    "learning_rate" ∈ names ∧ isInfixC q.toList "learning_rate".toList = true ∧ "learning_rate" ∉ shown :=
  ⟨["steps", "rare", "rate", "learning_rate"], "rate", ["rate"], by decide +kernel, by decide +kernel, by decide +kernel, by decide +kernel⟩

end HS
