import Mathlib.Analysis.SpecialFunctions.Trigonometric.Basic
import Mathlib.Tactic.Linarith
import Mathlib.Tactic.FieldSimp
import Mathlib.Tactic.Ring
import Mathlib.Tactic.NormNum
import Mathlib.Tactic.Positivity
import Verif.Props.ScheduleParse
/-!
# C36–C38: the values of schedules

`cosPi` is any function with the properties of `x ↦ cos (π x)` on `[0, 1]` that matter (`IsCos`); the real cosine is one
(`isCos_real`).
-/
namespace HS

section
variable {K : Type} [Field K] [LinearOrder K] [IsStrictOrderedRing K]

structure IsCos (cosPi : K → K) : Prop where
  zero : cosPi 0 = 1
  one : cosPi 1 = -1
  anti : ∀ a b, 0 ≤ a → a ≤ b → b ≤ 1 → cosPi b ≤ cosPi a

/-- consecutive segments share their knots -/
def Chained (segs : List (Seg K)) : Prop := segs.IsChain (fun s s' => s.stop = s'.start ∧ s.final = s'.initial)

/-- the knots increase -/
def Increasing (segs : List (Seg K)) : Prop := ∀ s ∈ segs, s.start < s.stop

/-! ## one segment -/

/-- position within a segment, limited to `[0, 1]` -/
def Seg.pos (s : Seg K) (x : K) : K :=
  let r := (x - s.start) / (s.stop - s.start)
  if r < 0 then 0 else if r > 1 then 1 else r

def Seg.value (cosPi : K → K) (s : Seg K) (x : K) : K :=
  s.interp.eval cosPi (s.pos x) * s.initial + (1 - s.interp.eval cosPi (s.pos x)) * s.final

omit [IsStrictOrderedRing K] in
theorem getValue_pick {cosPi : K → K} {f : Sched K} {x : K} {s : Seg K} (h : pickSeg x .none f.segs = some s) [IsStrictOrderedRing K]
    (hs : s.start < s.stop) : f.getValue cosPi x = .ok (s.value cosPi x) := by
  have : s.stop - s.start ≠ 0 := by have := sub_pos.2 hs; exact ne_of_gt this
  simp only [Sched.getValue, h, if_neg this]
  rfl

theorem pos_mem (s : Seg K) (x : K) : 0 ≤ s.pos x ∧ s.pos x ≤ 1 := by
  simp only [Seg.pos]
  split
  · exact ⟨le_refl _, zero_le_one⟩
  · split
    · exact ⟨zero_le_one, le_refl _⟩
    · rename_i h1 h2; exact ⟨not_lt.1 h1, not_lt.1 h2⟩

theorem pos_left {s : Seg K} (hs : s.start < s.stop) {x : K} (h : x ≤ s.start) : s.pos x = 0 := by
  have hd := sub_pos.2 hs
  have hr : (x - s.start) / (s.stop - s.start) ≤ 0 := div_nonpos_of_nonpos_of_nonneg (sub_nonpos.2 h) hd.le
  simp only [Seg.pos]
  split
  · rfl
  · rename_i h1
    have : (x - s.start) / (s.stop - s.start) = 0 := le_antisymm hr (not_lt.1 h1)
    rw [this]
    rw [if_neg (not_lt.2 zero_le_one)]

theorem pos_right {s : Seg K} (hs : s.start < s.stop) {x : K} (h : s.stop ≤ x) : s.pos x = 1 := by
  have hd := sub_pos.2 hs
  have hr : 1 ≤ (x - s.start) / (s.stop - s.start) := by rw [le_div_iff₀ hd]; linarith
  simp only [Seg.pos]
  rw [if_neg (by linarith)]
  split
  · rfl
  · rename_i h1; exact le_antisymm (not_lt.1 h1) hr

theorem pos_mono {s : Seg K} (hs : s.start < s.stop) {x x' : K} (h : x ≤ x') : s.pos x ≤ s.pos x' := by
  have hd := sub_pos.2 hs
  have hr : (x - s.start) / (s.stop - s.start) ≤ (x' - s.start) / (s.stop - s.start) := by
    apply div_le_div_of_nonneg_right _ hd.le; linarith
  simp only [Seg.pos]
  split_ifs <;> linarith

theorem eval_mem {cosPi : K → K} (hc : IsCos cosPi) (i : Interp) {r : K} (h0 : 0 ≤ r) (h1 : r ≤ 1) :
    0 ≤ i.eval cosPi r ∧ i.eval cosPi r ≤ 1 := by
  cases i with
  | lin => simp only [Interp.eval]; exact ⟨by linarith, by linarith⟩
  | cos =>
    have a := hc.anti r 1 h0 h1 (le_refl _)
    have b := hc.anti 0 r (le_refl _) h0 h1
    rw [hc.one] at a; rw [hc.zero] at b
    simp only [Interp.eval]
    constructor <;> linarith
  | step => simp only [Interp.eval]; exact ⟨zero_le_one, le_refl _⟩

theorem eval_zero {cosPi : K → K} (hc : IsCos cosPi) (i : Interp) : i.eval cosPi 0 = 1 := by
  cases i <;> simp only [Interp.eval, hc.zero] <;> ring

theorem eval_one {cosPi : K → K} (hc : IsCos cosPi) {i : Interp} (h : i ≠ .step) : i.eval cosPi 1 = 0 := by
  cases i with
  | lin => simp only [Interp.eval]; ring
  | cos => simp only [Interp.eval, hc.one]; ring
  | step => exact absurd rfl h

theorem eval_anti {cosPi : K → K} (hc : IsCos cosPi) (i : Interp) {a b : K} (h0 : 0 ≤ a) (hab : a ≤ b) (h1 : b ≤ 1) :
    i.eval cosPi b ≤ i.eval cosPi a := by
  cases i with
  | lin => simp only [Interp.eval]; linarith
  | cos =>
    have := hc.anti a b h0 hab h1
    simp only [Interp.eval]; linarith
  | step => simp only [Interp.eval]; exact le_refl _

theorem value_between {cosPi : K → K} (hc : IsCos cosPi) (s : Seg K) (x : K) {lo hi : K} (h1 : lo ≤ s.initial) (h2 : lo ≤ s.final)
    (h3 : s.initial ≤ hi) (h4 : s.final ≤ hi) : lo ≤ s.value cosPi x ∧ s.value cosPi x ≤ hi := by
  obtain ⟨p0, p1⟩ := pos_mem s x
  obtain ⟨w0, w1⟩ := eval_mem hc s.interp p0 p1
  simp only [Seg.value]
  generalize s.interp.eval cosPi (s.pos x) = w at w0 w1
  have w1' : 0 ≤ 1 - w := by linarith
  constructor
  · have a := mul_le_mul_of_nonneg_left h1 w0
    have b := mul_le_mul_of_nonneg_left h2 w1'
    have : w * lo + (1 - w) * lo = lo := by ring
    linarith
  · have a := mul_le_mul_of_nonneg_left h3 w0
    have b := mul_le_mul_of_nonneg_left h4 w1'
    have : w * hi + (1 - w) * hi = hi := by ring
    linarith

/-! ## which segment is used -/

omit [Field K] [IsStrictOrderedRing K] in
theorem pickSeg_mem (x : K) : ∀ (segs : List (Seg K)) (cur : Option (Seg K)), segs ≠ [] ∨ cur ≠ .none →
    ∃ s, pickSeg x cur segs = some s ∧ (s ∈ segs ∨ cur = some s) := by
  intro segs
  induction segs with
  | nil =>
    intro cur h
    cases cur with
    | none => simp at h
    | some s => exact ⟨s, rfl, .inr rfl⟩
  | cons s ss ih =>
    intro cur _
    simp only [pickSeg]
    split
    · exact ⟨s, rfl, .inl (by simp)⟩
    · obtain ⟨s', h1, h2⟩ := ih (some s) (.inr (by simp))
      refine ⟨s', h1, .inl ?_⟩
      rcases h2 with h2 | h2
      · simp [h2]
      · cases h2; simp

omit [Field K] [IsStrictOrderedRing K] in
theorem pickSeg_split {x : K} {s : Seg K} (post : List (Seg K)) (hx : x < s.stop ∨ post = []) : ∀ (pre : List (Seg K)) (cur : Option (Seg K)),
    (∀ t ∈ pre, t.stop ≤ x) → pickSeg x cur (pre ++ s :: post) = some s := by
  intro pre
  induction pre with
  | nil =>
    intro cur _
    simp only [List.nil_append, pickSeg]
    rcases hx with hx | hx
    · rw [if_pos hx]
    · subst hx; simp [pickSeg]
  | cons t pre ih =>
    intro cur h
    simp only [List.cons_append, pickSeg]
    rw [if_neg (not_lt.2 (h t (by simp)))]
    exact ih _ (fun u hu => h u (by simp [hu]))

omit [Field K] [IsStrictOrderedRing K] in
theorem chain_pre {s : Seg K} {post : List (Seg K)} : ∀ {pre : List (Seg K)}, Chained (pre ++ s :: post) →
    Increasing (pre ++ s :: post) → ∀ t ∈ pre, t.stop ≤ s.start := by
  intro pre
  induction pre with
  | nil => intro _ _ t ht; simp at ht
  | cons u pre ih =>
    intro hch hinc t ht
    have hch' : Chained (pre ++ s :: post) := List.IsChain.tail hch
    have hinc' : Increasing (pre ++ s :: post) := fun v hv => hinc v (by simp at hv ⊢; right; exact hv)
    rcases List.mem_cons.1 ht with rfl | ht
    · cases pre with
      | nil =>
        have := (List.isChain_cons_cons.1 hch).1
        exact this.1.le
      | cons v pre =>
        have h1 := (List.isChain_cons_cons.1 hch).1
        have h2 := ih hch' hinc' v (by simp)
        have h3 := hinc v (by simp)
        exact h1.1.le.trans (h3.le.trans h2)
    · exact ih hch' hinc' t ht

/-! ## C36 -/

/-- C36: with increasing knots and at least one segment, the schedule has a value everywhere, and it lies between the two values of one of
its segments; so it never leaves the range of the given values.
Missing: this is exact arithmetic; in binary64 it is false (`C74_range_false`) and holds up to rounding (`C74_between`). -/
theorem C36_between_partial {cosPi : K → K} (hc : IsCos cosPi) (f : Sched K) (hne : f.segs ≠ []) (hinc : Increasing f.segs) (x : K) :
    ∃ v, f.getValue cosPi x = .ok v ∧ (∃ s ∈ f.segs, min s.initial s.final ≤ v ∧ v ≤ max s.initial s.final) ∧
      ∀ lo hi, (∀ s ∈ f.segs, lo ≤ s.initial ∧ lo ≤ s.final ∧ s.initial ≤ hi ∧ s.final ≤ hi) → lo ≤ v ∧ v ≤ hi := by
  obtain ⟨s, h1, h2⟩ := pickSeg_mem x f.segs .none (.inl hne)
  rcases h2 with h2 | h2
  · refine ⟨_, getValue_pick h1 (hinc s h2), ⟨s, h2, value_between hc s x (min_le_left _ _) (min_le_right _ _) (le_max_left _ _) (le_max_right _ _)⟩, ?_⟩
    intro lo hi h
    obtain ⟨a, b, c, d⟩ := h s h2
    exact value_between hc s x a b c d
  · cases h2

/-- C36, the segment in question: the one that contains `x`. Missing: rounding, as above. -/
theorem C36_segment_partial {cosPi : K → K} (hc : IsCos cosPi) (f : Sched K) {pre post : List (Seg K)} {s : Seg K} (hf : f.segs = pre ++ s :: post)
    (hch : Chained f.segs) (hinc : Increasing f.segs) {x : K} (h1 : s.start ≤ x) (h2 : x < s.stop) :
    ∃ v, f.getValue cosPi x = .ok v ∧ min s.initial s.final ≤ v ∧ v ≤ max s.initial s.final := by
  rw [hf] at hch hinc
  have hp : pickSeg x .none f.segs = some s := by
    rw [hf]; exact pickSeg_split post (.inl h2) pre .none (fun t ht => (chain_pre hch hinc t ht).trans h1)
  exact ⟨_, getValue_pick hp (hinc s (by simp)), value_between hc s x (min_le_left _ _) (min_le_right _ _) (le_max_left _ _) (le_max_right _ _)⟩

/-! ## C37 -/

/-- C37: at the left knot of every segment the schedule has the value given there. -/
theorem C37_at_knot {cosPi : K → K} (hc : IsCos cosPi) (f : Sched K) {s : Seg K} (hs : s ∈ f.segs)
    (hch : Chained f.segs) (hinc : Increasing f.segs) : f.getValue cosPi s.start = .ok s.initial := by
  obtain ⟨pre, post, hf⟩ := List.append_of_mem hs
  have hss := hinc s hs
  rw [hf] at hch hinc
  have hp : pickSeg s.start .none f.segs = some s := by
    rw [hf]; exact pickSeg_split post (.inl hss) pre .none (chain_pre hch hinc)
  rw [getValue_pick hp hss, Seg.value, pos_left hss (le_refl _), eval_zero hc]
  simp

/-- C37: before the first knot the schedule has the first value. -/
theorem C37_before {cosPi : K → K} (hc : IsCos cosPi) (f : Sched K) {s : Seg K} {ss : List (Seg K)} (hf : f.segs = s :: ss)
    (hinc : Increasing f.segs) {x : K} (hx : x ≤ s.start) : f.getValue cosPi x = .ok s.initial := by
  have hss := hinc s (by simp [hf])
  have hp : pickSeg x .none f.segs = some s := by
    rw [hf]; exact pickSeg_split ss (.inl (lt_of_le_of_lt hx hss)) [] .none (by simp)
  rw [getValue_pick hp hss, Seg.value, pos_left hss hx, eval_zero hc]
  simp

/-- C37: from the last knot on the schedule has the last value, unless the last interpolation is `step`. Missing: `step`, see below. -/
theorem C37_after_partial {cosPi : K → K} (hc : IsCos cosPi) (f : Sched K) {s : Seg K} {ss : List (Seg K)} (hf : f.segs = ss ++ [s])
    (hch : Chained f.segs) (hinc : Increasing f.segs) (hi : s.interp ≠ .step) {x : K} (hx : s.stop ≤ x) :
    f.getValue cosPi x = .ok s.final := by
  have hss := hinc s (by simp [hf])
  rw [hf] at hch hinc
  have hp : pickSeg x .none f.segs = some s := by
    rw [hf]; exact pickSeg_split [] (.inr rfl) ss .none (fun t ht => (chain_pre hch hinc t ht).trans (hss.le.trans hx))
  rw [getValue_pick hp hss, Seg.value, pos_right hss hx, eval_one hc hi]
  simp

/-- C37 is false for `step`: a schedule that ends in a step never reaches its last value; it keeps the last but one forever. -/
theorem C37_step_false {cosPi : K → K} (f : Sched K) {s : Seg K} {ss : List (Seg K)} (hf : f.segs = ss ++ [s])
    (hch : Chained f.segs) (hinc : Increasing f.segs) (hi : s.interp = .step) {x : K} (hx : s.start ≤ x) :
    f.getValue cosPi x = .ok s.initial := by
  have hss := hinc s (by simp [hf])
  rw [hf] at hch hinc
  have hp : pickSeg x .none f.segs = some s := by
    rw [hf]; exact pickSeg_split [] (.inr rfl) ss .none (fun t ht => (chain_pre hch hinc t ht).trans hx)
  rw [getValue_pick hp hss, Seg.value, hi]
  simp [Interp.eval]

/-! ## C38 -/

/-- C38: within a segment the value moves from left to right value without turning back, and does not move at all for `step`.
Missing: this is exact arithmetic; in binary64 it is false (`C38_float_false`). -/
theorem C38_monotone_partial {cosPi : K → K} (hc : IsCos cosPi) (f : Sched K) {pre post : List (Seg K)} {s : Seg K} (hf : f.segs = pre ++ s :: post)
    (hch : Chained f.segs) (hinc : Increasing f.segs) {x x' : K} (h1 : s.start ≤ x) (h2 : x ≤ x') (h3 : x' < s.stop) :
    ∃ v v', f.getValue cosPi x = .ok v ∧ f.getValue cosPi x' = .ok v' ∧
      (s.initial ≤ s.final → s.initial ≤ v ∧ v ≤ v' ∧ v' ≤ s.final) ∧
      (s.final ≤ s.initial → s.final ≤ v' ∧ v' ≤ v ∧ v ≤ s.initial) ∧
      (s.interp = .step → v = s.initial ∧ v' = s.initial) := by
  rw [hf] at hch hinc
  have hss := hinc s (by simp)
  have hp : ∀ z, s.start ≤ z → z < s.stop → pickSeg z .none f.segs = some s := by
    intro z hz1 hz2
    rw [hf]; exact pickSeg_split post (.inl hz2) pre .none (fun t ht => (chain_pre hch hinc t ht).trans hz1)
  refine ⟨_, _, getValue_pick (hp x h1 (lt_of_le_of_lt h2 h3)) hss, getValue_pick (hp x' (h1.trans h2) h3) hss, ?_, ?_, ?_⟩
  · intro h
    have a := value_between hc s x (le_refl s.initial) h h (le_refl _)
    have b := value_between hc s x' (le_refl s.initial) h h (le_refl _)
    refine ⟨a.1, ?_, b.2⟩
    have hw := eval_anti hc s.interp (pos_mem s x).1 (pos_mono hss h2) (pos_mem s x').2
    simp only [Seg.value]
    generalize s.interp.eval cosPi (s.pos x) = w at hw ⊢
    generalize s.interp.eval cosPi (s.pos x') = w' at hw ⊢
    have := mul_le_mul_of_nonneg_right hw (sub_nonneg.2 h)
    have e1 : w * s.initial + (1 - w) * s.final = s.final - w * (s.final - s.initial) := by ring
    have e2 : w' * s.initial + (1 - w') * s.final = s.final - w' * (s.final - s.initial) := by ring
    linarith
  · intro h
    have a := value_between hc s x h (le_refl s.final) (le_refl _) h
    have b := value_between hc s x' h (le_refl s.final) (le_refl _) h
    refine ⟨b.1, ?_, a.2⟩
    have hw := eval_anti hc s.interp (pos_mem s x).1 (pos_mono hss h2) (pos_mem s x').2
    simp only [Seg.value]
    generalize s.interp.eval cosPi (s.pos x) = w at hw ⊢
    generalize s.interp.eval cosPi (s.pos x') = w' at hw ⊢
    have := mul_le_mul_of_nonneg_right hw (sub_nonneg.2 h)
    have e1 : w * s.initial + (1 - w) * s.final = s.final + w * (s.initial - s.final) := by ring
    have e2 : w' * s.initial + (1 - w') * s.final = s.final + w' * (s.initial - s.final) := by ring
    linarith
  · intro h
    simp [Seg.value, h, Interp.eval]

/-- C38: linear segments are linear. -/
theorem C38_linear_partial {cosPi : K → K} (f : Sched K) {pre post : List (Seg K)} {s : Seg K} (hf : f.segs = pre ++ s :: post)
    (hch : Chained f.segs) (hinc : Increasing f.segs) (hl : s.interp = .lin) {x : K} (h1 : s.start ≤ x) (h3 : x < s.stop) :
    ∃ v, f.getValue cosPi x = .ok v ∧ (v - s.initial) * (s.stop - s.start) = (x - s.start) * (s.final - s.initial) := by
  rw [hf] at hch hinc
  have hss := hinc s (by simp)
  have hp : pickSeg x .none f.segs = some s := by
    rw [hf]; exact pickSeg_split post (.inl h3) pre .none (fun t ht => (chain_pre hch hinc t ht).trans h1)
  refine ⟨_, getValue_pick hp hss, ?_⟩
  have hd := sub_pos.2 hss
  have hpos : s.pos x = (x - s.start) / (s.stop - s.start) := by
    simp only [Seg.pos]
    rw [if_neg (not_lt.2 (div_nonneg (sub_nonneg.2 h1) hd.le)), if_neg]
    rw [gt_iff_lt, not_lt, div_le_one hd]; linarith
  simp only [Seg.value, hl, Interp.eval, hpos]
  field_simp
  ring

/-! ## parsed schedules -/

omit [Field K] [LinearOrder K] [IsStrictOrderedRing K] in
theorem segsOf_chained {num : List Char → Option K} : ∀ (ts : List Tok) (ip : Interp) (last : Option (K × K)),
    Chained (schedSegs num ip last ts) ∧
      ∀ lx ly, last = some (lx, ly) → ∀ s ss, schedSegs num ip last ts = s :: ss → s.start = lx ∧ s.initial = ly := by
  intro ts
  induction ts with
  | nil => intro ip last; exact ⟨by simp [schedSegs, Chained], by simp [schedSegs]⟩
  | cons t ts ih =>
    intro ip last
    cases t with
    | join i => simp only [schedSegs]; exact ih i last
    | pt ty tx =>
      simp only [schedSegs]
      split
      · rename_i y x lx ly _ _
        obtain ⟨h1, h2⟩ := ih ip (some (x, y))
        constructor
        · cases hs : schedSegs num ip (some (x, y)) ts with
          | nil => simp [Chained]
          | cons s ss =>
            rw [hs] at h1
            obtain ⟨a, b⟩ := h2 x y rfl s ss hs
            exact List.isChain_cons_cons.2 ⟨⟨a.symm, b.symm⟩, h1⟩
        · intro lx' ly' h s ss e
          cases h; cases e; exact ⟨rfl, rfl⟩
      · obtain ⟨h1, h2⟩ := ih ip _
        exact ⟨h1, by simp⟩
      · exact ⟨by simp [Chained], by simp⟩

omit [Field K] [LinearOrder K] [IsStrictOrderedRing K] in
/-- C35, C37: the segments of a parsed schedule share their knots, so the theorems above apply to every text with increasing knots. -/
theorem C35_chained {num : List Char → Option K} {text : List Char} {f : Sched K} (h : parseSched num text = .ok f) : Chained f.segs := by
  obtain ⟨w0, toks, rfl, hok, _⟩ := C35_rejects h
  simp only [parseSched] at h
  split at h
  · cases h
  · rename_i p0 parts hs
    simp only [bind, Except.bind, pure, Except.pure] at h
    split at h
    · cases h
    · rename_i r hr
      cases h
      have hsp := (splitC_spec ' ' (joinC ' ' (w0 :: toks.map Tok.text))).2.1
      rw [hs] at hsp
      obtain ⟨ts, rfl, hok'⟩ := schedLoop_ok parts _ _ _ (fun p hp => hsp p (by simp [hp])) hr
      rw [schedLoop_toks ts _ _ hok'] at hr
      cases hr
      exact (segsOf_chained ts .lin .none).1

omit [IsStrictOrderedRing K] in
/-- a schedule with fewer than two points has no value at all, and one whose knot is repeated at the point of use has none there -/
theorem C36_no_segments {cosPi : K → K} (f : Sched K) (h : f.segs = []) (x : K) : f.getValue cosPi x = .error .assertionError := by
  simp [Sched.getValue, h, pickSeg]

end

/-! ## the real cosine -/

theorem isCos_real : IsCos (fun x : ℝ => Real.cos (x * Real.pi)) where
  zero := by simp
  one := by simp
  anti := by
    intro a b h0 hab h1
    have hpi := Real.pi_pos
    apply Real.cos_le_cos_of_nonneg_of_le_pi (by positivity)
    · nlinarith
    · nlinarith

/-! ### examples -/

namespace SchedEx

/-- a rational stand-in for the cosine -/
def tri (x : ℚ) : ℚ := 1 - 2 * x

theorem isCos_tri : IsCos tri where
  zero := by norm_num [tri]
  one := by norm_num [tri]
  anti := by intro a b _ h _; simp only [tri]; linarith

def f : Sched ℚ := ⟨[⟨0, 1, 3, 2, .lin⟩, ⟨1, 2, 2, 9, .cos⟩, ⟨2, 4, 9, 1, .step⟩], ['x']⟩

theorem f_chained : Chained f.segs := by simp [Chained, f]
theorem f_increasing : Increasing f.segs := by
  intro s hs
  simp only [f, List.mem_cons, List.mem_nil_iff, or_false] at hs
  rcases hs with rfl | rfl | rfl <;> norm_num

example : f.getValue tri 1 = .ok 2 := C37_at_knot isCos_tri f (s := ⟨1, 2, 2, 9, .cos⟩) (by simp [f]) f_chained f_increasing
example : f.getValue tri 100 = .ok 9 := C37_step_false f (ss := [⟨0, 1, 3, 2, .lin⟩, ⟨1, 2, 2, 9, .cos⟩]) rfl f_chained f_increasing rfl (by norm_num)
example : ∃ v, f.getValue tri (3 / 2) = .ok v ∧ min 2 9 ≤ v ∧ v ≤ max 2 9 :=
  C36_segment_partial isCos_tri f (pre := [⟨0, 1, 3, 2, .lin⟩]) (s := ⟨1, 2, 2, 9, .cos⟩) rfl f_chained f_increasing (by norm_num) (by norm_num)
example : f.getValue tri (1 / 2) = .ok (5 / 2) := by decide +kernel
/-- repeated knots: ZeroDivisionError -/
example : (⟨[⟨1, 1, 3, 2, .lin⟩], ['x']⟩ : Sched ℚ).getValue tri 1 = .error .zeroDivision := by decide +kernel
/-- decreasing knots: the value stays at the far end -/
example : (⟨[⟨2, 1, 3, 7, .lin⟩], ['x']⟩ : Sched ℚ).getValue tri 5 = .ok 3 := by decide +kernel

end SchedEx
end HS
