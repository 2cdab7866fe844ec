import Mathlib.Analysis.SpecialFunctions.Trigonometric.Bounds
import Mathlib.Data.Int.Log
import Mathlib.Tactic.Linarith
import Mathlib.Tactic.NormNum
import Mathlib.Tactic.Positivity
import Mathlib.Tactic.Ring
import Verif.Model.ScheduleFloat
import Verif.Props.Schedule
/-!
# C74: schedules in floating point
-/
namespace HS

section
variable {K : Type} [Field K] [LinearOrder K] [IsStrictOrderedRing K]

/-- what is used of a rounding function: it is monotone, keeps the numbers that are representable (among them 0, 1 and ±1/2), its
relative error is at most `u`, up to an absolute error `η` (numbers near zero have fewer digits), and for differences of representable
numbers there is no such absolute error -/
structure IsRnd (u η : K) (rnd : K → K) : Prop where
  mono : ∀ a b, a ≤ b → rnd a ≤ rnd b
  idem : ∀ a, rnd (rnd a) = rnd a
  zero : rnd 0 = 0
  one : rnd 1 = 1
  half : rnd (1 / 2) = 1 / 2
  neg : ∀ a, rnd (-a) = -rnd a
  err : ∀ a, |rnd a - a| ≤ u * |a| + η
  diff : ∀ a b, rnd a = a → rnd b = b → |rnd (a - b) - (a - b)| ≤ u * |a - b|
  unit : 0 ≤ u ∧ u ≤ 1 / 8
  tiny : 0 ≤ η

theorem IsRnd.nhalf {u η : K} {rnd : K → K} (hr : IsRnd u η rnd) : rnd (-(1 / 2)) = -(1 / 2) := by rw [hr.neg, hr.half]

/-- what is used of the computed cosine -/
structure IsCosF (cosF : K → K) : Prop where
  zero : cosF 0 = 1
  one : cosF 1 = -1
  lower : ∀ a, -1 ≤ cosF a
  upper : ∀ a, cosF a ≤ 1

/-- all numbers of the schedule are representable -/
def Machine (rnd : K → K) (f : Sched K) : Prop :=
  ∀ s ∈ f.segs, rnd s.start = s.start ∧ rnd s.stop = s.stop ∧ rnd s.initial = s.initial ∧ rnd s.final = s.final

variable {u η : K} {rnd cosF : K → K}

theorem rnd_nonneg (hr : IsRnd u η rnd) {a : K} (h : 0 ≤ a) : 0 ≤ rnd a := by
  have := hr.mono _ _ h; rwa [hr.zero] at this
theorem rnd_nonpos (hr : IsRnd u η rnd) {a : K} (h : a ≤ 0) : rnd a ≤ 0 := by
  have := hr.mono _ _ h; rwa [hr.zero] at this
theorem rnd_le_one (hr : IsRnd u η rnd) {a : K} (h : a ≤ 1) : rnd a ≤ 1 := by
  have := hr.mono _ _ h; rwa [hr.one] at this
theorem one_le_rnd (hr : IsRnd u η rnd) {a : K} (h : 1 ≤ a) : 1 ≤ rnd a := by
  have := hr.mono _ _ h; rwa [hr.one] at this

/-- two different representable numbers have a difference that is not rounded to zero -/
theorem rnd_pos (hr : IsRnd u η rnd) {a b : K} (ha : rnd a = a) (hb : rnd b = b) (h : b < a) : 0 < rnd (a - b) := by
  have h1 := hr.diff a b ha hb
  have hp := sub_pos.2 h
  rw [abs_of_pos hp] at h1
  have h2 := abs_le.1 h1
  have h3 := hr.unit
  have : u * (a - b) ≤ 1 / 8 * (a - b) := mul_le_mul_of_nonneg_right h3.2 hp.le
  linarith [h2.1]

/-- the numbers of a segment are representable -/
def SegM (rnd : K → K) (s : Seg K) : Prop :=
  rnd s.start = s.start ∧ rnd s.stop = s.stop ∧ rnd s.initial = s.initial ∧ rnd s.final = s.final

/-- position within a segment as computed -/
def Seg.posF (rnd : K → K) (s : Seg K) (x : K) : K :=
  let r := rnd (rnd (x - s.start) / rnd (s.stop - s.start))
  if r < 0 then 0 else if r > 1 then 1 else r

def Seg.weightF (rnd cosF : K → K) (s : Seg K) (x : K) : K := s.interp.evalF rnd cosF (s.posF rnd x)

def Seg.valueF (rnd cosF : K → K) (s : Seg K) (x : K) : K :=
  rnd (rnd (s.weightF rnd cosF x * s.initial) + rnd (rnd (1 - s.weightF rnd cosF x) * s.final))

theorem getValueF_pick (hr : IsRnd u η rnd) {f : Sched K} {x : K} {s : Seg K} (h : pickSeg x .none f.segs = some s)
    (hm : SegM rnd s) (hs : s.start < s.stop) : f.getValueF rnd cosF x = .ok (s.valueF rnd cosF x) := by
  have : rnd (s.stop - s.start) ≠ 0 := ne_of_gt (rnd_pos hr hm.2.1 hm.1 hs)
  simp only [Sched.getValueF, h, if_neg this]
  rfl

theorem posF_mem (s : Seg K) (x : K) : 0 ≤ s.posF rnd x ∧ s.posF rnd x ≤ 1 := by
  simp only [Seg.posF]
  split
  · exact ⟨le_refl _, zero_le_one⟩
  · split
    · exact ⟨zero_le_one, le_refl _⟩
    · rename_i h1 h2; exact ⟨not_lt.1 h1, not_lt.1 h2⟩

theorem posF_left (hr : IsRnd u η rnd) {s : Seg K} (hm : SegM rnd s) (hs : s.start < s.stop) {x : K} (h : x ≤ s.start) : s.posF rnd x = 0 := by
  have hd := rnd_pos hr hm.2.1 hm.1 hs
  have h1 : rnd (rnd (x - s.start) / rnd (s.stop - s.start)) ≤ 0 :=
    rnd_nonpos hr (div_nonpos_of_nonpos_of_nonneg (rnd_nonpos hr (sub_nonpos.2 h)) hd.le)
  simp only [Seg.posF]
  split
  · rfl
  · rename_i h2
    have h3 := le_antisymm h1 (not_lt.1 h2)
    rw [h3, if_neg (by simp)]

theorem posF_right (hr : IsRnd u η rnd) {s : Seg K} (hm : SegM rnd s) (hs : s.start < s.stop) {x : K} (h : s.stop ≤ x) : s.posF rnd x = 1 := by
  have hd := rnd_pos hr hm.2.1 hm.1 hs
  have h1 : 1 ≤ rnd (rnd (x - s.start) / rnd (s.stop - s.start)) :=
    one_le_rnd hr ((one_le_div hd).2 (hr.mono _ _ (sub_le_sub_right h _)))
  simp only [Seg.posF]
  rw [if_neg (not_lt.2 (zero_le_one.trans h1))]
  split
  · rfl
  · rename_i h2; exact le_antisymm (not_lt.1 h2) h1

theorem posF_mono (hr : IsRnd u η rnd) {s : Seg K} (hm : SegM rnd s) (hs : s.start < s.stop) {x x' : K} (h : x ≤ x') : s.posF rnd x ≤ s.posF rnd x' := by
  have hd := rnd_pos hr hm.2.1 hm.1 hs
  have h1 : rnd (rnd (x - s.start) / rnd (s.stop - s.start)) ≤ rnd (rnd (x' - s.start) / rnd (s.stop - s.start)) :=
    hr.mono _ _ (div_le_div_of_nonneg_right (hr.mono _ _ (sub_le_sub_right h _)) hd.le)
  simp only [Seg.posF]
  generalize rnd (rnd (x - s.start) / rnd (s.stop - s.start)) = a at h1 ⊢
  generalize rnd (rnd (x' - s.start) / rnd (s.stop - s.start)) = b at h1 ⊢
  have h01 : (0 : K) ≤ 1 := zero_le_one
  by_cases a0 : a < 0 <;> by_cases b0 : b < 0 <;> by_cases a1 : a > 1 <;> by_cases b1 : b > 1 <;>
    simp only [a0, b0, a1, b1, if_true, if_false] <;> linarith

theorem posF_rep (hr : IsRnd u η rnd) (s : Seg K) (x : K) : rnd (s.posF rnd x) = s.posF rnd x := by
  simp only [Seg.posF]
  split
  · exact hr.zero
  · split
    · exact hr.one
    · exact hr.idem _

theorem evalF_rep (hr : IsRnd u η rnd) (i : Interp) (r : K) : rnd (i.evalF rnd cosF r) = i.evalF rnd cosF r := by
  cases i with
  | lin => exact hr.idem _
  | cos => exact hr.idem _
  | step => exact hr.one

theorem evalF_mem (hr : IsRnd u η rnd) (hc : IsCosF cosF) (i : Interp) {r : K} (h0 : 0 ≤ r) (h1 : r ≤ 1) :
    0 ≤ i.evalF rnd cosF r ∧ i.evalF rnd cosF r ≤ 1 := by
  cases i with
  | lin => exact ⟨rnd_nonneg hr (by linarith), rnd_le_one hr (by linarith)⟩
  | cos =>
    have a := hr.mono _ _ (show -(1 / 2) ≤ cosF r * (1 / 2) by linarith [hc.lower r])
    have b := hr.mono _ _ (show cosF r * (1 / 2) ≤ 1 / 2 by linarith [hc.upper r])
    rw [hr.nhalf] at a
    rw [hr.half] at b
    exact ⟨rnd_nonneg hr (by linarith), rnd_le_one hr (by linarith)⟩
  | step => exact ⟨zero_le_one, le_refl _⟩

theorem evalF_zero (hr : IsRnd u η rnd) (hc : IsCosF cosF) (i : Interp) : i.evalF rnd cosF 0 = 1 := by
  cases i with
  | lin => simp [Interp.evalF, hr.one]
  | cos =>
    have : (1 : K) / 2 + 1 / 2 = 1 := by ring
    simp only [Interp.evalF, hc.zero, one_mul, hr.half, this, hr.one]
  | step => rfl

theorem evalF_one (hr : IsRnd u η rnd) (hc : IsCosF cosF) {i : Interp} (h : i ≠ .step) : i.evalF rnd cosF 1 = 0 := by
  cases i with
  | lin => simp [Interp.evalF, hr.zero]
  | cos =>
    have e1 : (-1 : K) * (1 / 2) = -(1 / 2) := by ring
    have : (-(1 / 2) : K) + 1 / 2 = 0 := by ring
    simp only [Interp.evalF, hc.one, e1, hr.nhalf, this, hr.zero]
  | step => exact absurd rfl h

theorem valueF_one (hr : IsRnd u η rnd) {s : Seg K} {x : K} (hm : rnd s.initial = s.initial) (h : s.weightF rnd cosF x = 1) :
    s.valueF rnd cosF x = s.initial := by
  simp [Seg.valueF, h, hr.zero, hm]

theorem valueF_zero (hr : IsRnd u η rnd) {s : Seg K} {x : K} (hm : rnd s.final = s.final) (h : s.weightF rnd cosF x = 0) :
    s.valueF rnd cosF x = s.final := by
  simp [Seg.valueF, h, hr.zero, hr.one, hm]

/-! ## C74: the given points are hit exactly -/

/-- C74: at the left knot of every segment the computed value is the value given there, without rounding error. -/
theorem C74_at_knot (hr : IsRnd u η rnd) (hc : IsCosF cosF) (f : Sched K) (hm : Machine rnd f) {s : Seg K} (hs : s ∈ f.segs)
    (hch : Chained f.segs) (hinc : Increasing f.segs) : f.getValueF rnd cosF s.start = .ok s.initial := by
  have hm := hm s hs
  obtain ⟨pre, post, hf⟩ := List.append_of_mem hs
  have hss := hinc s hs
  rw [hf] at hch hinc
  have hp : pickSeg s.start .none f.segs = some s := by
    rw [hf]; exact pickSeg_split post (.inl hss) pre .none (chain_pre hch hinc)
  rw [getValueF_pick hr hp hm hss, valueF_one hr hm.2.2.1]
  rw [Seg.weightF, posF_left hr hm hss (le_refl _), evalF_zero hr hc]

/-- C74: before the first knot the computed value is the first value. -/
theorem C74_before (hr : IsRnd u η rnd) (hc : IsCosF cosF) (f : Sched K) (hm : Machine rnd f) {s : Seg K} {ss : List (Seg K)}
    (hf : f.segs = s :: ss) (hinc : Increasing f.segs) {x : K} (hx : x ≤ s.start) : f.getValueF rnd cosF x = .ok s.initial := by
  have hm := hm s (by simp [hf])
  have hss := hinc s (by simp [hf])
  have hp : pickSeg x .none f.segs = some s := by
    rw [hf]; exact pickSeg_split ss (.inl (lt_of_le_of_lt hx hss)) [] .none (by simp)
  rw [getValueF_pick hr hp hm hss, valueF_one hr hm.2.2.1]
  rw [Seg.weightF, posF_left hr hm hss hx, evalF_zero hr hc]

/-- C74: from the last knot on the computed value is the last value. Missing: `step` (`C37_step_false`). -/
theorem C74_after_partial (hr : IsRnd u η rnd) (hc : IsCosF cosF) (f : Sched K) (hm : Machine rnd f) {s : Seg K} {ss : List (Seg K)}
    (hf : f.segs = ss ++ [s]) (hch : Chained f.segs) (hinc : Increasing f.segs) (hi : s.interp ≠ .step) {x : K} (hx : s.stop ≤ x) :
    f.getValueF rnd cosF x = .ok s.final := by
  have hm := hm s (by simp [hf])
  have hss := hinc s (by simp [hf])
  rw [hf] at hch hinc
  have hp : pickSeg x .none f.segs = some s := by
    rw [hf]; exact pickSeg_split [] (.inr rfl) ss .none (fun t ht => (chain_pre hch hinc t ht).trans (hss.le.trans hx))
  rw [getValueF_pick hr hp hm hss, valueF_zero hr hm.2.2.2]
  rw [Seg.weightF, posF_right hr hm hss hx, evalF_one hr hc hi]

/-! ## C74: the range, up to rounding -/

theorem mix_err (hr : IsRnd u η rnd) {w i f M : K} (h0 : 0 ≤ w) (h1 : w ≤ 1) (hw : rnd w = w) (hi : |i| ≤ M) (hf : |f| ≤ M) :
    |rnd (rnd (w * i) + rnd (rnd (1 - w) * f)) - (w * i + (1 - w) * f)| ≤ 4 * u * M + 3 * η := by
  have hu := hr.unit
  have hη := hr.tiny
  have hM : 0 ≤ M := (abs_nonneg i).trans hi
  -- the two products
  have a1 : |rnd (w * i) - w * i| ≤ u * (w * M) + η := by
    refine (hr.err _).trans (add_le_add (mul_le_mul_of_nonneg_left ?_ hu.1) le_rfl)
    rw [abs_mul, abs_of_nonneg h0]
    exact mul_le_mul_of_nonneg_left hi h0
  have b0 : |rnd (1 - w) - (1 - w)| ≤ u * (1 - w) := by
    have := hr.diff 1 w hr.one hw; rwa [abs_of_nonneg (sub_nonneg.2 h1)] at this
  have b1 : rnd (1 - w) ≤ (1 + u) * (1 - w) := by have := (abs_le.1 b0).2; linarith
  have b2 : 0 ≤ rnd (1 - w) := rnd_nonneg hr (sub_nonneg.2 h1)
  have b3 : |rnd (rnd (1 - w) * f) - rnd (1 - w) * f| ≤ u * ((1 + u) * (1 - w) * M) + η := by
    refine (hr.err _).trans (add_le_add (mul_le_mul_of_nonneg_left ?_ hu.1) le_rfl)
    rw [abs_mul, abs_of_nonneg b2]
    exact mul_le_mul b1 hf (abs_nonneg _) (mul_nonneg (by linarith) (sub_nonneg.2 h1))
  have b4 : |rnd (1 - w) * f - (1 - w) * f| ≤ u * (1 - w) * M := by
    rw [← sub_mul, abs_mul]
    exact mul_le_mul b0 hf (abs_nonneg _) (mul_nonneg hu.1 (sub_nonneg.2 h1))
  -- the sum
  have hw' : 0 ≤ 1 - w := sub_nonneg.2 h1
  have c1 : |rnd (w * i) + rnd (rnd (1 - w) * f) - (w * i + (1 - w) * f)| ≤ (2 * u + u * u) * M + 2 * η := by
    have e : rnd (w * i) + rnd (rnd (1 - w) * f) - (w * i + (1 - w) * f) =
        (rnd (w * i) - w * i) + ((rnd (rnd (1 - w) * f) - rnd (1 - w) * f) + (rnd (1 - w) * f - (1 - w) * f)) := by ring
    rw [e]
    refine (abs_add_le _ _).trans ((add_le_add a1 ((abs_add_le _ _).trans (add_le_add b3 b4))).trans ?_)
    have p1 : 0 ≤ u * M := mul_nonneg hu.1 hM
    have p2 : 0 ≤ u * M * w := mul_nonneg p1 h0
    have p3 : 0 ≤ u * (u * M) * w := mul_nonneg (mul_nonneg hu.1 p1) h0
    have e2 : u * (w * M) + η + (u * ((1 + u) * (1 - w) * M) + η + u * (1 - w) * M) =
        (2 * u + u * u) * M + 2 * η - u * M * w - u * (u * M) * w := by ring
    rw [e2]; linarith
  have c2 : |w * i + (1 - w) * f| ≤ M := by
    refine (abs_add_le _ _).trans ?_
    rw [abs_mul, abs_mul, abs_of_nonneg h0, abs_of_nonneg hw']
    have := mul_le_mul_of_nonneg_left hi h0
    have := mul_le_mul_of_nonneg_left hf hw'
    have e : w * M + (1 - w) * M = M := by ring
    linarith
  have c3 : |rnd (w * i) + rnd (rnd (1 - w) * f)| ≤ (1 + 2 * u + u * u) * M + 2 * η := by
    have e : rnd (w * i) + rnd (rnd (1 - w) * f) =
        (rnd (w * i) + rnd (rnd (1 - w) * f) - (w * i + (1 - w) * f)) + (w * i + (1 - w) * f) := by ring
    rw [e]
    refine (abs_add_le _ _).trans ((add_le_add c1 c2).trans (le_of_eq (by ring)))
  have d0 := hr.diff (rnd (w * i)) (-rnd (rnd (1 - w) * f)) (hr.idem _) (by rw [hr.neg, hr.idem])
  rw [sub_neg_eq_add] at d0
  have d := d0.trans (mul_le_mul_of_nonneg_left c3 hu.1)
  have e : rnd (rnd (w * i) + rnd (rnd (1 - w) * f)) - (w * i + (1 - w) * f) =
      (rnd (rnd (w * i) + rnd (rnd (1 - w) * f)) - (rnd (w * i) + rnd (rnd (1 - w) * f))) +
      (rnd (w * i) + rnd (rnd (1 - w) * f) - (w * i + (1 - w) * f)) := by ring
  rw [e]
  refine (abs_add_le _ _).trans ((add_le_add d c1).trans ?_)
  have p1 : 0 ≤ u * M := mul_nonneg hu.1 hM
  have q1 : u * (u * M) ≤ 1 / 8 * (u * M) := mul_le_mul_of_nonneg_right hu.2 p1
  have p2 : 0 ≤ u * (u * M) := mul_nonneg hu.1 p1
  have q2 : u * (u * (u * M)) ≤ 1 / 8 * (u * (u * M)) := mul_le_mul_of_nonneg_right hu.2 p2
  have q3 : u * η ≤ 1 / 8 * η := mul_le_mul_of_nonneg_right hu.2 hη
  have e3 : u * ((1 + 2 * u + u * u) * M + 2 * η) + ((2 * u + u * u) * M + 2 * η) =
      3 * (u * M) + 3 * (u * (u * M)) + u * (u * (u * M)) + 2 * (u * η) + 2 * η := by ring
  rw [e3]
  have e4 : 4 * u * M = 4 * (u * M) := by ring
  rw [e4]; linarith

/-- C74: with increasing knots the computed value exists everywhere and lies between the two values of one of the segments, up to
`4 u` times the larger of them in absolute value and `3 η` (`u` is the unit roundoff, 2⁻⁵³ for binary64, and `η` half of the smallest
positive number, 2⁻¹⁰⁷⁵). -/
theorem C74_between (hr : IsRnd u η rnd) (hc : IsCosF cosF) (f : Sched K) (hm : Machine rnd f) (hne : f.segs ≠ [])
    (hinc : Increasing f.segs) (x : K) :
    ∃ v, f.getValueF rnd cosF x = .ok v ∧ ∃ s ∈ f.segs,
      min s.initial s.final - (4 * u * max |s.initial| |s.final| + 3 * η) ≤ v ∧
      v ≤ max s.initial s.final + (4 * u * max |s.initial| |s.final| + 3 * η) := by
  obtain ⟨s, h1, h2⟩ := pickSeg_mem x f.segs .none (.inl hne)
  rcases h2 with h2 | h2
  · refine ⟨_, getValueF_pick hr h1 (hm s h2) (hinc s h2), s, h2, ?_⟩
    have hw := evalF_mem hr hc s.interp (posF_mem (rnd := rnd) s x).1 (posF_mem (rnd := rnd) s x).2
    have he := abs_le.1 (mix_err hr (i := s.initial) (f := s.final) hw.1 hw.2 (evalF_rep hr _ _) (le_max_left _ _) (le_max_right |s.initial| |s.final|))
    have k1 := min_le_left s.initial s.final
    have k2 := min_le_right s.initial s.final
    have k3 := le_max_left s.initial s.final
    have k4 := le_max_right s.initial s.final
    simp only [Seg.valueF, Seg.weightF]
    generalize s.interp.evalF rnd cosF (s.posF rnd x) = w at hw he ⊢
    have hw' : 0 ≤ 1 - w := sub_nonneg.2 hw.2
    have m1 := mul_le_mul_of_nonneg_left k1 hw.1
    have m2 := mul_le_mul_of_nonneg_left k2 hw'
    have m3 := mul_le_mul_of_nonneg_left k3 hw.1
    have m4 := mul_le_mul_of_nonneg_left k4 hw'
    have e1 : w * min s.initial s.final + (1 - w) * min s.initial s.final = min s.initial s.final := by ring
    have e2 : w * max s.initial s.final + (1 - w) * max s.initial s.final = max s.initial s.final := by ring
    constructor <;> linarith [he.1, he.2]
  · cases h2

/-! ## C74: distance from the exact value -/

theorem clamp_lip (a b : K) : |(if a < 0 then 0 else if a > 1 then 1 else a) - (if b < 0 then 0 else if b > 1 then 1 else b)| ≤ |a - b| := by
  have h01 : (0 : K) ≤ 1 := zero_le_one
  rcases le_total a b with h | h
  · rw [abs_of_nonpos (sub_nonpos.2 h), abs_le]
    by_cases a0 : a < 0 <;> by_cases b0 : b < 0 <;> by_cases a1 : a > 1 <;> by_cases b1 : b > 1 <;>
      simp only [a0, b0, a1, b1, if_true, if_false] <;> constructor <;> linarith
  · rw [abs_of_nonneg (sub_nonneg.2 h), abs_le]
    by_cases a0 : a < 0 <;> by_cases b0 : b < 0 <;> by_cases a1 : a > 1 <;> by_cases b1 : b > 1 <;>
      simp only [a0, b0, a1, b1, if_true, if_false] <;> constructor <;> linarith

theorem posF_err (hr : IsRnd u η rnd) {s : Seg K} (hm : SegM rnd s) (hs : s.start < s.stop) {x : K} (hxr : rnd x = x) :
    |s.posF rnd x - s.pos x| ≤ 4 * u + η := by
  have hu := hr.unit
  have hη := hr.tiny
  have hsum : 0 ≤ 4 * u + η := by linarith
  rcases le_total x s.start with hx | hx
  · rw [posF_left hr hm hs hx, pos_left hs hx]; simpa using hsum
  rcases le_total s.stop x with hx2 | hx2
  · rw [posF_right hr hm hs hx2, pos_right hs hx2]; simpa using hsum
  refine (clamp_lip _ _).trans ?_
  have hd := sub_pos.2 hs
  have hD := rnd_pos hr hm.2.1 hm.1 hs
  have ha := sub_nonneg.2 hx
  have hA := rnd_nonneg hr ha
  have hle : x - s.start ≤ s.stop - s.start := sub_le_sub_right hx2 _
  have hLE := hr.mono _ _ hle
  have e1 := hr.diff x s.start hxr hm.1
  have e2 := hr.diff s.stop s.start hm.2.1 hm.1
  rw [abs_of_nonneg ha] at e1
  rw [abs_of_pos hd] at e2
  generalize x - s.start = a at *
  generalize s.stop - s.start = d at *
  have e3 := hr.err (rnd a / rnd d)
  have q1 : rnd a / rnd d ≤ 1 := (div_le_one hD).2 hLE
  have q0 : 0 ≤ rnd a / rnd d := div_nonneg hA hD.le
  rw [abs_of_nonneg q0] at e3
  have e3' : |rnd (rnd a / rnd d) - rnd a / rnd d| ≤ u + η := e3.trans (by have := mul_le_mul_of_nonneg_left q1 hu.1; linarith)
  -- the quotient of the rounded numbers
  have e4 : |rnd a / rnd d - a / d| ≤ 3 * u := by
    have hq : rnd a / rnd d - a / d = ((rnd a - a) + a / d * (d - rnd d)) / rnd d := by field_simp; ring
    have p0 : 0 ≤ a / d := div_nonneg ha hd.le
    have p1 : a / d ≤ 1 := (div_le_one hd).2 hle
    have n1 : |(rnd a - a) + a / d * (d - rnd d)| ≤ 2 * u * d := by
      refine (abs_add_le _ _).trans ?_
      rw [abs_mul, abs_of_nonneg p0, abs_sub_comm d]
      have m1 := mul_le_mul_of_nonneg_left hle hu.1
      have m2 := mul_le_mul p1 e2 (abs_nonneg _) zero_le_one
      linarith
    have n2 : 2 * d ≤ 3 * rnd d := by
      have := (abs_le.1 e2).1
      have := mul_le_mul_of_nonneg_right hu.2 hd.le
      linarith
    rw [hq, abs_div, abs_of_pos hD, div_le_iff₀ hD]
    have := mul_le_mul_of_nonneg_left n2 hu.1
    linarith
  have e5 : rnd (rnd a / rnd d) - a / d = (rnd (rnd a / rnd d) - rnd a / rnd d) + (rnd a / rnd d - a / d) := by ring
  rw [e5]
  exact (abs_add_le _ _).trans (by linarith)

/-- the computed cosine is within `δ` of a function that changes by at most `L` per unit -/
structure CosNear (L δ : K) (cosF cosPi : K → K) : Prop where
  near : ∀ a, 0 ≤ a → a ≤ 1 → |cosF a - cosPi a| ≤ δ
  lip : ∀ a b, 0 ≤ a → a ≤ 1 → 0 ≤ b → b ≤ 1 → |cosPi a - cosPi b| ≤ L * |a - b|
  pos : 0 ≤ L ∧ 0 ≤ δ

theorem evalF_err (hr : IsRnd u η rnd) (hc : IsCosF cosF) {cosPi : K → K} {L δ : K} (hn : CosNear L δ cosF cosPi) (i : Interp) {r p : K}
    (hrr : rnd r = r) (r0 : 0 ≤ r) (r1 : r ≤ 1) (p0 : 0 ≤ p) (p1 : p ≤ 1) (h : |r - p| ≤ 4 * u + η) :
    |i.evalF rnd cosF r - i.eval cosPi p| ≤ (5 + 2 * L) * u + (1 + L) * η + δ / 2 := by
  have hu := hr.unit
  have hη := hr.tiny
  have hLη := mul_nonneg hn.pos.1 hη
  have hLu := mul_nonneg hn.pos.1 hu.1
  have hδ := hn.pos.2
  cases i with
  | lin =>
    have e1 := hr.diff 1 r hr.one hrr
    rw [abs_of_nonneg (sub_nonneg.2 r1)] at e1
    have m := mul_nonneg hu.1 r0
    simp only [Interp.evalF, Interp.eval]
    rw [abs_le] at *
    constructor <;> nlinarith [e1.1, e1.2, h.1, h.2]
  | cos =>
    have a1 := hr.err (cosF r * (1 / 2))
    have c1 : |cosF r * (1 / 2)| ≤ 1 / 2 := by
      rw [abs_le]; constructor <;> linarith [hc.lower r, hc.upper r]
    have a2 := a1.trans (add_le_add (mul_le_mul_of_nonneg_left c1 hu.1) le_rfl)
    have b1 := hr.mono _ _ (abs_le.1 c1).1
    have b2 := hr.mono _ _ (abs_le.1 c1).2
    rw [hr.nhalf] at b1
    rw [hr.half] at b2
    have s0 : 0 ≤ rnd (cosF r * (1 / 2)) + 1 / 2 := by linarith
    have s1 : rnd (cosF r * (1 / 2)) + 1 / 2 ≤ 1 := by linarith
    have a3 := hr.diff (rnd (cosF r * (1 / 2))) (-(1 / 2)) (hr.idem _) hr.nhalf
    rw [sub_neg_eq_add] at a3
    rw [abs_of_nonneg s0] at a3
    have a4 := a3.trans (mul_le_mul_of_nonneg_left s1 hu.1)
    have n1 := hn.near r r0 r1
    have n2 := (hn.lip r p r0 r1 p0 p1).trans (mul_le_mul_of_nonneg_left h hn.pos.1)
    simp only [Interp.evalF, Interp.eval]
    rw [abs_le] at *
    constructor <;> nlinarith [a2.1, a2.2, a4.1, a4.2, n1.1, n1.2, n2.1, n2.2]
  | step =>
    simp only [Interp.evalF, Interp.eval, sub_self, abs_zero]
    nlinarith

/-- C74: the computed value differs from the exact one by at most a small multiple of the unit roundoff (and of the error `δ` of the
computed cosine and of the smallest positive number). -/
theorem C74_error (hr : IsRnd u η rnd) (hc : IsCosF cosF) {cosPi : K → K} {L δ : K} (hn : CosNear L δ cosF cosPi)
    (f : Sched K) (hm : Machine rnd f) (hne : f.segs ≠ []) (hinc : Increasing f.segs) {x : K} (hx : rnd x = x) :
    ∃ v v', f.getValueF rnd cosF x = .ok v ∧ f.getValue cosPi x = .ok v' ∧ ∃ s ∈ f.segs,
      |v - v'| ≤ 4 * u * max |s.initial| |s.final| + 3 * η + ((5 + 2 * L) * u + (1 + L) * η + δ / 2) * |s.initial - s.final| := by
  obtain ⟨s, h1, h2⟩ := pickSeg_mem x f.segs .none (.inl hne)
  rcases h2 with h2 | h2
  · have hs := hinc s h2
    refine ⟨_, _, getValueF_pick hr h1 (hm s h2) hs, getValue_pick h1 hs, s, h2, ?_⟩
    have hp := posF_mem (rnd := rnd) s x
    have hq := pos_mem s x
    have hw := evalF_mem hr hc s.interp hp.1 hp.2
    have he := mix_err hr (i := s.initial) (f := s.final) hw.1 hw.2 (evalF_rep hr _ _) (le_max_left _ _) (le_max_right |s.initial| |s.final|)
    have hv := evalF_err hr hc hn s.interp (posF_rep hr s x) hp.1 hp.2 hq.1 hq.2 (posF_err hr (hm s h2) hs hx)
    simp only [Seg.valueF, Seg.weightF, Seg.value]
    generalize s.interp.evalF rnd cosF (s.posF rnd x) = w at hv he ⊢
    generalize s.interp.eval cosPi (s.pos x) = w' at hv ⊢
    have e : ∀ z : K, z - (w' * s.initial + (1 - w') * s.final) =
        (z - (w * s.initial + (1 - w) * s.final)) + (w - w') * (s.initial - s.final) := fun z => by ring
    rw [e]
    refine (abs_add_le _ _).trans (add_le_add he ?_)
    rw [abs_mul]
    exact mul_le_mul_of_nonneg_right hv (abs_nonneg _)
  · cases h2

/-- C74: a segment that goes down to 0 stays in its range without any error. -/
theorem C74_to_zero (hr : IsRnd u η rnd) (hc : IsCosF cosF) (f : Sched K) {pre post : List (Seg K)} {s : Seg K} (hf : f.segs = pre ++ s :: post)
    (hch : Chained f.segs) (hinc : Increasing f.segs) (hm : Machine rnd f) (h0 : s.final = 0) (hi : 0 ≤ s.initial) {x : K}
    (h1 : s.start ≤ x) (h2 : x < s.stop) : ∃ v, f.getValueF rnd cosF x = .ok v ∧ 0 ≤ v ∧ v ≤ s.initial := by
  rw [hf] at hch hinc
  have hp : pickSeg x .none f.segs = some s := by
    rw [hf]; exact pickSeg_split post (.inl h2) pre .none (fun t ht => (chain_pre hch hinc t ht).trans h1)
  have hm := hm s (by rw [hf]; simp)
  refine ⟨_, getValueF_pick hr hp hm (hinc s (by simp)), ?_⟩
  have hw := evalF_mem hr hc s.interp (posF_mem (rnd := rnd) s x).1 (posF_mem (rnd := rnd) s x).2
  simp only [Seg.valueF, Seg.weightF, h0, mul_zero, hr.zero, add_zero, hr.idem]
  refine ⟨rnd_nonneg hr (mul_nonneg hw.1 hi), ?_⟩
  have := hr.mono _ _ (mul_le_mul_of_nonneg_right hw.2 hi)
  rwa [one_mul, hm.2.2.1] at this

/-- C74: and it never goes up again, if the computed cosine never does. -/
theorem C74_to_zero_mono (hr : IsRnd u η rnd) (hca : ∀ a b, 0 ≤ a → a ≤ b → b ≤ 1 → cosF b ≤ cosF a) (f : Sched K) (hm : Machine rnd f)
    {pre post : List (Seg K)} {s : Seg K} (hf : f.segs = pre ++ s :: post) (hch : Chained f.segs) (hinc : Increasing f.segs)
    (h0 : s.final = 0) (hi : 0 ≤ s.initial) {x x' : K} (h1 : s.start ≤ x) (hx : x ≤ x') (h2 : x' < s.stop) :
    ∃ v v', f.getValueF rnd cosF x = .ok v ∧ f.getValueF rnd cosF x' = .ok v' ∧ v' ≤ v := by
  rw [hf] at hch hinc
  have hp : ∀ y, s.start ≤ y → y < s.stop → pickSeg y .none f.segs = some s := by
    intro y a b
    rw [hf]; exact pickSeg_split post (.inl b) pre .none (fun t ht => (chain_pre hch hinc t ht).trans a)
  have hs := hinc s (by simp)
  have hsm := hm s (by rw [hf]; simp)
  refine ⟨_, _, getValueF_pick hr (hp x h1 (lt_of_le_of_lt hx h2)) hsm hs, getValueF_pick hr (hp x' (h1.trans hx) h2) hsm hs, ?_⟩
  have hm := posF_mono hr hsm hs hx
  have hw : s.interp.evalF rnd cosF (s.posF rnd x') ≤ s.interp.evalF rnd cosF (s.posF rnd x) := by
    cases s.interp with
    | lin => exact hr.mono _ _ (by linarith)
    | cos =>
      refine hr.mono _ _ ?_
      have := hr.mono _ _ (mul_le_mul_of_nonneg_right (hca _ _ (posF_mem s x).1 hm (posF_mem s x').2) (show (0 : K) ≤ 1 / 2 by norm_num))
      linarith
    | step => exact le_refl _
  simp only [Seg.valueF, Seg.weightF, h0, mul_zero, hr.zero, add_zero, hr.idem]
  exact hr.mono _ _ (mul_le_mul_of_nonneg_right hw hi)

end

/-! ## binary64 -/

section
variable {K : Type} [Field K] [LinearOrder K] [IsStrictOrderedRing K] [FloorRing K]

theorem roundEven_err (q : K) : |(roundEven q : K) - q| ≤ 1 / 2 := by
  have h1 := Int.floor_le q
  have h2 := Int.lt_floor_add_one q
  rw [abs_le]
  unfold roundEven
  split
  · constructor <;> linarith
  · split
    · push_cast; constructor <;> linarith
    · split
      · constructor <;> linarith
      · push_cast; constructor <;> linarith

theorem roundEven_int (n : ℤ) : roundEven (n : K) = n := by
  simp [roundEven]

theorem roundEven_mono {a b : K} (h : a ≤ b) : roundEven a ≤ roundEven b := by
  have hf := Int.floor_mono h
  rcases lt_or_eq_of_le hf with hlt | heq
  · have ha : roundEven a ≤ ⌊a⌋ + 1 := by unfold roundEven; split <;> [omega; (split <;> [omega; (split <;> omega)])]
    have hb : ⌊b⌋ ≤ roundEven b := by unfold roundEven; split <;> [omega; (split <;> [omega; (split <;> omega)])]
    omega
  · unfold roundEven
    rw [heq]
    split
    · split <;> [omega; (split <;> [omega; (split <;> omega)])]
    · rename_i h1
      rw [if_neg (show ¬ b - ⌊b⌋ < 1 / 2 by linarith)]
      split
      · rename_i h2
        rw [if_pos (show 1 / 2 < b - ⌊b⌋ by linarith)]
      · split
        · split <;> omega
        · split <;> omega

theorem roundEven_neg (q : K) : roundEven (-q) = -roundEven q := by
  have h1 := Int.floor_le q
  have h2 := Int.lt_floor_add_one q
  by_cases hq : (⌊q⌋ : K) = q
  · rw [← hq, roundEven_int]
    have : (-(⌊q⌋ : K)) = ((-⌊q⌋ : ℤ) : K) := by push_cast; rfl
    rw [this, roundEven_int]
  · have hlt : (⌊q⌋ : K) < q := lt_of_le_of_ne h1 hq
    have hf : ⌊-q⌋ = -⌊q⌋ - 1 := by
      rw [Int.floor_eq_iff]; push_cast; constructor <;> linarith
    unfold roundEven
    rw [hf]
    push_cast
    rcases lt_trichotomy (q - ⌊q⌋) (1 / 2) with h | h | h
    · rw [if_pos h, if_neg (by linarith), if_pos (by linarith)]; omega
    · have n1 : ¬ -q - (-(⌊q⌋ : K) - 1) < 1 / 2 := by linarith
      have n2 : ¬ 1 / 2 < -q - (-(⌊q⌋ : K) - 1) := by linarith
      have n3 : ¬ q - (⌊q⌋ : K) < 1 / 2 := by linarith
      have n4 : ¬ 1 / 2 < q - (⌊q⌋ : K) := by linarith
      rw [if_neg n1, if_neg n2, if_neg n3, if_neg n4]
      split <;> split <;> omega
    · rw [if_neg (not_lt.2 h.le), if_pos h, if_pos (by linarith)]; omega

theorem two_zpow_pos (e : ℤ) : (0 : K) < 2 ^ e := zpow_pos (by norm_num) e

theorem rnd64_neg (q : K) : rnd64 (-q) = -rnd64 q := by
  unfold rnd64
  by_cases h : q = 0
  · simp [h]
  · rw [if_neg h, if_neg (neg_ne_zero.2 h), abs_neg, neg_div, roundEven_neg]
    push_cast; ring

theorem log_bounds {q : K} (h : q ≠ 0) : (2 : K) ^ (Int.log 2 |q|) ≤ |q| ∧ |q| < 2 ^ (Int.log 2 |q| + 1) := by
  have hp : 0 < |q| := abs_pos.2 h
  have h1 := Int.zpow_log_le_self (b := 2) (by norm_num) hp
  have h2 := Int.lt_zpow_succ_log_self (b := 2) (by norm_num) |q|
  push_cast at h1 h2
  exact ⟨h1, h2⟩

/-- numbers with at most 53 bits are kept -/
theorem rnd64_rep (n e : ℤ) (hn : |n| ≤ 2 ^ 53) : rnd64 ((n : K) * 2 ^ e) = n * 2 ^ e := by
  have key : ∀ n e : ℤ, |n| < 2 ^ 53 → rnd64 ((n : K) * 2 ^ e) = n * 2 ^ e := by
    intro n e hn
    unfold rnd64
    split
    · rename_i h; exact h.symm
    · rename_i h
      have hb := (log_bounds h).1
      generalize Int.log 2 |(n : K) * 2 ^ e| = L at hb ⊢
      have h2 : |(n : K) * 2 ^ e| < 2 ^ (53 + e) := by
        rw [abs_mul, abs_of_pos (a := (2 : K) ^ e) (two_zpow_pos e), zpow_add₀ (by norm_num)]
        refine mul_lt_mul_of_pos_right ?_ (two_zpow_pos e)
        have : ((|n| : ℤ) : K) < ((2 ^ 53 : ℤ) : K) := Int.cast_lt.2 hn
        rw [Int.cast_abs] at this
        refine this.trans_eq ?_
        rw [show (53 : ℤ) = ((53 : ℕ) : ℤ) from rfl, zpow_natCast]
        norm_num
      have h3 : L < 53 + e := (zpow_lt_zpow_iff_right₀ (by norm_num : (1 : K) < 2)).1 (lt_of_le_of_lt hb h2)
      obtain ⟨k, hk⟩ := Int.eq_ofNat_of_zero_le (show 0 ≤ e - (L - 52) by omega)
      have h4 : (n : K) * 2 ^ e / 2 ^ (L - 52) = ((n * 2 ^ k : ℤ) : K) := by
        rw [mul_div_assoc, ← zpow_sub₀ (by norm_num), hk]; push_cast; simp
      rw [h4, roundEven_int, ← h4, div_mul_cancel₀ _ (two_zpow_pos _).ne']
  rcases lt_or_eq_of_le hn with h | h
  · exact key n e h
  · have hn2 : n = 2 ^ 53 ∨ n = -2 ^ 53 := by
      rcases abs_choice n with h' | h' <;> omega
    have e1 : (2 : K) ^ (e + 1) = 2 ^ e * 2 := by rw [zpow_add₀ (by norm_num), zpow_one]
    rcases hn2 with rfl | rfl
    · have := key (2 ^ 52) (e + 1) (by norm_num)
      rw [e1] at this
      have e2 : (((2 ^ 52 : ℤ) : K) * (2 ^ e * 2)) = ((2 ^ 53 : ℤ) : K) * 2 ^ e := by push_cast; ring
      rwa [e2] at this
    · have := key (-2 ^ 52) (e + 1) (by norm_num)
      rw [e1] at this
      have e2 : (((-2 ^ 52 : ℤ) : K) * (2 ^ e * 2)) = ((-2 ^ 53 : ℤ) : K) * 2 ^ e := by push_cast; ring
      rwa [e2] at this

/-- the shape of a rounded number -/
theorem rnd64_shape {q : K} (h : 0 < q) : ∃ n : ℤ, 2 ^ 52 ≤ n ∧ n ≤ 2 ^ 53 ∧ rnd64 q = n * 2 ^ (Int.log 2 |q| - 52) := by
  have hb := log_bounds h.ne'
  refine ⟨roundEven (q / 2 ^ (Int.log 2 |q| - 52)), ?_, ?_, by rw [rnd64, if_neg h.ne']⟩
  · have h1 : ((2 ^ 52 : ℤ) : K) ≤ q / 2 ^ (Int.log 2 |q| - 52) := by
      rw [le_div_iff₀ (two_zpow_pos _)]
      refine le_trans (le_of_eq ?_) (hb.1.trans (le_of_eq (abs_of_pos h)))
      rw [zpow_sub₀ (by norm_num)]; push_cast
      field_simp
      norm_cast
    have := roundEven_mono h1
    rwa [roundEven_int] at this
  · have h1 : q / 2 ^ (Int.log 2 |q| - 52) ≤ ((2 ^ 53 : ℤ) : K) := by
      rw [div_le_iff₀ (two_zpow_pos _)]
      refine le_trans (le_of_eq (abs_of_pos h).symm) (hb.2.le.trans (le_of_eq ?_))
      have : Int.log 2 |q| + 1 = 53 + (Int.log 2 |q| - 52) := by ring
      rw [this, zpow_add₀ (by norm_num)]; push_cast; norm_cast
    have := roundEven_mono h1
    rwa [roundEven_int] at this

theorem rnd64_mono_pos {a b : K} (h0 : 0 < a) (h : a ≤ b) : rnd64 a ≤ rnd64 b := by
  have hb0 := lt_of_lt_of_le h0 h
  have hl : Int.log 2 |a| ≤ Int.log 2 |b| := by
    rw [abs_of_pos h0, abs_of_pos hb0]; exact Int.log_mono_right h0 h
  rcases lt_or_eq_of_le hl with hl | hl
  · obtain ⟨n, _, n2, hn⟩ := rnd64_shape h0
    obtain ⟨m, m1, _, hm⟩ := rnd64_shape hb0
    rw [hn, hm]
    have n2' : (n : K) ≤ ((2 ^ 53 : ℤ) : K) := Int.cast_le.2 n2
    have m1' : ((2 ^ 52 : ℤ) : K) ≤ (m : K) := Int.cast_le.2 m1
    refine (mul_le_mul_of_nonneg_right n2' (two_zpow_pos _).le).trans (le_trans ?_ (mul_le_mul_of_nonneg_right m1' (two_zpow_pos _).le))
    have e0 : ((2 ^ 53 : ℤ) : K) = 2 ^ 53 ∧ ((2 ^ 52 : ℤ) : K) = 2 ^ 52 := by constructor <;> norm_cast
    rw [e0.1, e0.2]
    have e1 : (2 : K) ^ 53 * 2 ^ (Int.log 2 |a| - 52) = 2 ^ (Int.log 2 |a| + 1) := by
      have : Int.log 2 |a| + 1 = 53 + (Int.log 2 |a| - 52) := by ring
      rw [this, zpow_add₀ (by norm_num)]; norm_cast
    have e2 : (2 : K) ^ 52 * 2 ^ (Int.log 2 |b| - 52) = 2 ^ (Int.log 2 |b|) := by
      have : Int.log 2 |b| = 52 + (Int.log 2 |b| - 52) := by ring
      conv_rhs => rw [this, zpow_add₀ (by norm_num)]
      norm_cast
    rw [e1, e2]
    exact zpow_le_zpow_right₀ (by norm_num) (by omega)
  · rw [rnd64, rnd64, if_neg h0.ne', if_neg hb0.ne', hl]
    refine mul_le_mul_of_nonneg_right (Int.cast_le.2 (roundEven_mono ?_)) (two_zpow_pos _).le
    exact div_le_div_of_nonneg_right h (two_zpow_pos _).le

theorem rnd64_nonneg' {a : K} (h : 0 ≤ a) : 0 ≤ rnd64 a := by
  rcases lt_or_eq_of_le h with h | h
  · obtain ⟨n, n1, _, hn⟩ := rnd64_shape h
    rw [hn]
    exact mul_nonneg (Int.cast_nonneg (by omega)) (two_zpow_pos _).le
  · simp [← h, rnd64]

theorem rnd64_err (a : K) : |rnd64 a - a| ≤ 1 / 2 ^ 53 * |a| := by
  by_cases h : a = 0
  · simp [h, rnd64]
  · rw [rnd64, if_neg h]
    have hb := (log_bounds h).1
    have e1 : (2 : K) ^ (Int.log 2 |a|) = 2 ^ 52 * 2 ^ (Int.log 2 |a| - 52) := by
      have : Int.log 2 |a| = 52 + (Int.log 2 |a| - 52) := by ring
      conv_lhs => rw [this, zpow_add₀ (by norm_num)]
      norm_cast
    rw [e1] at hb
    have hp := two_zpow_pos (K := K) (Int.log 2 |a| - 52)
    generalize (2 : K) ^ (Int.log 2 |a| - 52) = p at hb hp ⊢
    have e2 : (roundEven (a / p) : K) * p - a = (roundEven (a / p) - a / p) * p := by field_simp
    rw [e2, abs_mul, abs_of_pos hp]
    have := mul_le_mul_of_nonneg_right (roundEven_err (a / p)) hp.le
    linarith

/-- C74: rounding to 53 bits has the properties used, with unit roundoff 2⁻⁵³. -/
theorem isRnd_rnd64 : IsRnd ((1 : K) / 2 ^ 53) 0 rnd64 where
  mono := by
    intro a b h
    rcases lt_trichotomy a 0 with ha | ha | ha
    · rcases lt_or_ge b 0 with hb | hb
      · have := rnd64_mono_pos (neg_pos.2 hb) (neg_le_neg h)
        rw [rnd64_neg, rnd64_neg] at this
        exact neg_le_neg_iff.1 this
      · have := rnd64_nonneg' (neg_pos.2 ha).le
        rw [rnd64_neg] at this
        linarith [rnd64_nonneg' hb]
    · subst ha
      simpa [rnd64] using rnd64_nonneg' h
    · exact rnd64_mono_pos ha h
  idem := by
    intro a
    rcases lt_trichotomy a 0 with ha | ha | ha
    · obtain ⟨n, n1, n2, hn⟩ := rnd64_shape (neg_pos.2 ha)
      have := rnd64_rep (K := K) n (Int.log 2 |-a| - 52) (by rw [abs_of_nonneg (by omega)]; exact n2)
      rw [← hn, rnd64_neg, rnd64_neg] at this
      exact neg_injective this
    · simp [ha, rnd64]
    · obtain ⟨n, n1, n2, hn⟩ := rnd64_shape ha
      have := rnd64_rep (K := K) n (Int.log 2 |a| - 52) (by rw [abs_of_nonneg (by omega)]; exact n2)
      rwa [← hn] at this
  zero := by simp [rnd64]
  one := by simpa using rnd64_rep (K := K) 1 0 (by norm_num)
  half := by simpa using rnd64_rep (K := K) 1 (-1) (by norm_num)
  neg := rnd64_neg
  diff := fun a b _ _ => rnd64_err (a - b)
  tiny := le_rfl
  err := by
    intro a
    rw [add_zero]
    exact rnd64_err a
  unit := by constructor <;> norm_num
end

section
variable {K : Type} [Field K] [LinearOrder K] [IsStrictOrderedRing K] [FloorRing K]

theorem truncZ_near {a b : K} (h : |a - b| < 1) : |truncZ a - truncZ b| ≤ 1 := by
  have h' := abs_lt.1 h
  have a1 := Int.floor_le a
  have a2 := Int.lt_floor_add_one a
  have a3 := Int.le_ceil a
  have a4 := Int.ceil_lt_add_one a
  have b1 := Int.floor_le b
  have b2 := Int.lt_floor_add_one b
  have b3 := Int.le_ceil b
  have b4 := Int.ceil_lt_add_one b
  have key : ∀ m n : ℤ, (m : K) < n + 2 → m ≤ n + 1 := by
    intro m n hmn
    have : (m : K) < ((n + 2 : ℤ) : K) := by push_cast; exact hmn
    have := Int.cast_lt.1 this
    omega
  have fin : ∀ m n : ℤ, (m : K) < n + 2 → (n : K) < m + 2 → |m - n| ≤ 1 := by
    intro m n x y
    have := key m n x
    have := key n m y
    rw [abs_le]; omega
  unfold truncZ
  split <;> split
  · exact fin _ _ (by linarith) (by linarith)
  · have c : -1 < (⌊a⌋ : K) := by linarith
    exact fin _ _ (by linarith) (by linarith)
  · exact fin _ _ (by linarith) (by linarith)
  · exact fin _ _ (by linarith) (by linarith)

/-- C74: an `int` field is off by at most one from the exact schedule, as long as the numbers are not so large that the rounding errors
reach 1. Missing: equality, see `C74_int_false`. -/
theorem C74_int_partial {rnd cosF : K → K} {u η : K} (hr : IsRnd u η rnd) (hc : IsCosF cosF) {cosPi : K → K} {L δ : K}
    (hn : CosNear L δ cosF cosPi) (f : Sched K) (hm : Machine rnd f) (hne : f.segs ≠ []) (hinc : Increasing f.segs)
    (hsm : ∀ s ∈ f.segs,
      4 * u * max |s.initial| |s.final| + 3 * η + ((5 + 2 * L) * u + (1 + L) * η + δ / 2) * |s.initial - s.final| < 1)
    {x : K} (hx : rnd x = x) :
    ∃ v v', f.getValueF rnd cosF x = .ok v ∧ f.getValue cosPi x = .ok v' ∧ |truncZ v - truncZ v'| ≤ 1 := by
  obtain ⟨v, v', h1, h2, s, hs, h⟩ := C74_error hr hc hn f hm hne hinc hx
  exact ⟨v, v', h1, h2, truncZ_near (lt_of_le_of_lt h (hsm s hs))⟩

/-- C74: the value of an `int` field is the computed value cut off towards zero: the only integer that is less than one away from it and not
larger in absolute value. -/
theorem C74_int_cut {rnd cosF : K → K} {u η : K} (hr : IsRnd u η rnd) (hc : IsCosF cosF) (f : Sched K) (hm : Machine rnd f) (hne : f.segs ≠ [])
    (hinc : Increasing f.segs) (x : K) :
    ∃ v, f.getValueF rnd cosF x = .ok v ∧ ∀ k : ℤ, truncZ v = k ↔ |(k : K)| ≤ |v| ∧ |v - k| < 1 := by
  obtain ⟨v, h, _⟩ := C74_between hr hc f hm hne hinc x
  refine ⟨v, h, fun k => ?_⟩
  unfold truncZ
  split
  · rename_i h0
    rw [Int.floor_eq_iff, abs_of_nonneg h0, abs_lt]
    constructor
    · rintro ⟨h1, h2⟩
      have h3 : (0 : ℤ) ≤ k := by
        have : (-1 : K) < k := by linarith
        have : (-1 : ℤ) < k := by exact_mod_cast this
        omega
      have h4 : (0 : K) ≤ k := by exact_mod_cast h3
      exact ⟨by rwa [abs_of_nonneg h4], by linarith, by linarith⟩
    · rintro ⟨h1, h2, h3⟩
      exact ⟨(le_abs_self _).trans h1, by linarith⟩
  · rename_i h0
    have h0 : v < 0 := not_le.1 h0
    rw [Int.ceil_eq_iff, abs_of_neg h0, abs_lt]
    constructor
    · rintro ⟨h1, h2⟩
      have h3 : k ≤ (0 : ℤ) := by
        have : (k : K) < 1 := by linarith
        have : k < (1 : ℤ) := by exact_mod_cast this
        omega
      have h4 : (k : K) ≤ 0 := by exact_mod_cast h3
      exact ⟨by rw [abs_of_nonpos h4]; linarith, by linarith, by linarith⟩
    · rintro ⟨h1, h2, h3⟩
      exact ⟨by linarith, by linarith [neg_abs_le (k : K)]⟩
end

/-! ## where exact arithmetic and binary64 differ -/

/-- the cosine rounded to binary64 -/
noncomputable def cos64 (x : ℝ) : ℝ := rnd64 (Real.cos (x * Real.pi))

theorem cos64_ok : IsCosF cos64 where
  zero := by simp [cos64, isRnd_rnd64.one]
  one := by simp [cos64, rnd64_neg, isRnd_rnd64.one]
  lower a := by
    have := (isRnd_rnd64 (K := ℝ)).mono _ _ (Real.neg_one_le_cos (a * Real.pi))
    rwa [rnd64_neg, isRnd_rnd64.one] at this
  upper a := by
    have := (isRnd_rnd64 (K := ℝ)).mono _ _ (Real.cos_le_one (a * Real.pi))
    rwa [isRnd_rnd64.one] at this

theorem cos64_near : CosNear 4 (1 / 2 ^ 53) cos64 (fun x : ℝ => Real.cos (x * Real.pi)) where
  near a _ _ := by
    refine (rnd64_err _).trans ?_
    have := Real.abs_cos_le_one (a * Real.pi)
    have h : (0 : ℝ) ≤ 1 / 2 ^ 53 := by positivity
    simpa using mul_le_mul_of_nonneg_left this h
  lip a b _ _ _ _ := by
    refine (Real.abs_cos_sub_cos_le _ _).trans ?_
    rw [← sub_mul, abs_mul, abs_of_pos Real.pi_pos, mul_comm]
    exact mul_le_mul_of_nonneg_right Real.pi_le_four (abs_nonneg _)
  pos := by constructor <;> positivity

/-- C74 for binary64 and the real cosine: the relative error is at most 2⁻⁴⁸. -/
theorem C74_error64 (f : Sched ℝ) (hm : Machine rnd64 f) (hne : f.segs ≠ []) (hinc : Increasing f.segs) {x : ℝ} (hx : rnd64 x = x) :
    ∃ v v', f.getValueF rnd64 cos64 x = .ok v ∧ f.getValue (fun x : ℝ => Real.cos (x * Real.pi)) x = .ok v' ∧ ∃ s ∈ f.segs,
      |v - v'| ≤ max |s.initial| |s.final| / 2 ^ 48 := by
  obtain ⟨v, v', h1, h2, s, hs, h⟩ := C74_error isRnd_rnd64 cos64_ok cos64_near f hm hne hinc hx
  refine ⟨v, v', h1, h2, s, hs, h.trans ?_⟩
  have a : |s.initial - s.final| ≤ 2 * max |s.initial| |s.final| := by
    refine (abs_sub _ _).trans ?_
    linarith [le_max_left |s.initial| |s.final|, le_max_right |s.initial| |s.final|]
  have b : (0 : ℝ) ≤ max |s.initial| |s.final| := (abs_nonneg _).trans (le_max_left _ _)
  generalize max |s.initial| |s.final| = M at a b ⊢
  generalize |s.initial - s.final| = D at a ⊢
  norm_num
  linarith

namespace SchedEx

theorem isCosF_tri : ∀ a, -1 ≤ max (-1) (min 1 (tri a)) ∧ max (-1) (min 1 (tri a)) ≤ 1 := by
  intro a; exact ⟨le_max_left _ _, max_le (by norm_num) (min_le_left _ _)⟩

/-- stand-in for the computed cosine -/
def triF (a : ℚ) : ℚ := rnd64 (max (-1) (min 1 (tri a)))

theorem triF_ok : IsCosF triF where
  zero := by decide +kernel
  one := by decide +kernel
  lower a := by
    have := (isRnd_rnd64 (K := ℚ)).mono _ _ (isCosF_tri a).1
    rwa [show rnd64 (-1 : ℚ) = -1 by decide +kernel] at this
  upper a := by
    have := (isRnd_rnd64 (K := ℚ)).mono _ _ (isCosF_tri a).2
    rwa [show rnd64 (1 : ℚ) = 1 by decide +kernel] at this

/-- `step: 0@0 10@100` -/
def count : Sched ℚ := ⟨[⟨0, 100, 0, 10, .lin⟩], "step".toList⟩
/-- `step: 0.9@0 0.9@10` -/
def const9 : Sched ℚ := ⟨[⟨0, 10, rnd64 (9 / 10), rnd64 (9 / 10), .lin⟩], "step".toList⟩
/-- `step: 0.9@0 0.9@7` -/
def const9' : Sched ℚ := ⟨[⟨0, 7, rnd64 (9 / 10), rnd64 (9 / 10), .lin⟩], "step".toList⟩

end SchedEx

/-- C74 is false of `int` fields without a tolerance: where the exact value is the integer 2, the field is set to 1. -/
theorem C74_int_false : SchedEx.count.getValue SchedEx.tri 20 = .ok 2 ∧
    ∃ v, SchedEx.count.getValueF rnd64 SchedEx.triF 20 = .ok v ∧ v < 2 ∧ truncZ v = 1 :=
  ⟨by decide +kernel, 9007199254740990 / 4503599627370496, by decide +kernel, by decide +kernel, by decide +kernel⟩

/-- C36 is false in binary64: a constant schedule takes values above and below its only value. -/
theorem C74_range_false :
    (∃ v, SchedEx.const9.getValueF rnd64 SchedEx.triF 3 = .ok v ∧ rnd64 (9 / 10) < v) ∧
    (∃ v, SchedEx.const9'.getValueF rnd64 SchedEx.triF 3 = .ok v ∧ v < rnd64 (9 / 10)) :=
  ⟨⟨8106479329266894 / 9007199254740992, by decide +kernel, by decide +kernel⟩,
   ⟨8106479329266892 / 9007199254740992, by decide +kernel, by decide +kernel⟩⟩

/-- C38 is false in binary64: the value goes up and down again within a segment. -/
theorem C38_float_false : ∃ v0 v3 v5, SchedEx.const9.getValueF rnd64 SchedEx.triF 0 = .ok v0 ∧
    SchedEx.const9.getValueF rnd64 SchedEx.triF 3 = .ok v3 ∧ SchedEx.const9.getValueF rnd64 SchedEx.triF 5 = .ok v5 ∧ v0 < v3 ∧ v5 < v3 :=
  ⟨rnd64 (9 / 10), 8106479329266894 / 9007199254740992, rnd64 (9 / 10), by decide +kernel, by decide +kernel, by decide +kernel,
    by decide +kernel, by decide +kernel⟩

namespace SchedEx

theorem count_inc : Increasing count.segs := by intro s hs; simp only [count, List.mem_singleton] at hs; subst hs; norm_num
theorem count_machine : Machine rnd64 count := by
  intro s hs; simp only [count, List.mem_singleton] at hs; subst hs; decide +kernel
theorem f_machine : Machine rnd64 f := by
  intro s hs
  simp only [f, List.mem_cons, List.mem_nil_iff, or_false] at hs
  rcases hs with rfl | rfl | rfl <;> decide +kernel
/-- `0.1@0 lin 0@1000000` -/
def decay : Sched ℚ := ⟨[⟨0, 1000000, rnd64 (1 / 10), 0, .lin⟩], "step".toList⟩
theorem decay_inc : Increasing decay.segs := by intro s hs; simp only [decay, List.mem_singleton] at hs; subst hs; norm_num
theorem decay_machine : Machine rnd64 decay := by
  intro s hs; simp only [decay, List.mem_singleton] at hs; subst hs; decide +kernel
theorem decay_chained : Chained decay.segs := by simp [Chained, decay]
theorem triF_near : CosNear 2 (1 / 2 ^ 53) triF tri where
  near a h0 h1 := by
    have e : max (-1) (min 1 (tri a)) = tri a := by
      simp only [tri]
      rw [min_eq_right (by linarith), max_eq_right (by linarith)]
    simp only [triF, e]
    refine (rnd64_err _).trans ?_
    have : |tri a| ≤ 1 := by rw [abs_le]; simp only [tri]; constructor <;> linarith
    have h : (0 : ℚ) ≤ 1 / 2 ^ 53 := by positivity
    simpa using mul_le_mul_of_nonneg_left this h
  lip a b _ _ _ _ := by
    have : tri a - tri b = -2 * (a - b) := by simp only [tri]; ring
    rw [this, abs_mul]; norm_num
  pos := by constructor <;> norm_num

example : f.getValueF rnd64 triF 1 = .ok 2 :=
  C74_at_knot isRnd_rnd64 triF_ok f f_machine (s := ⟨1, 2, 2, 9, .cos⟩) (by simp [f]) f_chained f_increasing
example : f.getValueF rnd64 triF (-7) = .ok 3 := C74_before isRnd_rnd64 triF_ok f f_machine rfl f_increasing (by norm_num)
example : count.getValueF rnd64 triF 1000 = .ok 10 :=
  C74_after_partial isRnd_rnd64 triF_ok count count_machine (ss := []) rfl (by simp [Chained, count]) count_inc (by decide) (by norm_num)
example := C74_between isRnd_rnd64 triF_ok count count_machine (by simp [count]) count_inc 20
example := C74_error isRnd_rnd64 triF_ok triF_near count count_machine (by simp [count]) count_inc (x := 20) (by decide +kernel)
example : ∃ v v', count.getValueF rnd64 triF 20 = .ok v ∧ count.getValue tri 20 = .ok v' ∧ |truncZ v - truncZ v'| ≤ 1 :=
  C74_int_partial isRnd_rnd64 triF_ok triF_near count count_machine (by simp [count]) count_inc
    (by intro s hs; simp only [count, List.mem_singleton] at hs; subst hs; norm_num) (by decide +kernel)
example : ∃ v, decay.getValueF rnd64 triF 333 = .ok v ∧ 0 ≤ v ∧ v ≤ rnd64 (1 / 10) :=
  C74_to_zero isRnd_rnd64 triF_ok decay (pre := []) rfl decay_chained decay_inc decay_machine rfl (by decide +kernel) (by norm_num)
    (by norm_num)
example : ∃ v v', decay.getValueF rnd64 triF 333 = .ok v ∧ decay.getValueF rnd64 triF 334 = .ok v' ∧ v' ≤ v :=
  C74_to_zero_mono isRnd_rnd64
    (fun a b _ h _ => isRnd_rnd64.mono _ _ (max_le_max_left _ (min_le_min_left _ (by simp only [tri]; linarith))))
    decay decay_machine (pre := []) rfl decay_chained decay_inc rfl (by decide +kernel) (by norm_num) (by norm_num) (by norm_num)
example : (⟨[⟨0, 10, 1, 0, .cos⟩], []⟩ : Sched ℝ).segs ≠ [] ∧ Increasing (⟨[⟨0, 10, 1, 0, .cos⟩], []⟩ : Sched ℝ).segs ∧
    Machine rnd64 (⟨[⟨0, 10, 1, 0, .cos⟩], []⟩ : Sched ℝ) := by
  refine ⟨by simp, ?_, ?_⟩
  · intro s hs; simp only [List.mem_singleton] at hs; subst hs; norm_num
  · intro s hs
    simp only [List.mem_singleton] at hs
    subst hs
    refine ⟨isRnd_rnd64.zero, ?_, isRnd_rnd64.one, isRnd_rnd64.zero⟩
    simpa using rnd64_rep (K := ℝ) 10 0 (by norm_num)

end SchedEx
end HS
