import Verif.Model.ScheduleIEEE
import Verif.Props.ScheduleFloat
/-!
# C74: schedules in Python's floats, with infinite numbers, NaN and subnormal numbers
-/
namespace HS

set_option exponentiation.threshold 2000

section
variable {K : Type} [Field K] [LinearOrder K] [IsStrictOrderedRing K] [FloorRing K]

/-- rounding to a multiple of 2⁻¹⁰⁷⁴ -/
def rndFix (q : K) : K := roundEven (q / 2 ^ (-1074 : ℤ)) * 2 ^ (-1074 : ℤ)

theorem rndSub_small {q : K} (h : |q| < 2 ^ (-1022 : ℤ)) : rndSub q = rndFix q := by
  unfold rndSub rndFix
  split
  · rename_i h0
    subst h0
    simp [roundEven]
  · rename_i h0
    have h1 : Int.log 2 |q| < -1022 := by
      have hb := (log_bounds h0).1
      exact (zpow_lt_zpow_iff_right₀ (by norm_num : (1 : K) < 2)).1 (lt_of_le_of_lt hb h)
    rw [max_eq_right h1.le]
    norm_num

theorem rndSub_normal {q : K} (h : (2 : K) ^ (-1022 : ℤ) ≤ |q|) : rndSub q = rnd64 q := by
  unfold rndSub rnd64
  split
  · rfl
  · rename_i h0
    have h1 : -1022 < Int.log 2 |q| + 1 :=
      (zpow_lt_zpow_iff_right₀ (by norm_num : (1 : K) < 2)).1 (lt_of_le_of_lt h (log_bounds h0).2)
    rw [max_eq_left (by omega)]

theorem rndFix_mono {a b : K} (h : a ≤ b) : rndFix a ≤ rndFix b :=
  mul_le_mul_of_nonneg_right (Int.cast_le.2 (roundEven_mono (div_le_div_of_nonneg_right h (two_zpow_pos _).le))) (two_zpow_pos _).le

theorem rndFix_neg (a : K) : rndFix (-a) = -rndFix a := by
  unfold rndFix
  rw [neg_div, roundEven_neg]
  push_cast; ring

theorem rndFix_mult (n : ℤ) : rndFix ((n : K) * 2 ^ (-1074 : ℤ)) = n * 2 ^ (-1074 : ℤ) := by
  unfold rndFix
  rw [mul_div_assoc, div_self (two_zpow_pos _).ne', mul_one, roundEven_int]

theorem small_eq : (2 : K) ^ (-1022 : ℤ) = ((2 ^ 52 : ℤ) : K) * 2 ^ (-1074 : ℤ) := by
  have : (-1022 : ℤ) = 52 + -1074 := by norm_num
  rw [this, zpow_add₀ (by norm_num)]
  norm_cast

theorem rndFix_T : rndFix ((2 : K) ^ (-1022 : ℤ)) = 2 ^ (-1022 : ℤ) := by
  rw [small_eq]; exact rndFix_mult _

theorem rnd64_T : rnd64 ((2 : K) ^ (-1022 : ℤ)) = 2 ^ (-1022 : ℤ) := by
  simpa using rnd64_rep (K := K) 1 (-1022) (by norm_num)

theorem rndSub_neg (a : K) : rndSub (-a) = -rndSub a := by
  rcases lt_or_ge |a| ((2 : K) ^ (-1022 : ℤ)) with h | h
  · rw [rndSub_small h, rndSub_small (by rwa [abs_neg]), rndFix_neg]
  · rw [rndSub_normal h, rndSub_normal (by rwa [abs_neg]), rnd64_neg]

theorem rndSub_mono {a b : K} (h : a ≤ b) : rndSub a ≤ rndSub b := by
  have hm := (isRnd_rnd64 (K := K)).mono
  rcases lt_or_ge |a| ((2 : K) ^ (-1022 : ℤ)) with ha | ha
  · rw [rndSub_small ha]
    rcases lt_or_ge |b| ((2 : K) ^ (-1022 : ℤ)) with hb | hb
    · rw [rndSub_small hb]; exact rndFix_mono h
    · rw [rndSub_normal hb]
      have ha' := abs_lt.1 ha
      have hb' : (2 : K) ^ (-1022 : ℤ) ≤ b := by
        rcases le_abs.1 hb with h1 | h1
        · exact h1
        · linarith
      have h1 := rndFix_mono ha'.2.le
      rw [rndFix_T] at h1
      have h2 := hm _ _ hb'
      rw [rnd64_T] at h2
      exact h1.trans h2
  · rw [rndSub_normal ha]
    rcases lt_or_ge |b| ((2 : K) ^ (-1022 : ℤ)) with hb | hb
    · rw [rndSub_small hb]
      have hb' := abs_lt.1 hb
      have ha' : a ≤ -(2 : K) ^ (-1022 : ℤ) := by
        rcases le_abs.1 ha with h1 | h1
        · linarith
        · linarith
      have h1 := rndFix_mono hb'.1.le
      rw [rndFix_neg, rndFix_T] at h1
      have h2 := hm _ _ ha'
      rw [rnd64_neg, rnd64_T] at h2
      exact h2.trans h1
    · rw [rndSub_normal hb]; exact hm _ _ h

theorem rndSub_idem (a : K) : rndSub (rndSub a) = rndSub a := by
  rcases lt_or_ge |a| ((2 : K) ^ (-1022 : ℤ)) with ha | ha
  · rw [rndSub_small ha]
    have ha' := abs_lt.1 ha
    have h1 := rndFix_mono ha'.2.le
    have h2 := rndFix_mono ha'.1.le
    rw [rndFix_T] at h1
    rw [rndFix_neg, rndFix_T] at h2
    rcases lt_or_eq_of_le (abs_le.2 ⟨h2, h1⟩) with h | h
    · rw [rndSub_small h]
      exact rndFix_mult _
    · rw [rndSub_normal h.ge]
      rcases eq_or_eq_neg_of_abs_eq h with h | h
      · rw [h, rnd64_T]
      · rw [h, rnd64_neg, rnd64_T]
  · rw [rndSub_normal ha]
    have : (2 : K) ^ (-1022 : ℤ) ≤ |rnd64 a| := by
      rcases le_abs.1 ha with h1 | h1
      · have := (isRnd_rnd64 (K := K)).mono _ _ h1
        rw [rnd64_T] at this
        exact this.trans (le_abs_self _)
      · have := (isRnd_rnd64 (K := K)).mono _ _ h1
        rw [rnd64_T, rnd64_neg] at this
        exact this.trans (neg_le_abs _)
    rw [rndSub_normal this, isRnd_rnd64.idem]

/-- representable numbers are multiples of 2⁻¹⁰⁷⁴ -/
theorem rndSub_multiple {a : K} (h : rndSub a = a) : ∃ n : ℤ, a = n * 2 ^ (-1074 : ℤ) := by
  rw [← h]
  unfold rndSub
  split
  · exact ⟨0, by simp⟩
  · obtain ⟨k, hk⟩ := Int.eq_ofNat_of_zero_le (show 0 ≤ max (Int.log 2 |a|) (-1022) - 52 + 1074 by omega)
    have e : max (Int.log 2 |a|) (-1022) - 52 = k + -1074 := by omega
    rw [e, zpow_add₀ (by norm_num), zpow_natCast]
    exact ⟨roundEven (a / (2 ^ k * 2 ^ (-1074 : ℤ))) * 2 ^ k, by push_cast; ring⟩

theorem one_normal : (2 : K) ^ (-1022 : ℤ) ≤ 1 / 2 := by
  have : (1 : K) / 2 = 2 ^ (-1 : ℤ) := by norm_num
  rw [this]
  exact zpow_le_zpow_right₀ (by norm_num) (by norm_num)

/-- C74: rounding in binary64, with subnormal numbers, has the properties used. -/
theorem isRnd_rndSub : IsRnd ((1 : K) / 2 ^ 53) (2 ^ (-1075 : ℤ)) rndSub where
  mono a b h := rndSub_mono h
  idem := rndSub_idem
  zero := by simp [rndSub]
  one := by
    rw [rndSub_normal (by rw [abs_one]; exact one_normal.trans (by norm_num)), isRnd_rnd64.one]
  half := by
    rw [rndSub_normal (by rw [abs_of_pos (by norm_num)]; exact one_normal), isRnd_rnd64.half]
  neg := rndSub_neg
  err a := by
    rcases lt_or_ge |a| ((2 : K) ^ (-1022 : ℤ)) with ha | ha
    · rw [rndSub_small ha]
      have hp := two_zpow_pos (K := K) (-1074)
      have e0 : (2 : K) ^ (-1075 : ℤ) = 1 / 2 * 2 ^ (-1074 : ℤ) := by
        have : (-1075 : ℤ) = -1 + -1074 := by norm_num
        rw [this, zpow_add₀ (by norm_num)]
        norm_num
      rw [e0]
      unfold rndFix
      generalize (2 : K) ^ (-1074 : ℤ) = p at hp ⊢
      have e2 : (roundEven (a / p) : K) * p - a = (roundEven (a / p) - a / p) * p := by field_simp
      rw [e2, abs_mul, abs_of_pos hp]
      have := mul_le_mul_of_nonneg_right (roundEven_err (a / p)) hp.le
      have h0 : 0 ≤ 1 / 2 ^ 53 * |a| := by positivity
      linarith
    · rw [rndSub_normal ha]
      have := rnd64_err a
      have hp := two_zpow_pos (K := K) (-1075)
      linarith
  diff a b ha hb := by
    rcases lt_or_ge |a - b| ((2 : K) ^ (-1022 : ℤ)) with h | h
    · rw [rndSub_small h]
      obtain ⟨m, hm⟩ := rndSub_multiple ha
      obtain ⟨n, hn⟩ := rndSub_multiple hb
      have e : a - b = ((m - n : ℤ) : K) * 2 ^ (-1074 : ℤ) := by rw [hm, hn]; push_cast; ring
      have : rndFix (a - b) = a - b := by rw [e]; exact rndFix_mult _
      rw [this, sub_self, abs_zero]
      positivity
    · rw [rndSub_normal h]
      exact rnd64_err _
  unit := by constructor <;> norm_num
  tiny := (two_zpow_pos _).le

/-! ## no overflow -/

theorem rndSub_two_pow (n : ℕ) : rndSub ((2 : K) ^ n) = 2 ^ n := by
  have h1 : (1 : K) ≤ 2 ^ n := one_le_pow₀ (by norm_num)
  rw [rndSub_normal (by rw [abs_of_pos (by positivity)]; exact one_normal.trans (le_trans (by norm_num) h1))]
  have := rnd64_rep (K := K) 1 n (by norm_num)
  simpa using this

theorem rndSub_le {q : K} {n : ℕ} (h : |q| ≤ 2 ^ n) : |rndSub q| ≤ 2 ^ n := by
  have h' := abs_le.1 h
  have h1 := rndSub_mono h'.2
  have h2 := rndSub_mono h'.1
  rw [rndSub_neg, rndSub_two_pow] at h2
  rw [rndSub_two_pow] at h1
  exact abs_le.2 ⟨h2, h1⟩

theorem of_num {q : K} (h : |q| ≤ 2 ^ 1023) : F64.of q = .num (rndSub q) := by
  have h1 := rndSub_le h
  have h2 : (2 : K) ^ 1023 < 2 ^ 1024 := pow_lt_pow_right₀ (by norm_num) (by norm_num)
  rw [F64.of, if_neg (not_le.2 (lt_of_le_of_lt h1 h2))]

theorem of_inf {q : K} (h : 2 ^ 1024 ≤ |q|) : F64.of q = .inf (decide (q < 0)) := by
  have h1 : 2 ^ 1024 ≤ |rndSub q| := by
    rcases le_abs.1 h with h | h
    · have := rndSub_mono h
      rw [rndSub_two_pow] at this
      exact this.trans (le_abs_self _)
    · have := rndSub_mono h
      rw [rndSub_two_pow, rndSub_neg] at this
      exact this.trans (neg_le_abs _)
  rw [F64.of, if_pos h1]

theorem pickSegI_toI (x : K) : ∀ (ss : List (Seg K)) (cur : Option (Seg K)),
    pickSegI (.num x) (cur.map fun s => (⟨.num s.start, .num s.stop, .num s.initial, .num s.final, s.interp⟩ : Seg (F64 K)))
      (ss.map fun s => ⟨.num s.start, .num s.stop, .num s.initial, .num s.final, s.interp⟩) =
    (pickSeg x cur ss).map fun s => ⟨.num s.start, .num s.stop, .num s.initial, .num s.final, s.interp⟩ := by
  intro ss
  induction ss with
  | nil => intro cur; rfl
  | cons s ss ih =>
    intro cur
    simp only [List.map_cons, pickSegI, pickSeg, F64.lt, decide_eq_true_eq]
    split
    · rfl
    · exact ih (some s)

/-- the numbers of the schedule are at most 2¹⁰²², about 4.5 · 10³⁰⁷ -/
def Moderate (f : Sched K) : Prop :=
  ∀ s ∈ f.segs, |s.start| ≤ 2 ^ 1022 ∧ |s.stop| ≤ 2 ^ 1022 ∧ |s.initial| ≤ 2 ^ 1022 ∧ |s.final| ≤ 2 ^ 1022

theorem pow_double : (2 : K) ^ 1023 = 2 ^ 1022 + 2 ^ 1022 := by
  have : (2 : K) ^ 1023 = 2 ^ 1022 * 2 := by rw [← pow_succ]
  rw [this]; ring

theorem abs_mul_le_of_unit {w y M : K} (h0 : 0 ≤ w) (h1 : w ≤ 1) (h : |y| ≤ M) : |w * y| ≤ M := by
  rw [abs_mul, abs_of_nonneg h0]
  have := mul_le_mul_of_nonneg_right h1 (abs_nonneg y)
  linarith

theorem evalI_num {cosF : K → K} (hc : IsCosF cosF) (i : Interp) {r : K} (h0 : 0 ≤ r) (h1 : r ≤ 1) :
    i.evalI cosF (.num r) = .num (i.evalF rndSub cosF r) := by
  have hB : (1 : K) ≤ 2 ^ 1023 := one_le_pow₀ (by norm_num)
  cases i with
  | lin =>
    simp only [Interp.evalI, Interp.evalF, F64.sub]
    rw [of_num (by rw [abs_of_nonneg (by linarith)]; linarith)]
  | cos =>
    have c1 : |cosF r * (1 / 2)| ≤ 1 / 2 := by
      rw [abs_le]; constructor <;> linarith [hc.lower r, hc.upper r]
    simp only [Interp.evalI, Interp.evalF, F64.mul, cosI]
    rw [of_num (by linarith)]
    simp only [F64.add]
    have hr := isRnd_rndSub (K := K)
    have a := hr.mono _ _ (abs_le.1 c1).1
    have b := hr.mono _ _ (abs_le.1 c1).2
    rw [hr.nhalf] at a
    rw [hr.half] at b
    rw [of_num (by rw [abs_of_nonneg (by linarith)]; linarith)]
  | step => rfl

/-- C74: for a schedule whose numbers are at most 2¹⁰²², at a position in that range, no operation of `get_value` gives an infinite
number or NaN that reaches the result: the computed value is the one without limits on large exponents. -/
theorem C74_no_overflow {cosF : K → K} (hc : IsCosF cosF) (f : Sched K) (hb : Moderate f) {x : K} (hx : |x| ≤ 2 ^ 1022) :
    f.toI.getValueI cosF (.num x) = (f.getValueF rndSub cosF x).map F64.num := by
  have hr := isRnd_rndSub (K := K)
  have hp := pickSegI_toI x f.segs none
  simp only [Option.map_none] at hp
  simp only [Sched.getValueI, Sched.toI, hp, Sched.getValueF]
  cases hpk : pickSeg x none f.segs with
  | none => rfl
  | some s =>
    have hs : s ∈ f.segs := by
      by_cases hne : f.segs = []
      · rw [hne] at hpk; exact (nomatch hpk)
      · obtain ⟨s', h1, h2⟩ := pickSeg_mem x f.segs none (.inl hne)
        rw [hpk] at h1
        cases h1
        rcases h2 with h2 | h2
        · exact h2
        · exact (nomatch h2)
    obtain ⟨b1, b2, b3, b4⟩ := hb s hs
    have d1 : |x - s.start| ≤ 2 ^ 1023 := by
      rw [pow_double]; exact (abs_sub _ _).trans (add_le_add hx b1)
    have d2 : |s.stop - s.start| ≤ 2 ^ 1023 := by
      rw [pow_double]; exact (abs_sub _ _).trans (add_le_add b2 b1)
    simp only [Option.map_some, F64.sub, of_num d1, of_num d2, F64.div]
    by_cases hz : rndSub (s.stop - s.start) = 0
    · simp only [hz, if_true]; rfl
    · simp only [if_neg hz, bind, Except.bind, pure, Except.pure]
      -- the position
      have hpos : (if F64.lt (F64.of (rndSub (x - s.start) / rndSub (s.stop - s.start))) (.num 0) = true then F64.num (0 : K)
          else if F64.lt (.num 1) (F64.of (rndSub (x - s.start) / rndSub (s.stop - s.start))) = true then .num 1
          else F64.of (rndSub (x - s.start) / rndSub (s.stop - s.start))) = .num (s.posF rndSub x) := by
        simp only [Seg.posF]
        generalize rndSub (x - s.start) / rndSub (s.stop - s.start) = q
        by_cases ho : 2 ^ 1024 ≤ |rndSub q|
        · have h1 : (1 : K) < 2 ^ 1024 := one_lt_pow₀ (by norm_num) (by norm_num)
          rw [F64.of, if_pos ho]
          by_cases hq : q < 0
          · have hq' := rnd_nonpos hr hq.le
            rw [abs_of_nonpos hq'] at ho
            have : rndSub q < 0 := by linarith
            simp [F64.lt, hq, this]
          · have hq' := rnd_nonneg hr (not_lt.1 hq)
            rw [abs_of_nonneg hq'] at ho
            have h2 : 1 < rndSub q := by linarith
            simp [F64.lt, hq, not_lt.2 hq', h2]
        · rw [F64.of, if_neg ho]
          simp only [F64.lt, decide_eq_true_eq]
          split
          · rfl
          · split <;> rfl
      rw [hpos]
      have hpm := posF_mem (rnd := rndSub) s x
      rw [evalI_num hc s.interp hpm.1 hpm.2]
      have hw := evalF_mem hr hc s.interp hpm.1 hpm.2
      simp only [F64.mul]
      change _ = Except.ok (F64.num (s.valueF rndSub cosF x))
      simp only [Seg.valueF, Seg.weightF]
      generalize s.interp.evalF rndSub cosF (s.posF rndSub x) = w at hw ⊢
      have hB : (1 : K) ≤ 2 ^ 1023 := one_le_pow₀ (by norm_num)
      have hBB : (2 : K) ^ 1022 ≤ 2 ^ 1023 := pow_le_pow_right₀ (by norm_num) (by norm_num)
      have m1 := abs_mul_le_of_unit hw.1 hw.2 b3
      have n1 : |1 - w| ≤ 2 ^ 1023 := by rw [abs_of_nonneg (by linarith [hw.2])]; linarith [hw.1]
      rw [of_num (m1.trans hBB), of_num n1]
      simp only [F64.mul]
      have m2 := abs_mul_le_of_unit (rnd_nonneg hr (sub_nonneg.2 hw.2)) (rnd_le_one hr (show 1 - w ≤ 1 by linarith [hw.1])) b4
      rw [of_num (m2.trans hBB)]
      simp only [F64.add]
      rw [of_num]
      rw [pow_double]
      exact (abs_add_le _ _).trans (add_le_add (rndSub_le m1) (rndSub_le m2))

/-- C74: in Python's floats, for a schedule of finite numbers up to 2¹⁰²² with increasing knots: the value is a finite number that lies
between the two values of one of the segments, up to rounding errors. -/
theorem C74_binary64_between {cosF : K → K} (hc : IsCosF cosF) (f : Sched K) (hm : Machine rndSub f) (hb : Moderate f)
    (hne : f.segs ≠ []) (hinc : Increasing f.segs) {x : K} (hx : |x| ≤ 2 ^ 1022) :
    ∃ v, f.toI.getValueI cosF (.num x) = .ok (.num v) ∧ ∃ s ∈ f.segs,
      min s.initial s.final - (max |s.initial| |s.final| / 2 ^ 51 + 2 ^ (-1073 : ℤ)) ≤ v ∧
      v ≤ max s.initial s.final + (max |s.initial| |s.final| / 2 ^ 51 + 2 ^ (-1073 : ℤ)) := by
  obtain ⟨v, h1, s, h2, h3, h4⟩ := C74_between isRnd_rndSub hc f hm hne hinc x
  refine ⟨v, by rw [C74_no_overflow hc f hb hx, h1]; rfl, s, h2, ?_⟩
  have e : 3 * (2 : K) ^ (-1075 : ℤ) ≤ 2 ^ (-1073 : ℤ) := by
    have : (-1073 : ℤ) = 2 + -1075 := by norm_num
    rw [this, zpow_add₀ (by norm_num)]
    have := two_zpow_pos (K := K) (-1075)
    norm_num
  have e2 : 4 * (1 / 2 ^ 53) * max |s.initial| |s.final| = max |s.initial| |s.final| / 2 ^ 51 := by ring
  rw [e2] at h3 h4
  constructor <;> linarith

/-- C74: the given points are hit exactly: at every knot, before the first and after the last one. -/
theorem C74_binary64_knots_partial {cosF : K → K} (hc : IsCosF cosF) (f : Sched K) (hm : Machine rndSub f) (hb : Moderate f)
    (hch : Chained f.segs) (hinc : Increasing f.segs) :
    (∀ s ∈ f.segs, f.toI.getValueI cosF (.num s.start) = .ok (.num s.initial)) ∧
    (∀ s ss x, f.segs = s :: ss → x ≤ s.start → |x| ≤ 2 ^ 1022 → f.toI.getValueI cosF (.num x) = .ok (.num s.initial)) ∧
    (∀ s ss x, f.segs = ss ++ [s] → s.interp ≠ .step → s.stop ≤ x → |x| ≤ 2 ^ 1022 →
      f.toI.getValueI cosF (.num x) = .ok (.num s.final)) := by
  refine ⟨fun s hs => ?_, fun s ss x hf hx hxb => ?_, fun s ss x hf hi hx hxb => ?_⟩
  · rw [C74_no_overflow hc f hb (hb s hs).1, C74_at_knot isRnd_rndSub hc f hm hs hch hinc]; rfl
  · rw [C74_no_overflow hc f hb hxb, C74_before isRnd_rndSub hc f hm hf hinc hx]; rfl
  · rw [C74_no_overflow hc f hb hxb, C74_after_partial isRnd_rndSub hc f hm hf hch hinc hi hx]; rfl
end

/-- C74 for Python's floats and the real cosine: the computed value differs from the exact one by at most 2⁻⁴⁸ times the larger of the two
values of the segment, and a few of the smallest positive numbers for segments with very small values. -/
theorem C74_binary64_error (f : Sched ℝ) (hm : Machine rndSub f) (hb : Moderate f) (hne : f.segs ≠ []) (hinc : Increasing f.segs) {x : ℝ}
    (hxr : rndSub x = x) (hx : |x| ≤ 2 ^ 1022) :
    ∃ v v', f.toI.getValueI cos64 (.num x) = .ok (.num v) ∧ f.getValue (fun x : ℝ => Real.cos (x * Real.pi)) x = .ok v' ∧ ∃ s ∈ f.segs,
      |v - v'| ≤ max |s.initial| |s.final| / 2 ^ 48 + 2 ^ (-1073 : ℤ) := by
  obtain ⟨v, v', h1, h2, s, hs, h⟩ := C74_error isRnd_rndSub cos64_ok cos64_near f hm hne hinc hxr
  refine ⟨v, v', by rw [C74_no_overflow cos64_ok f hb hx, h1]; rfl, h2, s, hs, h.trans ?_⟩
  have a : |s.initial - s.final| ≤ 2 * max |s.initial| |s.final| := by
    refine (abs_sub _ _).trans ?_
    linarith [le_max_left |s.initial| |s.final|, le_max_right |s.initial| |s.final|]
  have b : (0 : ℝ) ≤ max |s.initial| |s.final| := (abs_nonneg _).trans (le_max_left _ _)
  have e : 3 * (2 : ℝ) ^ (-1075 : ℤ) ≤ 2 ^ (-1073 : ℤ) := by
    have : (-1073 : ℤ) = 2 + -1075 := by norm_num
    rw [this, zpow_add₀ (by norm_num)]
    have := two_zpow_pos (K := ℝ) (-1075)
    norm_num
  have e5 : (2 : ℝ) ^ (-1075 : ℤ) ≤ 1 / 2 ^ 60 := by
    have : (1 : ℝ) / 2 ^ 60 = 2 ^ (-60 : ℤ) := by norm_num
    rw [this]
    exact zpow_le_zpow_right₀ (by norm_num) (by norm_num)
  have ep := two_zpow_pos (K := ℝ) (-1075)
  generalize (2 : ℝ) ^ (-1075 : ℤ) = η at e e5 ep ⊢
  generalize (2 : ℝ) ^ (-1073 : ℤ) = η' at e ⊢
  generalize max |s.initial| |s.final| = M at a b ⊢
  have hD : 0 ≤ |s.initial - s.final| := abs_nonneg _
  generalize |s.initial - s.final| = D at a hD ⊢
  have h5 : η * D ≤ 1 / 2 ^ 60 * D := mul_le_mul_of_nonneg_right e5 hD
  norm_num at h5 ⊢
  nlinarith

/-! ## overflow -/

namespace SchedEx
/-- `step: 1@-2e1023 lin 0@2e1023` (in powers of two): all numbers are finite -/
def wide : Sched ℚ := ⟨[⟨-2 ^ 1023, 2 ^ 1023, 1, 0, .lin⟩], "step".toList⟩

theorem wide_machine : Machine rndSub wide := by
  intro s hs
  simp only [wide, List.mem_singleton] at hs
  subst hs
  exact ⟨by rw [rndSub_neg, rndSub_two_pow], rndSub_two_pow _, isRnd_rndSub.one, isRnd_rndSub.zero⟩

theorem wide_inc : Increasing wide.segs := by
  intro s hs
  simp only [wide, List.mem_singleton] at hs
  subst hs
  have : (0 : ℚ) < 2 ^ 1023 := by positivity
  simp only
  linarith
end SchedEx

/-- C74 is false without the bound: a schedule of finite numbers that goes from 1 to 0 has the value NaN at its end, and the value 1
halfway. -/
theorem C74_overflow_false : Machine rndSub SchedEx.wide ∧ Increasing SchedEx.wide.segs ∧
    SchedEx.wide.toI.getValueI SchedEx.triF (.num (2 ^ 1023)) = .ok .nan ∧
    SchedEx.wide.toI.getValueI SchedEx.triF (.num 0) = .ok (.num 1) ∧
    SchedEx.wide.getValue SchedEx.tri 0 = .ok (1 / 2) := by
  have h2 : (2 : ℚ) ^ 1023 - -2 ^ 1023 = 2 ^ 1024 := by
    have : (2 : ℚ) ^ 1024 = 2 ^ 1023 * 2 := by rw [← pow_succ]
    rw [this]; ring
  have h3 : F64.of ((2 : ℚ) ^ 1024) = .inf false := by
    rw [of_inf (by rw [abs_of_pos (by positivity)])]
    rw [decide_eq_false (not_lt.2 (by positivity))]
  have h1 : rndSub (1 : ℚ) = 1 := isRnd_rndSub.one
  have hB : (1 : ℚ) ≤ 2 ^ 1023 := one_le_pow₀ (by norm_num)
  have o1 : F64.of (1 : ℚ) = .num 1 := by rw [of_num (by rw [abs_one]; exact hB), h1]
  have o0 : F64.of (0 : ℚ) = .num 0 := by rw [of_num (by rw [abs_zero]; positivity), isRnd_rndSub.zero]
  have hpos : (0 : ℚ) < 2 ^ 1023 := by positivity
  refine ⟨SchedEx.wide_machine, SchedEx.wide_inc, ?_, ?_, ?_⟩
  · simp only [Sched.getValueI, Sched.toI, SchedEx.wide, List.map_cons, List.map_nil, pickSegI, F64.lt, lt_irrefl, decide_false,
      Bool.false_eq_true, if_false, F64.sub, h2, h3, F64.div, bind, Except.bind, pure, Except.pure, Interp.evalI, F64.mul, F64.add]
  · have h4 : F64.of ((0 : ℚ) - -2 ^ 1023) = .num (2 ^ 1023) := by
      rw [zero_sub, neg_neg, of_num (le_of_eq (abs_of_pos hpos)), rndSub_two_pow]
    simp only [Sched.getValueI, Sched.toI, SchedEx.wide, List.map_cons, List.map_nil, pickSegI, F64.lt, hpos, decide_true, if_true,
      F64.sub, h2, h3, h4, F64.div, bind, Except.bind, pure, Except.pure, Interp.evalI, F64.mul, F64.add, lt_irrefl, decide_false,
      Bool.false_eq_true, if_false, sub_zero, o1, mul_one, sub_self, o0, mul_zero, add_zero, not_lt.2 (zero_le_one (α := ℚ))]
  · have hz : ¬ ((2 : ℚ) ^ 1023 - -2 ^ 1023 = 0) := by linarith
    have hd : ((0 : ℚ) - -2 ^ 1023) / (2 ^ 1023 - -2 ^ 1023) = 1 / 2 := by
      rw [div_eq_iff hz]; ring
    simp only [Sched.getValue, SchedEx.wide, pickSeg, hpos, if_true, hz, if_false, hd, Interp.eval]
    norm_num

namespace SchedEx
theorem rndSub_nat (n : ℕ) (h : n ≤ 2 ^ 53) : rndSub (n : ℚ) = n := by
  rcases Nat.eq_zero_or_pos n with rfl | hp
  · simpa using (isRnd_rndSub (K := ℚ)).zero
  · have : (1 : ℚ) ≤ n := by exact_mod_cast hp
    rw [rndSub_normal (by rw [abs_of_nonneg (by linarith)]; exact one_normal.trans (le_trans (by norm_num) this))]
    simpa using rnd64_rep (K := ℚ) n 0 (by rw [abs_of_nonneg (by omega)]; exact_mod_cast h)

theorem count_machine' : Machine rndSub count := by
  intro s hs
  simp only [count, List.mem_singleton] at hs
  subst hs
  have h1 := rndSub_nat 100 (by norm_num)
  have h2 := rndSub_nat 10 (by norm_num)
  exact ⟨isRnd_rndSub.zero, by exact_mod_cast h1, isRnd_rndSub.zero, by exact_mod_cast h2⟩

theorem big : (100 : ℚ) ≤ 2 ^ 1022 := by
  have : (2 : ℚ) ^ 7 ≤ 2 ^ 1022 := pow_le_pow_right₀ (by norm_num) (by norm_num)
  linarith

theorem count_moderate : Moderate count := by
  intro s hs
  simp only [count, List.mem_singleton] at hs
  subst hs
  have := big
  refine ⟨?_, ?_, ?_, ?_⟩ <;> rw [abs_of_nonneg (by norm_num)] <;> linarith

/-- a step counter: 0 at the beginning, 10 from step 100 on -/
example : count.toI.getValueI triF (.num 100) = .ok (.num 10) ∧ count.toI.getValueI triF (.num 0) = .ok (.num 0) := by
  have h := C74_binary64_knots_partial triF_ok count count_machine' count_moderate (by simp [Chained, count]) count_inc
  refine ⟨h.2.2 ⟨0, 100, 0, 10, .lin⟩ [] 100 rfl (by decide) (by norm_num) ?_, h.2.1 ⟨0, 100, 0, 10, .lin⟩ [] 0 rfl (by norm_num) ?_⟩
  · rw [abs_of_nonneg (by norm_num)]; exact big
  · rw [abs_zero]; positivity
example := C74_binary64_between triF_ok count count_machine' count_moderate (by simp [count]) count_inc (x := 20)
  (by rw [abs_of_nonneg (by norm_num)]; linarith [big])
end SchedEx

/-! ## positions that are no finite numbers -/

section
variable {K : Type} [Field K] [LinearOrder K] [IsStrictOrderedRing K] [FloorRing K]

theorem of_rep {q : K} (h : |q| ≤ 2 ^ 1022) (hr : rndSub q = q) : F64.of q = .num q := by
  rw [of_num (h.trans (pow_le_pow_right₀ (by norm_num) (by norm_num))), hr]

theorem mixI_one {i f : K} (h : |i| ≤ 2 ^ 1022) (hr : rndSub i = i) :
    F64.add (F64.mul (.num 1) (.num i)) (F64.mul (F64.sub (.num 1) (.num 1)) (.num f)) = .num i := by
  have z : F64.of (0 : K) = .num 0 := of_rep (by rw [abs_zero]; positivity) isRnd_rndSub.zero
  simp only [F64.mul, F64.sub, one_mul, sub_self, z, zero_mul, of_rep h hr, F64.add, add_zero]

theorem mixI_zero {i f : K} (h : |f| ≤ 2 ^ 1022) (hr : rndSub f = f) :
    F64.add (F64.mul (.num 0) (.num i)) (F64.mul (F64.sub (.num 1) (.num 0)) (.num f)) = .num f := by
  have z : F64.of (0 : K) = .num 0 := of_rep (by rw [abs_zero]; positivity) isRnd_rndSub.zero
  have o : F64.of (1 : K) = .num 1 := of_rep (by rw [abs_one]; exact one_le_pow₀ (by norm_num)) isRnd_rndSub.one
  simp only [F64.mul, F64.sub, zero_mul, sub_zero, z, o, one_mul, of_rep h hr, F64.add, zero_add]

theorem pickSegI_last (x : F64 K) : ∀ (pre : List (Seg (F64 K))) (s : Seg (F64 K)) (cur : Option (Seg (F64 K))),
    (∀ t ∈ pre ++ [s], F64.lt x t.stop = false) → pickSegI x cur (pre ++ [s]) = some s
  | [], s, cur, h => by
    simp only [List.nil_append, pickSegI, h s (by simp), Bool.false_eq_true, if_false]
  | p :: pre, s, cur, h => by
    simp only [List.cons_append, pickSegI, h p (by simp), Bool.false_eq_true, if_false]
    exact pickSegI_last x pre s _ (fun t ht => h t (by simp only [List.cons_append, List.mem_cons]; exact .inr ht))

/-- the length of a segment, as computed -/
theorem width_pos {s : Seg K} (hlt : s.start < s.stop) (h1 : |s.start| ≤ 2 ^ 1022) (h2 : |s.stop| ≤ 2 ^ 1022) (r1 : rndSub s.start = s.start)
    (r2 : rndSub s.stop = s.stop) : ∃ d : K, F64.sub (.num s.stop) (.num s.start) = .num d ∧ 0 < d := by
  refine ⟨rndSub (s.stop - s.start), ?_, ?_⟩
  · simp only [F64.sub]
    rw [of_num (by rw [pow_double]; exact (abs_sub _ _).trans (add_le_add h2 h1))]
  · have hr := isRnd_rndSub (K := K)
    exact rnd_pos hr r2 r1 hlt

/-- C74: before all numbers (at position `-inf`) the value is the first one, beyond all numbers it is the last one. Missing: `step` at `inf`
(`C37_step_false`). -/
theorem C74_infinite_partial {cosF : K → K} (hc : IsCosF cosF) (f : Sched K) (hm : Machine rndSub f) (hb : Moderate f)
    (hinc : Increasing f.segs) :
    (∀ s ss, f.segs = s :: ss → f.toI.getValueI cosF (.inf true) = .ok (.num s.initial)) ∧
    (∀ s ss, f.segs = ss ++ [s] → s.interp ≠ .step → f.toI.getValueI cosF (.inf false) = .ok (.num s.final)) := by
  have hr := isRnd_rndSub (K := K)
  refine ⟨fun s ss hf => ?_, fun s ss hf hi => ?_⟩
  · have hs : s ∈ f.segs := by rw [hf]; simp
    obtain ⟨b1, b2, b3, b4⟩ := hb s hs
    obtain ⟨m1, m2, m3, m4⟩ := hm s hs
    obtain ⟨d, hd, hd0⟩ := width_pos (hinc s hs) b1 b2 m1 m2
    simp only [Sched.getValueI, Sched.toI, hf, List.map_cons, pickSegI, F64.lt, if_true, hd]
    simp only [F64.sub, F64.div, if_neg hd0.ne', bind, Except.bind, pure, Except.pure, F64.lt, decide_eq_false (not_lt.2 hd0.le),
      Bool.bne_false, if_true]
    rw [evalI_num hc s.interp (le_refl _) zero_le_one, evalF_zero hr hc]
    exact congrArg _ (mixI_one b3 m3)
  · have hs : s ∈ f.segs := by rw [hf]; simp
    obtain ⟨b1, b2, b3, b4⟩ := hb s hs
    obtain ⟨m1, m2, m3, m4⟩ := hm s hs
    obtain ⟨d, hd, hd0⟩ := width_pos (hinc s hs) b1 b2 m1 m2
    simp only [Sched.getValueI, Sched.toI, hf, List.map_append, List.map_cons, List.map_nil]
    rw [pickSegI_last]
    · simp only [hd]
      simp only [F64.sub, F64.div, if_neg hd0.ne', bind, Except.bind, pure, Except.pure, F64.lt, decide_eq_false (not_lt.2 hd0.le),
        Bool.bne_false, if_true, Bool.not_false, Bool.false_eq_true, if_false]
      rw [evalI_num hc s.interp zero_le_one (le_refl _), evalF_one hr hc hi]
      exact congrArg _ (mixI_zero b4 m4)
    · intro t ht
      simp only [List.mem_append, List.mem_map, List.mem_singleton] at ht
      rcases ht with ⟨u, _, rfl⟩ | rfl <;> simp [F64.lt]

/-- C74: at position NaN (for example a loss that is no number) the value is NaN; the last segment decides, and a `step` segment gives its
first value. -/
theorem C74_nan (cosF : K → K) (f : Sched K) (hm : Machine rndSub f) (hb : Moderate f) (hinc : Increasing f.segs)
    {s : Seg K} {ss : List (Seg K)} (hf : f.segs = ss ++ [s]) :
    (s.interp ≠ .step → f.toI.getValueI cosF .nan = .ok .nan) ∧
    (s.interp = .step → f.toI.getValueI cosF .nan = .ok (.num s.initial)) := by
  have hs : s ∈ f.segs := by rw [hf]; simp
  obtain ⟨b1, b2, b3, b4⟩ := hb s hs
  obtain ⟨m1, m2, m3, m4⟩ := hm s hs
  obtain ⟨d, hd, hd0⟩ := width_pos (hinc s hs) b1 b2 m1 m2
  simp only [Sched.getValueI, Sched.toI, hf, List.map_append, List.map_cons, List.map_nil]
  rw [pickSegI_last]
  · simp only [hd]
    simp only [F64.sub, F64.div, if_neg hd0.ne', bind, Except.bind, pure, Except.pure, F64.lt, Bool.false_eq_true, if_false]
    cases hi : s.interp with
    | lin => simp [Interp.evalI, F64.sub, F64.mul, F64.add]
    | cos => simp [Interp.evalI, cosI, F64.mul, F64.add]
    | step => exact ⟨fun h => absurd rfl h, fun _ => congrArg _ (mixI_one b3 m3)⟩
  · intro t ht
    simp only [List.mem_append, List.mem_map, List.mem_singleton] at ht
    rcases ht with ⟨u, _, rfl⟩ | rfl <;> simp [F64.lt]

end

namespace SchedEx
/-- the same counter at a position that is no finite number -/
example : count.toI.getValueI triF (.inf false) = .ok (.num 10) ∧ count.toI.getValueI triF (.inf true) = .ok (.num 0) ∧
    count.toI.getValueI triF .nan = .ok .nan :=
  have h := C74_infinite_partial triF_ok count count_machine' count_moderate count_inc
  ⟨h.2 ⟨0, 100, 0, 10, .lin⟩ [] rfl (by decide), h.1 ⟨0, 100, 0, 10, .lin⟩ [] rfl,
    (C74_nan triF count count_machine' count_moderate count_inc (s := ⟨0, 100, 0, 10, .lin⟩) (ss := []) rfl).1 (by decide)⟩
end SchedEx
end HS
