import Mathlib.Data.Int.Log
import Mathlib.Data.Rat.Floor
import Verif.Model.Schedule
/-!
# `hyperstate/schedule.py` with rounded arithmetic

Model/Schedule.lean computes with exact numbers. Here every operation of `get_value` is followed by a rounding function `rnd`;
`rnd64` is the rounding of binary64. Simplification: no operation overflows or underflows (the exponent is not bounded), no
NaN.
-/
namespace HS

section
variable {K : Type} [Field K] [LinearOrder K]

/-- the interpolators (schedule.py:15-19); `cosF x` is `math.cos(x * math.pi)` as computed -/
def Interp.evalF (rnd cosF : K → K) : Interp → K → K
  | .lin, x => rnd (1 - x)
  | .cos, x => rnd (rnd (cosF x * (1 / 2)) + 1 / 2)
  | .step, _ => 1

/-- `get_value` (schedule.py:42-56) -/
def Sched.getValueF (rnd cosF : K → K) (f : Sched K) (x : K) : Except SErr K :=
  match pickSeg x .none f.segs with
  | .none => .error .assertionError
  | some s =>
    if rnd (s.stop - s.start) = 0 then .error .zeroDivision
    else
      let rescaled := rnd (rnd (x - s.start) / rnd (s.stop - s.start))
      let rescaled := if rescaled < 0 then 0 else if rescaled > 1 then 1 else rescaled
      let w := s.interp.evalF rnd cosF rescaled
      .ok (rnd (rnd (w * s.initial) + rnd (rnd (1 - w) * s.final)))
end

section
variable {K : Type} [Field K] [LinearOrder K] [FloorRing K]

/-- the nearest integer, ties to even (IEEE 754; the arithmetic behind schedule.py:42-56) -/
def roundEven (q : K) : ℤ :=
  if q - ⌊q⌋ < 1 / 2 then ⌊q⌋
  else if 1 / 2 < q - ⌊q⌋ then ⌊q⌋ + 1
  else if ⌊q⌋ % 2 = 0 then ⌊q⌋ else ⌊q⌋ + 1

/-- rounding of binary64: 53 significant bits, ties to even (IEEE 754, without limits on the exponent; the arithmetic behind
schedule.py:42-56) -/
def rnd64 (q : K) : K :=
  if q = 0 then 0 else roundEven (q / 2 ^ (Int.log 2 |q| - 52)) * 2 ^ (Int.log 2 |q| - 52)

/-- `int(value)`, as `cls(value)` for an `int` field (hyperstate.py:435, 443-444): towards zero -/
def truncZ (q : K) : ℤ := if 0 ≤ q then ⌊q⌋ else ⌈q⌉
end

end HS
