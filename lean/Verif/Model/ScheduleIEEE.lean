import Verif.Model.ScheduleFloat
/-!
# `hyperstate/schedule.py` with the floats of Python

Model/ScheduleFloat.lean has no limits on the exponent. Here a number is a Python float: finite, infinite or NaN; numbers near zero
have fewer digits, results that are too large become infinite. Simplification: there is one zero (its sign does not matter for
`get_value`), and the position `x` is a float (Python compares a larger `int` exactly before it rounds it).
-/
namespace HS

/-- a Python float -/
inductive F64 (K : Type) where
  | num (q : K)
  | inf (neg : Bool)
  | nan
deriving DecidableEq, Repr

section
variable {K : Type} [Field K] [LinearOrder K] [FloorRing K]

/-- rounding to 53 significant bits, but not beyond 2⁻¹⁰⁷⁴, ties to even (IEEE 754 binary64 with subnormal numbers; the arithmetic
behind schedule.py:42-56) -/
def rndSub (q : K) : K :=
  if q = 0 then 0
  else roundEven (q / 2 ^ (max (Int.log 2 |q|) (-1022) - 52)) * 2 ^ (max (Int.log 2 |q|) (-1022) - 52)

namespace F64

/-- the result of an operation whose exact value is `q` (IEEE 754; schedule.py:42-56) -/
def of (q : K) : F64 K := if 2 ^ 1024 ≤ |rndSub q| then .inf (decide (q < 0)) else .num (rndSub q)

/-- `a + b` (schedule.py:16-17, 56) -/
def add : F64 K → F64 K → F64 K
  | .num a, .num b => of (a + b)
  | .num _, .inf s => .inf s
  | .inf s, .num _ => .inf s
  | .inf s, .inf t => if s = t then .inf s else .nan
  | _, _ => .nan

/-- `a - b` (schedule.py:16, 49, 56) -/
def sub : F64 K → F64 K → F64 K
  | .num a, .num b => of (a - b)
  | .num _, .inf s => .inf (!s)
  | .inf s, .num _ => .inf s
  | .inf s, .inf t => if s = t then .nan else .inf s
  | _, _ => .nan

/-- `a * b` (schedule.py:17, 56) -/
def mul : F64 K → F64 K → F64 K
  | .num a, .num b => of (a * b)
  | .num a, .inf s => if a = 0 then .nan else .inf (s != decide (a < 0))
  | .inf s, .num a => if a = 0 then .nan else .inf (s != decide (a < 0))
  | .inf s, .inf t => .inf (s != t)
  | _, _ => .nan

/-- `a / b` (schedule.py:49): Python raises when `b` is zero -/
def div : F64 K → F64 K → Except SErr (F64 K)
  | .num a, .num b => if b = 0 then .error .zeroDivision else .ok (of (a / b))
  | .inf s, .num b => if b = 0 then .error .zeroDivision else .ok (.inf (s != decide (b < 0)))
  | .nan, .num b => if b = 0 then .error .zeroDivision else .ok .nan
  | .num _, .inf _ => .ok (.num 0)
  | _, _ => .ok .nan

/-- `a < b` (schedule.py:46, 50, 52): false for NaN -/
def lt : F64 K → F64 K → Bool
  | .num a, .num b => decide (a < b)
  | .num _, .inf s => !s
  | .inf s, .num _ => s
  | .inf s, .inf t => s && !t
  | _, _ => false

end F64

/-- `math.cos(x * math.pi)`, as computed (schedule.py:17); not called with an infinite number, since positions are cut off before -/
def cosI (cosF : K → K) : F64 K → F64 K
  | .num q => .num (cosF q)
  | _ => .nan

/-- the interpolators (schedule.py:15-19) -/
def Interp.evalI (cosF : K → K) : Interp → F64 K → F64 K
  | .lin, x => F64.sub (.num 1) x
  | .cos, x => F64.add (F64.mul (cosI cosF x) (.num (1 / 2))) (.num (1 / 2))
  | .step, _ => .num 1

/-- the loop of `get_value` (schedule.py:43-47) -/
def pickSegI (x : F64 K) : Option (Seg (F64 K)) → List (Seg (F64 K)) → Option (Seg (F64 K))
  | cur, [] => cur
  | _, s :: ss => if F64.lt x s.stop then some s else pickSegI x (some s) ss

/-- `get_value` (schedule.py:42-56) -/
def Sched.getValueI (cosF : K → K) (f : Sched (F64 K)) (x : F64 K) : Except SErr (F64 K) :=
  match pickSegI x .none f.segs with
  | .none => .error .assertionError
  | some s => do
    let rescaled ← F64.div (F64.sub x s.start) (F64.sub s.stop s.start)
    let rescaled := if F64.lt rescaled (.num 0) then .num 0 else if F64.lt (.num 1) rescaled then .num 1 else rescaled
    let w := s.interp.evalI cosF rescaled
    return F64.add (F64.mul w s.initial) (F64.mul (F64.sub (.num 1) w) s.final)
end

/-- `_parse_schedule` with numbers that are finite (schedule.py:28-34, 59-95) -/
def Sched.toI {K : Type} (f : Sched K) : Sched (F64 K) :=
  ⟨f.segs.map fun s => ⟨.num s.start, .num s.stop, .num s.initial, .num s.final, s.interp⟩, f.xname⟩

end HS
