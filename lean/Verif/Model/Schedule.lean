import Mathlib.Algebra.Order.Field.Basic
import Verif.Model.Py
/-!
# `hyperstate/schedule.py`

Numbers are elements of an ordered field `K` (simplification: floats are idealised as exact numbers, without rounding, infinities
and NaN); `cosPi x` stands for `math.cos(x * math.pi)` and `num` for `float` on text (`none`: ValueError).
-/
namespace HS

/-- errors of schedule.py -/
inductive SErr where
  | valueError | keyError | assertionError | zeroDivision
deriving DecidableEq, Repr

/-- keys of `INTERPOLATORS` (schedule.py:15-19) -/
inductive Interp where
  | lin | cos | step
deriving DecidableEq, Repr

/-- `INTERPOLATORS[part]` (schedule.py:15-19, 94) -/
def interpOf (part : List Char) : Except SErr Interp :=
  if part = ['l', 'i', 'n'] then .ok .lin
  else if part = ['c', 'o', 's'] then .ok .cos
  else if part = ['s', 't', 'e', 'p'] then .ok .step
  else .error .keyError

/-- `ScheduleSegment` (schedule.py:28-34) -/
structure Seg (K : Type) where
  start : K
  stop : K
  initial : K
  final : K
  interp : Interp
deriving DecidableEq, Repr

/-- `PiecewiseFunction` (schedule.py:37-40) -/
structure Sched (K : Type) where
  segs : List (Seg K)
  xname : List Char
deriving DecidableEq, Repr

section
variable {K : Type} [Field K] [LinearOrder K]

/-- the interpolators (schedule.py:15-19) -/
def Interp.eval (cosPi : K → K) : Interp → K → K
  | .lin, x => 1 - x
  | .cos, x => cosPi x * (1 / 2) + 1 / 2
  | .step, _ => 1

/-- the loop of `get_value` (schedule.py:43-47): the first segment that ends after `x`, else the last one -/
def pickSeg (x : K) : Option (Seg K) → List (Seg K) → Option (Seg K)
  | cur, [] => cur
  | _, s :: ss => if x < s.stop then some s else pickSeg x (some s) ss

/-- `get_value` (schedule.py:42-56) -/
def Sched.getValue (cosPi : K → K) (f : Sched K) (x : K) : Except SErr K :=
  match pickSeg x .none f.segs with
  | .none => .error .assertionError
  | some s =>
    if s.stop - s.start = 0 then .error .zeroDivision
    else
      let rescaled := (x - s.start) / (s.stop - s.start)
      let rescaled := if rescaled < 0 then 0 else if rescaled > 1 then 1 else rescaled
      let w := s.interp.eval cosPi rescaled
      .ok (w * s.initial + (1 - w) * s.final)
end

section
variable {K : Type}

/-- the loop over the parts (schedule.py:78-94): `last` is `last_x, last_y` -/
def schedLoop (num : List Char → Option K) : Interp → Option (K × K) → List (List Char) → Except SErr (List (Seg K))
  | _, _, [] => .ok []
  | ip, last, part :: parts =>
    if '@' ∈ part then
      match splitC '@' part with
      | [ty, tx] => match num ty, num tx with
        | some y, some x => do
          let rest ← schedLoop num ip (some (x, y)) parts
          match last with
          | some (lx, ly) => return ⟨lx, x, ly, y, ip⟩ :: rest
          | .none => return rest
        | _, _ => .error .valueError
      | _ => .error .valueError
    else do schedLoop num (← interpOf part) last parts

/-- `_parse_schedule` (schedule.py:59-95) -/
def parseSched (num : List Char → Option K) (text : List Char) : Except SErr (Sched K) :=
  match splitC ' ' text with
  | [] => .error .keyError
  | p0 :: parts => do return ⟨← schedLoop num .lin .none parts, p0.dropLast⟩
end

end HS
