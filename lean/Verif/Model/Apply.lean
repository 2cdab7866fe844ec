import Verif.Model.Load
/-!
# `hyperstate/hyperstate.py`: `_apply_schedules`
-/
namespace HS

/-- `cls(value)` in `update` (hyperstate.py:432-435); `sv txt` is `schedule.get_value(getattr(state, schedule.xname))` for
the schedule with source text `txt` -/
def schedVal (sv : String → Except Err Flt) (txt : String) (isInt : Bool) : Except Err Val := do
  let f ← sv txt
  if isInt then return .int (← f.toInt) else return .flt f

/-- `getattr(config, name)`. Simplification: only instance attributes (no methods, properties or class attributes). -/
def getAttr (name : String) : Val → Except Err Val
  | .inst _ kvs => match dget kvs name with
    | some v => .ok v
    | .none => .error .attributeError
  | _ => .error .attributeError

/-- `setattr(config, name, value)`; builtin objects have no settable attributes -/
def setAttr (name : String) (x : Val) : Val → Except Err Val
  | .inst n kvs => .ok (.inst n (dset kvs name x))
  | _ => .error .attributeError

mutual
/-- one iteration of `_apply_schedules` (hyperstate.py:218-224): returns the updated config. The nested object is updated in
place by the code; here it is written back, which is the same unless the object is shared with another part of the config. -/
def applyReg (sv : String → Except Err Flt) : Reg → String → Val → Except Err Val
  | .sched txt isInt attr, _, cfg => do
    let x ← schedVal sv txt isInt
    setAttr attr x cfg
  | .node es, name, cfg => do
    let c ← getAttr name cfg
    let c' ← applyRegD sv es c
    setAttr name c' cfg
termination_by structural x => x
/-- `_apply_schedules(state, config, schedules)` (hyperstate.py:218-224) -/
def applyRegD (sv : String → Except Err Flt) : List (String × Reg) → Val → Except Err Val
  | [], cfg => .ok cfg
  | e :: es, cfg => do
    let cfg ← applyRegE sv e cfg
    applyRegD sv es cfg
termination_by structural x => x
def applyRegE (sv : String → Except Err Flt) : String × Reg → Val → Except Err Val
  | (name, r), cfg => applyReg sv r name cfg
termination_by structural x => x
end

end HS
