import Verif.Model.ManagerExc
/-!
# Assignments to the config by the user

`manager.config` (hyperstate.py:94-98) returns the config object itself, not a copy, so the user may assign to its attributes:
`manager.config.opt.lr = 0.1`.
-/
namespace HS

/-- `config.a.b.c = v` for the path `["a", "b", "c"]`: attributes are read up to the last one, which is assigned. The nested object
is updated in place; here it is written back, as in Model/Apply.lean. Simplification: an assignment needs a path that is not
empty (`manager.config = v` raises an AttributeError: `config` is a property without setter, hyperstate.py:94). -/
def setAttrAt (v : Val) : List String → Val → Except Err Val
  | [], _ => .error .attributeError
  | [k], c => setAttr k v c
  | k :: k' :: ks, c => do
    let c1 ← getAttr k c
    let c2 ← setAttrAt v (k' :: ks) c1
    setAttr k c2 c

/-- `manager.config.a.b.c = v` (hyperstate.py:94-98 for the read of `config`) -/
def setConfigX (E : MgrEnv) (path : List String) (v : Val) : Call Unit := do
  let c ← configX E
  let c' ← Call.lift (setAttrAt v path c)
  Call.modify (fun m => { m with config := some c' })

/-- what a user does with a StateManager: the operations of Model/Manager.lean and assignments to the config -/
inductive UOp where
  | op (o : MOp)
  /-- `manager.config.a.b.c = v` -/
  | setConfig (path : List String) (v : Val)

/-- one operation of a user who catches exceptions -/
def Mgr.execU (E : MgrEnv) (m : Mgr) : UOp → Except Err Unit × Mgr
  | .op o => m.execX E o
  | .setConfig path v => setConfigX E path v m

/-- a history of operations, any of which may raise -/
def Mgr.runU (E : MgrEnv) : Mgr → List UOp → List (Except Err Unit) × Mgr
  | m, [] => ([], m)
  | m, op :: ops =>
    let r := m.execU E op
    let rs := r.2.runU E ops
    (r.1 :: rs.1, rs.2)

end HS
