import Verif.Model.LazyConfig
import Verif.Model.UserConfig
/-!
# Assignments to the config and lazy fields whose `deserialize` uses the config

`manager.config` and the object that lazy fields get (lazy.py:63-68) are the same object, so assignments of the user are seen there too.
-/
namespace HS

/-- one operation of a user who may also assign to the config (Model/UserConfig), with a `deserialize` that uses it -/
def Mgr.execUC (E : MgrEnv) (dc : DeserC) (m : Mgr) : UOp → Except Err Unit × Mgr
  | .op o => m.execC E dc o
  | .setConfig path v => setConfigX E path v m

/-- a history of operations, any of which may raise -/
def Mgr.runUC (E : MgrEnv) (dc : DeserC) : Mgr → List UOp → List (Except Err Unit) × Mgr
  | m, [] => ([], m)
  | m, op :: ops =>
    let r := m.execUC E dc op
    let rs := r.2.runUC E dc ops
    (r.1 :: rs.1, rs.2)

end HS
