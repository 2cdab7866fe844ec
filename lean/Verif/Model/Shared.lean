import Verif.Model.ManagerExc
/-!
# `StateManager` on a directory that other processes use as well

Another process changes the checkpoint directory between the calls of this one. What it can change within a call is covered too, up
to the order of reads: a call reads config.ron, state.ron and the blob files one after the other, and each of these reads can be made
a call of its own (`manager.config`, then `manager.state.name` for one field after the other), after which the original call reads
nothing more.

Simplification, as in Model/Checkpoint.lean: reading from a directory that is being deleted raises FileNotFoundError (in the code it may
still succeed, and gives the old contents).
-/
namespace HS

/-- operations that do not write to the checkpoint directory (hyperstate.py:93-107, 184-201) -/
def MOp.reads : MOp → Bool
  | .step _ => false
  | _ => true

/-- the manager when others have changed the directory -/
def Mgr.onDisk (d : Dir Files) (m : Mgr) : Mgr := { m with disk := d }

/-- a history of operations, any of which may raise; before each of them the directory has changed to the given contents -/
def Mgr.runShared (E : MgrEnv) : Mgr → List (Dir Files × MOp) → List (Except Err Unit) × Mgr
  | m, [] => ([], m)
  | m, (d, op) :: ops =>
    let r := (m.onDisk d).execX E op
    let rs := r.2.runShared E ops
    (r.1 :: rs.1, rs.2)

end HS
