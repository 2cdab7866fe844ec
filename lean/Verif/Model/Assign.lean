import Verif.Model.Shared
/-!
# `StateManager.checkpoint_dir` assigned to a manager that was created without one

The name of the directory is often computed from the config, which the manager has to load first. (Model/Redirect.lean has managers that
already have a directory, without config and state.)
-/
namespace HS

/-- arguments of `StateManager.__init__` without `checkpoint_dir` (hyperstate.py:59) -/
def MgrEnv.noDir (E : MgrEnv) : MgrEnv := { E with ckpt := false }
/-- the same once `checkpoint_dir` has been assigned -/
def MgrEnv.withDir (E : MgrEnv) : MgrEnv := { E with ckpt := true }

/-- `manager.checkpoint_dir = path` for a manager that had none, where the directory at this path contains `d`
(hyperstate.py:113-122): `_last_checkpoint` is only assigned when there is a checkpoint. `_config` and `_state` stay. -/
def Mgr.assignDir (d : Dir Files) (m : Mgr) : Mgr :=
  { m with disk := d, last := match openMgr d with
    | some n => some n
    | .none => m.last }

end HS
