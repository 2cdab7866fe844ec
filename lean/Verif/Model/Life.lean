import Verif.Model.Manager
/-!
# `hyperstate/hyperstate.py`: a `step` that is interrupted
-/
namespace HS

/-- `step` (hyperstate.py:124-142) in a process that ends when `n` of the effects on the checkpoint directory have been carried
out: the directory that is left (see `stepCrash`, Model/Checkpoint.lean). `n` may be larger than the number of effects. -/
def Mgr.crashStep (E : MgrEnv) (mv : Move) (n : Nat) (m : Mgr) : Except Err (Dir Files) := do
  let (o, m) ← m.readState E
  let m ← m.apply E o
  if E.ckpt then
    let (kv, m) ← m.getState E E.key
    let val ← ckptVal kv
    let (o, m) ← m.readState E
    let (c, m) ← m.readConfig E
    let (files, _) ←
      if dhas m.disk (ckptName E.key val) then pure (⟨.none, .none, []⟩, o) else m.dump E c o
    return stepCrash mv E.key val files m.disk m.last n
  else return m.disk

end HS
