import Verif.Model.ManagerExc
/-!
# `hyperstate/lazy.py`, `hyperstate/hyperstate.py`: the config that `deserialize` is given

In the other models of the manager `deserialize` does not use its argument `config`. Here it does. The object that is passed is the one
that `_load_state` put into `LazyDeserializer` (hyperstate.py:177-182, 280; lazy.py:87, 115-120): it is `self.config`, an object that is
never replaced afterwards and in which schedules assign attributes (`_apply_schedules`). So its attributes are those of `_config` at the
moment of the read.

Simplification: as in Model/ManagerExc. A `deserialize` that changes the config is left out, and so are schedules whose state
attribute is a lazy field (`sv` gets the attributes).
-/
namespace HS

/-- `deserialize(state_dict, config, state, ctx)` of each class, with the values of the fields of `state` that it uses (lazy.py:32-36) -/
abbrev DeserC := Val → String → Val → List Val → Except Err Val

/-- the environment with `deserialize` methods that are given this config -/
def MgrEnv.atCfg (E : MgrEnv) (dc : DeserC) (c : Val) : MgrEnv := { E with deser := dc c }

/-- what reads of lazy fields depend on: `config` is the object as it is now (lazy.py:63-68) -/
def Mgr.lenvC (E : MgrEnv) (dc : DeserC) (m : Mgr) : LEnv := { m.lenv E with deser := dc (m.config.getD .none) }

/-- `manager.state.name` (`getStateX`) -/
def getStateC (E : MgrEnv) (dc : DeserC) (name : String) : Call Val := do
  let o ← stateX E
  let m ← Call.self
  let r := lazyGet (m.lenvC E dc) E.depth o name
  Call.modify (fun m => { m with state := some r.obj })
  Call.lift r.res

/-- the files of a checkpoint, hyperstate.py:184-194 (`dumpX`) -/
def dumpC (E : MgrEnv) (dc : DeserC) (c : Val) (o : LObj) : Call Files := do
  let m ← Call.self
  let (cdoc, cblobs) ← Call.lift (typedDump E.w.env (some m.schedules) false c)
  let r := readAll (lazyGet (m.lenvC E dc) E.depth) o E.stTy.fieldNames
  Call.modify (fun m => { m with state := some r.obj })
  let vs ← Call.lift r.res
  let (sdoc, sblobs) ← Call.lift (typedDump E.w.env .none false (.inst o.cls (E.stTy.fieldNames.zip vs)))
  return ⟨cdoc, sdoc, sblobs.foldl (fun a kv => dset a kv.1 kv.2) cblobs⟩

/-- `step`, hyperstate.py:124-142 (`stepX`) -/
def stepC (E : MgrEnv) (dc : DeserC) (mv : Move) : Call Unit := do
  let o ← stateX E
  applyX E o
  Call.ite E.ckpt (do
    let kv ← getStateC E dc E.key
    let val ← Call.lift (ckptVal kv)
    let o ← stateX E
    let c ← configX E
    let m ← Call.self
    let files ← Call.ite (dhas m.disk (ckptName E.key val)) (pure ⟨.none, .none, []⟩) (dumpC E dc c o)
    match stepOps mv E.key val files m.disk m.last with
    | (ops, some t) => Call.modify (fun m => { m with disk := runOps m.disk ops, last := some t })
    | (ops, .none) =>
      Call.modify (fun m => { m with disk := runOps m.disk ops })
      Call.lift (.error .fileNotFound)) (pure ())

/-- `checkpoint(target_dir)`, hyperstate.py:184-195 (`checkpointX`) -/
def checkpointC (E : MgrEnv) (dc : DeserC) : Call Files := do
  let c ← configX E
  let m ← Call.self
  let (cdoc, cblobs) ← Call.lift (typedDump E.w.env (some m.schedules) false c)
  let o ← stateX E
  let m ← Call.self
  let r := readAll (lazyGet (m.lenvC E dc) E.depth) o E.stTy.fieldNames
  Call.modify (fun m => { m with state := some r.obj })
  let vs ← Call.lift r.res
  let (sdoc, sblobs) ← Call.lift (typedDump E.w.env .none false (.inst o.cls (E.stTy.fieldNames.zip vs)))
  return ⟨cdoc, sdoc, sblobs.foldl (fun a kv => dset a kv.1 kv.2) cblobs⟩

/-- one operation (`Mgr.execX`) -/
def Mgr.execC (E : MgrEnv) (dc : DeserC) (m : Mgr) : MOp → Except Err Unit × Mgr
  | .readConfig => (do let _ ← configX E : Call Unit) m
  | .getState k => (do let _ ← getStateC E dc k : Call Unit) m
  | .setState k v => setStateX E k v m
  | .step mv => stepC E dc mv m
  | .configDict => (do let _ ← configDictX E : Call Unit) m
  | .checkpoint => (do let _ ← checkpointC E dc : Call Unit) m

/-- a history of operations, any of which may raise -/
def Mgr.runC (E : MgrEnv) (dc : DeserC) : Mgr → List MOp → List (Except Err Unit) × Mgr
  | m, [] => ([], m)
  | m, op :: ops =>
    let r := m.execC E dc op
    let rs := r.2.runC E dc ops
    (r.1 :: rs.1, rs.2)

end HS
