import Verif.Model.Manager
/-!
# `hyperstate/hyperstate.py`: `StateManager` after an exception

Model/Manager.lean ends a history when a call raises. Here a call returns its outcome together with the manager as it is
afterwards, so that a caller may catch the exception and go on. What a call has assigned before it raised stays assigned:
`self._config` and `self._state`, attributes of the config (schedules are applied one after the other), fields of the state that
were loaded on the way. `execX_exec` (Proofs/ManagerExc.lean): both models agree on outcomes and on calls that return.

Simplifications as in Model/Manager.lean; a failing `checkpoint` has read every field of the state or all up to the one that
failed.
-/
namespace HS

/-- a call on the manager: the outcome, and the manager afterwards -/
def Call (α : Type) : Type := Mgr → Except Err α × Mgr

instance : Monad Call where
  pure a := fun m => (.ok a, m)
  bind x f := fun m => match x m with
    | (.ok a, m) => f a m
    | (.error e, m) => (.error e, m)

/-- something that does not change the manager -/
def Call.lift {α : Type} (x : Except Err α) : Call α := fun m => (x, m)
/-- the manager itself -/
def Call.self : Call Mgr := fun m => (.ok m, m)
/-- assign to attributes of the manager -/
def Call.modify (f : Mgr → Mgr) : Call Unit := fun m => (.ok (), f m)
/-- `if b: x else: y` -/
def Call.ite {α : Type} (b : Bool) (x y : Call α) : Call α := fun m => if b then x m else y m

mutual
/-- one iteration of `_apply_schedules` (hyperstate.py:218-224): the outcome, and the config as it is afterwards -/
def applyRegX (sv : String → Except Err Flt) : Reg → String → Val → Except Err Unit × Val
  | .sched txt isInt attr, _, cfg =>
    match schedVal sv txt isInt with
    | .error e => (.error e, cfg)
    | .ok x => match setAttr attr x cfg with
      | .error e => (.error e, cfg)
      | .ok cfg' => (.ok (), cfg')
  | .node es, name, cfg =>
    match getAttr name cfg with
    | .error e => (.error e, cfg)
    | .ok c =>
      -- the nested object is updated in place, also when this fails half-way
      let r := applyRegDX sv es c
      match setAttr name r.2 cfg with
      | .error e => (.error e, cfg)
      | .ok cfg' => (r.1, cfg')
termination_by structural x => x
/-- `_apply_schedules(state, config, schedules)` (hyperstate.py:218-224) -/
def applyRegDX (sv : String → Except Err Flt) : List (String × Reg) → Val → Except Err Unit × Val
  | [], cfg => (.ok (), cfg)
  | e :: es, cfg =>
    let r := applyRegEX sv e cfg
    match r.1 with
    | .error e => (.error e, r.2)
    | .ok _ => applyRegDX sv es r.2
termination_by structural x => x
def applyRegEX (sv : String → Except Err Flt) : String × Reg → Val → Except Err Unit × Val
  | (name, r), cfg => applyRegX sv r name cfg
termination_by structural x => x
end

/-- the property `config` (hyperstate.py:93-97) -/
def configX (E : MgrEnv) : Call Val := fun m =>
  match m.config with
  | some c => (.ok c, m)
  | .none => match m.loadConfig E with
    | .error e => (.error e, m)
    | .ok l => (.ok l.value, { m with config := some l.value, schedules := l.schedules })

/-- `_load_state` (hyperstate.py:170-182) -/
def loadStateX (E : MgrEnv) : Call (LObj × Src) := do
  let m ← Call.self
  match m.last with
  | some n =>
    let _ ← configX E
    let f ← Call.lift (ckptFiles m.disk n)
    return (← Call.lift (loadStateObj E f.state), .ckpt n)
  | .none => match E.init with
    | .dir f =>
      let _ ← configX E
      return (← Call.lift (loadStateObj E f.state), .init)
    | _ =>
      let c ← configX E
      let (cls, kvs) ← Call.lift (E.initial c)
      return (⟨cls, kvs, []⟩, .init)

/-- `_apply_schedules(self.state, self.config, self._schedules)` (hyperstate.py:106, 128) -/
def applyX (E : MgrEnv) (o : LObj) : Call Unit := do
  let c ← configX E
  let m ← Call.self
  let r := applyRegDX (E.sv o.attrs) m.schedules c
  Call.modify (fun m => { m with config := some r.2 })
  Call.lift r.1

/-- the property `state` (hyperstate.py:99-107): `self._state` is assigned before the schedules are applied -/
def stateX (E : MgrEnv) : Call LObj := do
  let m ← Call.self
  match m.state with
  | some o => return o
  | .none =>
    let (o, src) ← loadStateX E
    Call.modify (fun m => { m with state := some o, src := src })
    applyX E o
    return o

/-- reading an attribute of the state: `manager.state.name` -/
def getStateX (E : MgrEnv) (name : String) : Call Val := do
  let o ← stateX E
  let m ← Call.self
  let r := lazyGet (m.lenv E) E.depth o name
  Call.modify (fun m => { m with state := some r.obj })
  Call.lift r.res

/-- assigning to an attribute of the state -/
def setStateX (E : MgrEnv) (name : String) (v : Val) : Call Unit := do
  let o ← stateX E
  Call.modify (fun m => { m with state := some (lazySet o name v) })

/-- the files of a checkpoint (hyperstate.py:184-194) -/
def dumpX (E : MgrEnv) (c : Val) (o : LObj) : Call Files := do
  let m ← Call.self
  let (cdoc, cblobs) ← Call.lift (typedDump E.w.env (some m.schedules) false c)
  let r := readAll (lazyGet (m.lenv E) E.depth) o E.stTy.fieldNames
  Call.modify (fun m => { m with state := some r.obj })
  let vs ← Call.lift r.res
  let (sdoc, sblobs) ← Call.lift (typedDump E.w.env .none false (.inst o.cls (E.stTy.fieldNames.zip vs)))
  return ⟨cdoc, sdoc, sblobs.foldl (fun a kv => dset a kv.1 kv.2) cblobs⟩

/-- `step` (hyperstate.py:124-142). When the previous checkpoint is gone, `shutil.move` raises after the new one was written. -/
def stepX (E : MgrEnv) (mv : Move) : Call Unit := do
  let o ← stateX E
  applyX E o
  Call.ite E.ckpt (do
    let kv ← getStateX E E.key
    let val ← Call.lift (ckptVal kv)
    let o ← stateX E
    let c ← configX E
    let m ← Call.self
    let files ← Call.ite (dhas m.disk (ckptName E.key val)) (pure ⟨.none, .none, []⟩) (dumpX E c o)
    match stepOps mv E.key val files m.disk m.last with
    | (ops, some t) => Call.modify (fun m => { m with disk := runOps m.disk ops, last := some t })
    | (ops, .none) =>
      Call.modify (fun m => { m with disk := runOps m.disk ops })
      Call.lift (.error .fileNotFound)) (pure ())

/-- `checkpoint(target_dir)` (hyperstate.py:184-195) -/
def checkpointX (E : MgrEnv) : Call Files := do
  let c ← configX E
  let m ← Call.self
  let (cdoc, cblobs) ← Call.lift (typedDump E.w.env (some m.schedules) false c)
  let o ← stateX E
  let m ← Call.self
  let r := readAll (lazyGet (m.lenv E) E.depth) o E.stTy.fieldNames
  Call.modify (fun m => { m with state := some r.obj })
  let vs ← Call.lift r.res
  let (sdoc, sblobs) ← Call.lift (typedDump E.w.env .none false (.inst o.cls (E.stTy.fieldNames.zip vs)))
  return ⟨cdoc, sdoc, sblobs.foldl (fun a kv => dset a kv.1 kv.2) cblobs⟩

/-- `config_dict` (hyperstate.py:197-201) -/
def configDictX (E : MgrEnv) : Call Val := do
  let c ← configX E
  return (← Call.lift (asdict (configDictCfg E.w.env) "" c)).1

/-- one operation of a user who catches exceptions -/
def Mgr.execX (E : MgrEnv) (m : Mgr) : MOp → Except Err Unit × Mgr
  | .readConfig => (do let _ ← configX E : Call Unit) m
  | .getState k => (do let _ ← getStateX E k : Call Unit) m
  | .setState k v => setStateX E k v m
  | .step mv => stepX E mv m
  | .configDict => (do let _ ← configDictX E : Call Unit) m
  | .checkpoint => (do let _ ← checkpointX E : Call Unit) m

/-- a history of operations, any of which may raise -/
def Mgr.runX (E : MgrEnv) : Mgr → List MOp → List (Except Err Unit) × Mgr
  | m, [] => ([], m)
  | m, op :: ops =>
    let r := m.execX E op
    let rs := r.2.runX E ops
    (r.1 :: rs.1, rs.2)

end HS
