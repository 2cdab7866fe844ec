import Verif.Model.Lazy
import Verif.Model.Apply
import Verif.Model.Checkpoint
/-!
# `hyperstate/hyperstate.py`: `StateManager`

The parts of Model/Load.lean, Model/Apply.lean, Model/Lazy.lean and Model/Checkpoint.lean put together.

Simplifications: the config class has no `Serializable` fields; `init_path` lies outside the checkpoint directory and is
not changed by others; an operation that raises ends the history (the manager may be left with a state whose schedules have
not been applied); the variable of a schedule is an ordinary attribute of the state.
-/
namespace HS

/-- contents of a checkpoint: config.ron, state.ron (as read back) and the blob files by name -/
structure Files where
  config : Val
  state : Val
  blobs : List (String × Val)

/-- where files are read from -/
inductive Src where
  | ckpt (name : String)
  | init

/-- `init_path`: not given, a file, a directory -/
inductive Init where
  | absent
  | file (doc : Val)
  | dir (f : Files)

/-- arguments of `StateManager.__init__` (hyperstate.py:53-91) and the world around it -/
structure MgrEnv where
  w : World
  cfgTy : PyTy
  stTy : PyTy
  init : Init
  overrides : List String
  ignoreExtra : Bool
  key : String
  /-- `checkpoint_dir` is given -/
  ckpt : Bool
  /-- `initial_state(config, ctx)`: class and attributes of the result -/
  initial : Val → Except Err (String × List (String × Val))
  /-- `schedule.get_value(getattr(state, schedule.xname))` for the schedule with this source text and a state with these
  attributes (hyperstate.py:432-434) -/
  sv : List (String × Val) → String → Except Err Flt
  /-- the state class inherits from `Lazy` -/
  stLazy : Bool
  pickleOk : Bool
  deps : String → List String
  deser : String → Val → List Val → Except Err Val
  /-- recursion depth -/
  depth : Nat

/-- the attributes `_config`, `_schedules`, `_state`, `_last_checkpoint`, and the checkpoint directory; `src` is the
directory that the unread fields of the state refer to -/
structure Mgr where
  config : Option Val
  schedules : RegD
  state : Option LObj
  src : Src
  last : Option String
  disk : Dir Files

/-- a new StateManager (hyperstate.py:75-91, 113-122) -/
def Mgr.new (E : MgrEnv) (disk : Dir Files) : Mgr :=
  ⟨.none, [], .none, .init, if E.ckpt then openMgr disk else .none, disk⟩

/-- files of a checkpoint; opening a file in a directory that is missing or incomplete fails -/
def ckptFiles (disk : Dir Files) (name : String) : Except Err Files :=
  match dget disk name with
  | some (.full f) => .ok f
  | _ => .error .fileNotFound

/-- `_load_config` (hyperstate.py:154-168) -/
def Mgr.loadConfig (E : MgrEnv) (m : Mgr) : Except Err Loaded := do
  match m.last with
  | some n =>
    let f ← ckptFiles m.disk n
    smLoadConfig E.w E.cfgTy (some f.config) E.overrides E.ignoreExtra
  | .none => match E.init with
    | .absent => smLoadConfig E.w E.cfgTy .none E.overrides E.ignoreExtra
    | .file doc => smLoadConfig E.w E.cfgTy (some doc) E.overrides E.ignoreExtra
    | .dir f => smLoadConfig E.w E.cfgTy (some f.config) E.overrides E.ignoreExtra

/-- the property `config` (hyperstate.py:93-97) -/
def Mgr.readConfig (E : MgrEnv) (m : Mgr) : Except Err (Val × Mgr) :=
  match m.config with
  | some c => .ok (c, m)
  | .none => do
    let l ← m.loadConfig E
    return (l.value, { m with config := some l.value, schedules := l.schedules })

/-- the state object of a checkpoint (hyperstate.py:177-182) -/
def loadStateObj (E : MgrEnv) (doc : Val) : Except Err LObj := do
  let l ← smLoadState E.w E.stTy doc E.ignoreExtra
  match l.obj with
  | some o => return o
  | .none => throw .attributeError

/-- `_load_state` (hyperstate.py:170-182) -/
def Mgr.loadState (E : MgrEnv) (m : Mgr) : Except Err (LObj × Src × Mgr) := do
  match m.last with
  | some n =>
    let (_, m) ← m.readConfig E
    let f ← ckptFiles m.disk n
    return (← loadStateObj E f.state, .ckpt n, m)
  | .none => match E.init with
    | .dir f =>
      let (_, m) ← m.readConfig E
      return (← loadStateObj E f.state, .init, m)
    | _ =>
      let (c, m) ← m.readConfig E
      let (cls, kvs) ← E.initial c
      return (⟨cls, kvs, []⟩, .init, m)

/-- `_apply_schedules(self.state, self.config, self._schedules)` (hyperstate.py:106, 128) -/
def Mgr.apply (E : MgrEnv) (m : Mgr) (o : LObj) : Except Err Mgr := do
  let (c, m) ← m.readConfig E
  let c' ← applyRegD (E.sv o.attrs) m.schedules c
  return { m with config := some c' }

/-- the property `state` (hyperstate.py:99-107) -/
def Mgr.readState (E : MgrEnv) (m : Mgr) : Except Err (LObj × Mgr) :=
  match m.state with
  | some o => .ok (o, m)
  | .none => do
    let (o, src, m) ← m.loadState E
    let m := { m with state := some o, src := src }
    let m ← m.apply E o
    return (o, m)

/-- the blob files that unread fields of the state refer to -/
def Mgr.blobs (E : MgrEnv) (m : Mgr) : List (String × Val) :=
  match m.src with
  | .ckpt n => match dget m.disk n with
    | some (.full f) => f.blobs
    | _ => []
  | .init => match E.init with
    | .dir f => f.blobs
    | _ => []

def Mgr.lenv (E : MgrEnv) (m : Mgr) : LEnv :=
  { isLazy := E.stLazy, disk := dget (m.blobs E), pickleOk := E.pickleOk, deps := E.deps, deser := E.deser }

/-- reading an attribute of the state: `manager.state.name` -/
def Mgr.getState (E : MgrEnv) (m : Mgr) (name : String) : Except Err (Val × Mgr) := do
  let (o, m) ← m.readState E
  let r := lazyGet (m.lenv E) E.depth o name
  let v ← r.res
  return (v, { m with state := some r.obj })

/-- assigning to an attribute of the state: `manager.state.name = v` -/
def Mgr.setState (E : MgrEnv) (m : Mgr) (name : String) (v : Val) : Except Err Mgr := do
  let (o, m) ← m.readState E
  return { m with state := some (lazySet o name v) }

/-- names of the fields of a dataclass -/
def PyTy.fieldNames : PyTy → List String
  | .data _ fs _ => fs.map Fld.name
  | _ => []

/-- the files of a checkpoint (hyperstate.py:184-194): `asdict` reads every field of the state with `getattr`
(serde.py:77-87), which loads the unread ones. Simplification: all fields are read before the first is converted. -/
def Mgr.dump (E : MgrEnv) (m : Mgr) (c : Val) (o : LObj) : Except Err (Files × LObj) := do
  let (cdoc, cblobs) ← typedDump E.w.env (some m.schedules) false c
  let r := readAll (lazyGet (m.lenv E) E.depth) o E.stTy.fieldNames
  let vs ← r.res
  let (sdoc, sblobs) ← typedDump E.w.env .none false (.inst o.cls (E.stTy.fieldNames.zip vs))
  return (⟨cdoc, sdoc, sblobs.foldl (fun a kv => dset a kv.1 kv.2) cblobs⟩, r.obj)

/-- `getattr(self.state, self.checkpoint_key)` and the assertion that it is an int (hyperstate.py:130-133) -/
def ckptVal : Val → Except Err Int
  | .int i => .ok i
  | .bool b => .ok (if b then 1 else 0)
  | _ => .error .assertionError

/-- `step` (hyperstate.py:124-142) -/
def Mgr.step (E : MgrEnv) (mv : Move) (m : Mgr) : Except Err Mgr := do
  let (o, m) ← m.readState E
  let m ← m.apply E o
  if E.ckpt then
    let (kv, m) ← m.getState E E.key
    let val ← ckptVal kv
    let (o, m) ← m.readState E
    let (c, m) ← m.readConfig E
    let (files, o) ←
      if dhas m.disk (ckptName E.key val) then pure (⟨.none, .none, []⟩, o) else m.dump E c o
    let m := { m with state := some o }
    match stepRun mv E.key val files m.disk m.last with
    | some (disk, last) => return { m with disk := disk, last := last }
    | .none => throw .fileNotFound
  else return m

/-- `checkpoint(target_dir)` (hyperstate.py:184-195): the files that end up in `target_dir`. The config is written before the
state is read. Simplification: `target_dir` is not in the checkpoint directory and does not exist yet (moving the files there
is `atomic_move`, Model/Checkpoint.lean). -/
def Mgr.checkpoint (E : MgrEnv) (m : Mgr) : Except Err (Files × Mgr) := do
  let (c, m) ← m.readConfig E
  let (cdoc, cblobs) ← typedDump E.w.env (some m.schedules) false c
  let (o, m) ← m.readState E
  let r := readAll (lazyGet (m.lenv E) E.depth) o E.stTy.fieldNames
  let vs ← r.res
  let (sdoc, sblobs) ← typedDump E.w.env .none false (.inst o.cls (E.stTy.fieldNames.zip vs))
  return (⟨cdoc, sdoc, sblobs.foldl (fun a kv => dset a kv.1 kv.2) cblobs⟩, { m with state := some r.obj })

/-- the serializers of `config_dict` (hyperstate.py:201) -/
def configDictCfg (env : String → ClsInfo) : SerCfg :=
  { env := env, lazy := false, versioned := true, sched := .none, elide := false, named := false }

/-- `config_dict` (hyperstate.py:197-201) -/
def Mgr.configDict (E : MgrEnv) (m : Mgr) : Except Err (Val × Mgr) := do
  let (c, m) ← m.readConfig E
  let (d, _) ← asdict (configDictCfg E.w.env) "" c
  return (d, m)

/-! ## what a user does with a StateManager -/

inductive MOp where
  /-- `manager.config` -/
  | readConfig
  /-- `manager.state.name` -/
  | getState (name : String)
  /-- `manager.state.name = v` -/
  | setState (name : String) (v : Val)
  /-- `manager.step()` -/
  | step (mv : Move)
  /-- `manager.config_dict()` -/
  | configDict
  /-- `manager.checkpoint(target_dir)` -/
  | checkpoint

def Mgr.exec (E : MgrEnv) (m : Mgr) : MOp → Except Err Mgr
  | .readConfig => do return (← m.readConfig E).2
  | .getState k => do return (← m.getState E k).2
  | .setState k v => m.setState E k v
  | .step mv => m.step E mv
  | .configDict => do return (← m.configDict E).2
  | .checkpoint => do return (← m.checkpoint E).2

/-- a history of operations none of which raises -/
def Mgr.run (E : MgrEnv) : Mgr → List MOp → Except Err Mgr
  | m, [] => .ok m
  | m, op :: ops => do Mgr.run E (← m.exec E op) ops

end HS
