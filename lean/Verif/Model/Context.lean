import Verif.Model.ManagerExc
/-!
# `hyperstate/hyperstate.py`, `hyperstate/lazy.py`: the deserialization context

Values that the user passes to `initial_state` and to `Serializable.deserialize`. The manager has a context of its own, to which
`StateManager.set_deserialize_ctx` adds; a state that inherits from `Lazy` gets a copy of it when it is loaded, to which
`Lazy.set_deserialize_ctx` adds.

Simplifications: `initial_state` and `deserialize` only read the context (`initial_state` gets the manager's own dictionary, and
would see later additions if it kept it).
-/
namespace HS

/-- a context: `Dict[str, Any]` -/
abbrev Ctx := List (String × Val)

/-- The arguments of a StateManager, where `initial_state` and `deserialize` are functions of the context. -/
structure CEnv where
  base : MgrEnv
  /-- `initial_state(config, ctx)` -/
  initial : Ctx → Val → Except Err (String × List (String × Val))
  /-- `deserialize(state_dict, config, state, ctx)`, see `LEnv.deser` -/
  deser : Ctx → String → Val → List Val → Except Err Val

/-- with the context `mc` of the manager and the context `sc` of the state -/
def CEnv.at (E : CEnv) (mc sc : Ctx) : MgrEnv := { E.base with initial := E.initial mc, deser := E.deser sc }

/-- a manager, its `_deserialize_ctx` (hyperstate.py:91), and the `_deserialize_ctx` of its state -/
structure CMgr where
  m : Mgr
  ctx : Ctx
  stCtx : Ctx

/-- `StateManager.__init__` (hyperstate.py:91) -/
def CMgr.new (E : CEnv) (disk : Dir Files) : CMgr := ⟨Mgr.new E.base disk, [], []⟩

/-- A call of the manager. A state that is loaded by this call gets a copy of the manager's context before anything else happens to
it (hyperstate.py:101-105), also if the call raises later. -/
def CMgr.call {α : Type} (E : CEnv) (x : MgrEnv → Call α) (M : CMgr) : Except Err α × CMgr :=
  let sc := match M.m.state with
    | some _ => M.stCtx
    | .none => M.ctx
  let r := x (E.at M.ctx sc) M.m
  (r.1, ⟨r.2, M.ctx, match r.2.state with
    | some _ => sc
    | .none => M.stCtx⟩)

inductive COp where
  | op (o : MOp)
  /-- `manager.set_deserialize_ctx(k, v)` -/
  | setCtx (k : String) (v : Val)
  /-- `manager.state.set_deserialize_ctx(k, v)` -/
  | setStateCtx (k : String) (v : Val)

/-- one operation of a user who catches exceptions -/
def CMgr.exec (E : CEnv) (M : CMgr) : COp → Except Err Unit × CMgr
  | .op o => M.call E fun E m => m.execX E o
  -- hyperstate.py:144-151
  | .setCtx k v => (.ok (), { M with ctx := dset M.ctx k v })
  -- lazy.py:73-82
  | .setStateCtx k v =>
    let r := M.call E stateX
    match r.1 with
    | .error e => (.error e, r.2)
    | .ok _ =>
      if E.base.stLazy then (.ok (), { r.2 with stCtx := dset r.2.stCtx k v })
      else (.error .attributeError, r.2)

/-- a history of operations, any of which may raise -/
def CMgr.run (E : CEnv) : CMgr → List COp → List (Except Err Unit) × CMgr
  | M, [] => ([], M)
  | M, op :: ops =>
    let r := M.exec E op
    let rs := r.2.run E ops
    (r.1 :: rs.1, rs.2)

/-- the value of `manager.state.name` -/
def CMgr.get (E : CEnv) (M : CMgr) (name : String) : Except Err Val := (M.call E fun E => getStateX E name).1

end HS
