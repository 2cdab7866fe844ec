import Verif.Model.Load
/-!
# `hyperstate/lazy.py`: attributes that are read from blob files on first access
-/
namespace HS

/-- An object with `_unloaded_lazy_fields`: its attributes, and the fields that have not been read yet. The keys of
`unloaded` are the paths of `LazyDeserializer.lazy_fields` (lazy.py:115-120), the empty list stands for no such attribute. -/
structure LObj where
  cls : String
  attrs : List (String × Val)
  unloaded : List (String × LazyEntry)

/-- What `Lazy.__getattribute__` depends on. `deser c payload deps` is `c.deserialize(state_dict, config, state, ctx)` where
`payload` is what `serialize()` returned when the file was written (so `deser` includes packing and unpacking it) and `deps`
are the values of the attributes `deps c` of `state` that `deserialize` reads, in order (README.md:320-324 reads
`state.net`). Simplification: which attributes are read does not depend on their values, `deserialize` assigns none. -/
structure LEnv where
  /-- the class inherits from `Lazy` -/
  isLazy : Bool
  disk : String → Option Val
  /-- `UNSAFE_DESERIALIZE_PICKLE` is set -/
  pickleOk : Bool
  deps : String → List String
  deser : String → Val → List Val → Except Err Val

/-- what happens to blob files: a file was opened; a field was read from it -/
inductive LEv where
  | opened (field file : String)
  | loaded (field : String)
deriving DecidableEq, Repr

/-- result of an attribute access: value or exception, the object afterwards, the events -/
structure Out (α : Type) where
  res : Except Err α
  obj : LObj
  log : List LEv

/-- reading several attributes one after the other -/
def readAll (get : LObj → String → Out Val) : LObj → List String → Out (List Val)
  | o, [] => ⟨.ok [], o, []⟩
  | o, n :: ns =>
    let r := get o n
    match r.res with
    | .error e => ⟨.error e, r.obj, r.log⟩
    | .ok v =>
      let rs := readAll get r.obj ns
      ⟨rs.res.map (v :: ·), rs.obj, r.log ++ rs.log⟩

/-- `super().__getattribute__(name)`; simplification: only instance attributes -/
def plainGet (o : LObj) (name : String) : Out Val :=
  match dget o.attrs name with
  | some v => ⟨.ok v, o, []⟩
  | .none => ⟨.error .attributeError, o, []⟩

/-- `Lazy.__getattribute__` (lazy.py:40-71); the first argument is the remaining recursion depth (RecursionError, a
RuntimeError, at 0: "TODO: recursion check") -/
def lazyGet (L : LEnv) : Nat → LObj → String → Out Val
  | 0, o, _ => ⟨.error .runtimeError, o, []⟩
  | fuel + 1, o, name =>
    match L.isLazy, dget o.unloaded name with
    | true, some e =>
      match L.disk e.file with
      | .none => ⟨.error .fileNotFound, o, []⟩
      | some payload =>
        if e.pickle && !L.pickleOk then ⟨.error .runtimeError, o, [.opened name e.file]⟩
        else
          let ds := readAll (lazyGet L fuel) o (L.deps e.cls)
          match ds.res with
          | .error er => ⟨.error er, ds.obj, .opened name e.file :: ds.log⟩
          | .ok vs =>
            match L.deser e.cls payload vs with
            | .error er => ⟨.error er, ds.obj, .opened name e.file :: ds.log⟩
            | .ok v =>
              if dhas ds.obj.unloaded name then
                ⟨.ok v, { ds.obj with attrs := dset ds.obj.attrs name v, unloaded := ddel ds.obj.unloaded name },
                  .opened name e.file :: ds.log ++ [.loaded name]⟩
              -- `del unloaded[name]` when `deserialize` has read the field itself
              else ⟨.error .keyError, { ds.obj with attrs := dset ds.obj.attrs name v }, .opened name e.file :: ds.log⟩
    | _, _ => plainGet o name

/-- `setattr(obj, name, value)`: `Lazy` does not define `__setattr__`, the field stays in `_unloaded_lazy_fields` -/
def lazySet (o : LObj) (name : String) (v : Val) : LObj := { o with attrs := dset o.attrs name v }

/-- what a user of the object does -/
inductive LOp where
  | get (name : String)
  | set (name : String) (v : Val)

/-- one operation: what it returned (`none` for an assignment), the object, the events -/
def lazyStep (L : LEnv) (depth : Nat) (o : LObj) : LOp → Option (Except Err Val) × LObj × List LEv
  | .get n => let r := lazyGet L depth o n; (some r.res, r.obj, r.log)
  | .set n v => (.none, lazySet o n v, [])

/-- a history of operations -/
def lazyRun (L : LEnv) (depth : Nat) : LObj → List LOp → List (Option (Except Err Val)) × LObj × List LEv
  | o, [] => ([], o, [])
  | o, op :: ops =>
    let (r, o, l) := lazyStep L depth o op
    let (rs, o, ls) := lazyRun L depth o ops
    (r :: rs, o, l ++ ls)

/-- the object that `_typed_load` returns (hyperstate.py:295-297) -/
def Loaded.obj (l : Loaded) : Option LObj :=
  match l.value with
  | .inst cls kvs => some ⟨cls, kvs, l.lazyFields⟩
  | _ => .none

end HS
