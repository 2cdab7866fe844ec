import Verif.Model.Serde
import Verif.Model.Schema
/-!
# `hyperstate/hyperstate.py`: overrides, schedule registry, `_typed_load`, `load`, `loads`, `_typed_dump`
-/
namespace HS

/-! ## overrides -/

/-- `pyron.loads(s, preserve_structs=True)` -/
abbrev RonParse := String → Except Err Val

/-- `override.split("=", maxsplit=1)` (hyperstate.py:369-374): key and value text; `none` for a missing `=` -/
def splitOverride (o : String) : Option (String × String) :=
  match split1C '=' o.toList with
  | (k, some v) => some (String.ofList k, String.ofList v)
  | (_, .none) => .none

/-- the accepted spellings of booleans (hyperstate.py:385-400) -/
def parseBool (s : String) : Option Bool :=
  if s = "True" ∨ s = "true" ∨ s = "1" ∨ s = "t" ∨ s = "T" then some true
  else if s = "False" ∨ s = "false" ∨ s = "0" ∨ s = "f" ∨ s = "F" then some false
  else .none

def STy.isPrim (s : String) : STy → Bool
  | .prim t => t == s
  | _ => false

/-- value of an override for a field of this type (hyperstate.py:382-402). `stale` is the Python variable `val` left over
from the previous override: it is used when a boolean spelling is not recognised (UnboundLocalError if there is none). -/
def overrideVal (ron : RonParse) (t : STy) (s : String) (stale : Option Val) : Except Err Val :=
  if t.isPrim "str" then .ok (.str s)
  else if t.isPrim "bool" then
    match parseBool s with
    | some b => .ok (.bool b)
    | .none => match stale with
      | some v => .ok v
      | .none => .error .unboundLocal
  else ron s

/-- hyperstate.py:403-408: write the value, creating missing or None objects on the way (the new object is linked in after
the rest of the walk, which makes no difference) -/
def setPath (val : Val) : Val → List String → Except Err Val
  | _, [] => .error .indexError
  | sd, [k] => pySetItem k val sd
  | sd, k :: k' :: ks => do
    let present ← pyIn k sd
    let child ← if present then pyGetItem k sd else pure .none
    let child' ← setPath val (if child.isNone then .dict [] else child) (k' :: ks)
    pySetItem k child' sd

/-- the loop over overrides (hyperstate.py:368-408): document, leftover `val`, unknown keys so far -/
def overridesLoop (ron : RonParse) (fs : List (String × SFld)) :
    List String → Val → Option Val → List String → Except Err (Val × List String)
  | [], sd, _, errs => .ok (sd, errs)
  | o :: os, sd, stale, errs =>
    match splitOverride o with
    | .none => .error .valueError
    | some (key, s) =>
      let path := pySplit '.' key
      match findField fs path with
      | .none => overridesLoop ron fs os sd stale (errs ++ [key])
      | some f => do
        let val ← overrideVal ron f.type s stale
        overridesLoop ron fs os (← setPath val sd path) (some val) errs

/-- `OverridesDeserializer.deserialize` (hyperstate.py:356-414) -/
def applyOverrides (ron : RonParse) (ty : PyTy) (overrides : List String) (doc : Val) : Except Err Val := do
  match ← materialize ty with
  | .struct _ fs _ =>
    let (doc, errs) ← overridesLoop ron fs overrides doc .none []
    match errs with
    | [] => return doc
    | [e] => throw (.fieldNotFound e)
    | es => throw (.fieldsNotFound es)
  | _ => throw .assertionError

/-! ## schedule registry -/

abbrev RegD := List (String × Reg)

/-- `if segment not in schedules: schedules[segment] = {}` (hyperstate.py:439-440) where `schedules` is the whole registry
(`cur = none`) or its entry `cur` -/
def regEnsure (top : RegD) (cur : Option String) (s : String) : Except Err RegD :=
  match cur with
  | .none => .ok (if dhas top s then top else dset top s (.node []))
  | some c => match dget top c with
    | some (.node es) => .ok (if dhas es s then top else dset top c (.node (dset es s (.node []))))
    | some (.sched _ _ _) => .error .typeError
    | .none => .error .keyError

/-- the loop over the segments (hyperstate.py:437-441). Note `schedules = self.schedules[segment]`: the walk restarts at the
top of the registry in every iteration. -/
def regWalk : RegD → Option String → List String → Except Err (RegD × Option String)
  | top, cur, [] => .ok (top, cur)
  | top, cur, s :: ss => do
    let top ← regEnsure top cur s
    if dhas top s then regWalk top (some s) ss else throw .keyError

/-- register a schedule (hyperstate.py:429-442) -/
def regInsert (top : RegD) (path text : String) (isInt : Bool) : Except Err RegD := do
  let segs := pySplit '.' path
  let attr := segs.getLastD ""
  let (top, cur) ← regWalk top .none segs.dropLast
  match cur with
  | .none => return dset top attr (.sched text isInt attr)
  | some c => match dget top c with
    | some (.node es) => return dset top c (.node (dset es attr (.sched text isInt attr)))
    | _ => throw .typeError

/-- the schedules registered by a load, in order -/
def regAll : RegD → List Ev → Except Err RegD
  | top, [] => .ok top
  | top, .sched p t i :: es => do regAll (← regInsert top p t i) es
  | top, .lazy _ _ _ _ :: es => regAll top es

/-- entries of `LazyDeserializer.lazy_fields`: path, class, file, legacy pickle (lazy.py:115-120) -/
structure LazyEntry where
  cls : String
  file : String
  pickle : Bool
deriving DecidableEq, Repr

/-- `self.lazy_fields[path] = ...` for the blobs found by a load, in order (lazy.py:115-120) -/
def lazyInto : List (String × LazyEntry) → List Ev → List (String × LazyEntry)
  | d, [] => d
  | d, .sched _ _ _ :: es => lazyInto d es
  | d, .lazy p c f k :: es => lazyInto (dset d p ⟨c, f, k⟩) es

def lazyAll (es : List Ev) : List (String × LazyEntry) := lazyInto [] es

/-- what `_typed_load` returns, plus `_unloaded_lazy_fields` -/
structure Loaded where
  value : Val
  schedules : RegD
  lazyFields : List (String × LazyEntry)

/-- `_typed_load` (hyperstate.py:260-297) after parsing the text. `overrides = none`: no OverridesDeserializer. -/
def typedLoad (c : DCfg) (ron : RonParse) (overrides : Option (List String)) (ignoreExtra : Bool) (ty : PyTy) (doc : Val) :
    Except Err Loaded := do
  let doc ← match overrides with
    | some os => applyOverrides ron ty os doc
    | .none => pure doc
  let (v, es) ← fromDict c ty ignoreExtra "" doc
  return ⟨v, ← regAll [] es, lazyAll es⟩

/-- external world of the loaders -/
structure World where
  ext : Ext
  ron : RonParse
  env : String → ClsInfo

def World.dcfg (w : World) (allowMissing file : Bool) : DCfg :=
  { ext := w.ext, allowMissing := allowMissing, file := file, env := w.env }

def PyTy.isVersioned : PyTy → Bool
  | .data _ _ (some _) => true
  | _ => false

/-- `hyperstate.loads` (hyperstate.py:300-308) on the parsed text -/
def hsLoads (w : World) (ty : PyTy) (doc : Val) (overrides : Option (List String)) (ignoreExtra : Bool) :
    Except Err Val := do
  return (← typedLoad (w.dcfg false false) w.ron overrides ignoreExtra ty doc).value

/-- `hyperstate.load` (hyperstate.py:311-331); `file = none` is `load(cls, None)`, otherwise the parsed file -/
def hsLoad (w : World) (ty : PyTy) (file : Option Val) (overrides : Option (List String)) : Except Err Val := do
  match file with
  | .none => return (← typedLoad (w.dcfg ty.isVersioned false) w.ron overrides false ty (.dict [])).value
  | some doc => return (← typedLoad (w.dcfg false true) w.ron overrides false ty doc).value

/-- `StateManager._load_config` (hyperstate.py:154-168); `isinstance(self.config_cls, Versioned)` is False for a class, so
the missing version is always allowed -/
def smLoadConfig (w : World) (ty : PyTy) (file : Option Val) (overrides : List String) (ignoreExtra : Bool) :
    Except Err Loaded :=
  match file with
  | .none => typedLoad (w.dcfg true false) w.ron (some overrides) ignoreExtra ty (.dict [])
  | some doc => typedLoad (w.dcfg true true) w.ron (some overrides) ignoreExtra ty doc

/-- `_load_state` from a checkpoint (hyperstate.py:177-182): no overrides, missing version not allowed -/
def smLoadState (w : World) (ty : PyTy) (doc : Val) (ignoreExtra : Bool) : Except Err Loaded :=
  typedLoad (w.dcfg false true) w.ron .none ignoreExtra ty doc

/-! ## dumping -/

/-- serializers of `_typed_dump` (hyperstate.py:233-239) -/
def dumpCfg (env : String → ClsInfo) (schedules : Option RegD) (elide : Bool) : SerCfg :=
  { env := env, lazy := true, versioned := true, sched := schedules.map Reg.node, elide := elide, named := true }

/-- `_typed_dump` (hyperstate.py:227-247): the document as it will be read back, and the blob files. `self.blobs` is a dict:
a later blob of the same name replaces an earlier one. -/
def typedDump (env : String → ClsInfo) (schedules : Option RegD) (elide : Bool) (v : Val) :
    Except Err (Val × List (String × Val)) := do
  let (w, bs) ← asdict (dumpCfg env schedules elide) "" v
  return (ronTrip w, bs.foldl (fun a kv => dset a kv.1 kv.2) [])

end HS
