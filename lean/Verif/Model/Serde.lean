import Verif.Model.Ty
/-!
# `hyperstate/serde.py`: `asdict` and `from_dict`, with the hooks that `_typed_dump` / `_typed_load` install

The serializer hooks (`LazySerializer`, `VersionedSerializer`, `ScheduleSerializer`, `ElideDefaults`) and the
deserializer hooks (`ScheduleDeserializer`, `VersionedDeserializer`, `LazyDeserializer`) are inlined in the order in
which hyperstate/hyperstate.py:235-239 and 274-281 install them.  `OverridesDeserializer` only acts on the first call
and is modelled separately (Model/Load.lean).
-/
namespace HS

/-! ## serialization -/

/-- Nested dict of schedules, `ScheduleDeserializer.schedules` (hyperstate.py:417-420); a `Schedule` object is represented
by its source text (`Schedule.unparsed`, schedule.py:26) and by what its update closure captures (hyperstate.py:432-435):
the class (`int`?) and the attribute name. -/
inductive Reg where
  | sched (text : String) (isInt : Bool) (attr : String)
  | node (entries : List (String × Reg))

/-- What `asdict` needs to know about a class: version (if `Versioned`) and the defaults of its fields. -/
structure ClsInfo where
  version : Option Int
  defaults : List (String × Option Val)

/-- Which serializers are installed, and the classes in scope. -/
structure SerCfg where
  env : String → ClsInfo
  lazy : Bool
  versioned : Bool
  sched : Option Reg
  elide : Bool
  named : Bool

/-- `file=field_name if file == "" else f"{file}.{field_name}"` (serde.py:84, 100, 110, 120) -/
def joinPath (file name : String) : String := if file = "" then name else file ++ "." ++ name

/-- `path.replace("[", "_").replace("]", "")` (lazy.py:136) -/
def blobName (path : String) : String :=
  String.ofList ((path.toList.map (fun c => if c = '[' then '_' else c)).filter (fun c => c ≠ ']'))

/-- name of the file a Serializable at `path` is written to (lazy.py:136) -/
def blobFile (path : String) : String := "state." ++ blobName path ++ ".msgpack"

/-- walk of `ScheduleSerializer.serialize` (hyperstate.py:453-462): `none` when the path leaves the registry,
TypeError (`segment not in schedules`) when it runs through a Schedule object. -/
def Reg.find : Reg → List String → Except Err (Option String)
  | .sched t _ _, [] => .ok (some t)
  | .node _, [] => .ok .none
  | .sched _ _ _, _ :: _ => .error .typeError
  | .node es, s :: ss => match dget es s with
    | some r => r.find ss
    | .none => .ok .none

/-- `ScheduleSerializer.serialize` at a path (hyperstate.py:453-462); nothing when no such serializer is installed -/
def schedFind (c : SerCfg) (file : String) : Except Err (Option String) :=
  match c.sched with
  | .none => .ok .none
  | some reg => reg.find (pySplit '.' file)

/-- the value hooks: `LazySerializer` (lazy.py:129-141), then `ScheduleSerializer` (hyperstate.py:453-462);
the other two leave values alone. Returns the value to go on with and the blob written. -/
def serHooks (c : SerCfg) (file : String) (v : Val) : Except Err (Val × List (String × Val)) := do
  let (v, bs) : Val × List (String × Val) := match c.lazy, v with
    | true, .ser _ r => (.str "<blob:msgpack>", [(blobFile file, r)])
    | _, v => (v, [])
  match ← schedFind c file with
  | some t => return (.str t, bs)
  | .none => return (v, bs)

/-- `ElideDefaults.modify_dataclass_attrs` (hyperstate.py:494-504). -/
def elideAttrs : List (String × Option Val) → List (String × Val) → List (String × Val)
  | [], attrs => attrs
  | (n, d) :: ds, attrs =>
    let attrs := match d, dget attrs n with
      | some d, some a => if pyEq a d then ddel attrs n else attrs
      | _, _ => attrs
    elideAttrs ds attrs

/-- `modify_dataclass_attrs` of all serializers: `VersionedSerializer` (versioned.py:93-102), `ElideDefaults`. -/
def modifyAttrs (c : SerCfg) (cls : String) (attrs : List (String × Val)) : List (String × Val) :=
  let attrs := match c.versioned, (c.env cls).version with
    | true, some n => attrs.foldl (fun a kv => dset a kv.1 kv.2) [("version", Val.int n)]
    | _, _ => attrs
  if c.elide then elideAttrs (c.env cls).defaults attrs else attrs

/-- `namedtuple(...)` accepts these field names (they are identifiers; it rejects a leading underscore) -/
def ntNamesOk (attrs : List (String × Val)) : Bool := attrs.all (fun kv => !(['_'].isPrefixOf kv.1.toList))

/-- end of the dataclass branch of `asdict` (serde.py:88-93) -/
def packAttrs (c : SerCfg) (cls : String) (attrs : List (String × Val)) : Except Err Val :=
  let attrs := modifyAttrs c cls attrs
  if c.named then (if ntNamesOk attrs then .ok (.ntup cls attrs) else .error .valueError) else .ok (.dict attrs)

mutual
/-- `asdict` (serde.py:65-137). The second component lists the blob files (lazy.py:127, 137-139).
Simplification: a value replaced by a hook is a string, for which the rest of `asdict` returns it unchanged. -/
def asdict (c : SerCfg) (file : String) : Val → Except Err (Val × List (String × Val))
  | .inst cls kvs => do
    match ← serHooks c file (.inst cls kvs) with
    | (.str s, bs) => return (.str s, bs)
    | _ =>
      let (attrs, bs) ← asdictD c file kvs
      return (← packAttrs c cls attrs, bs)
  | .dict kvs => do
    match ← serHooks c file (.dict kvs) with
    | (.str s, bs) => return (.str s, bs)
    | _ =>
      let (kvs', bs) ← asdictD c file kvs
      return (.dict kvs', bs)
  | .list xs => do
    match ← serHooks c file (.list xs) with
    | (.str s, bs) => return (.str s, bs)
    | _ =>
      let (xs', bs) ← asdictL c file 0 xs
      return (.list xs', bs)
  | .tup xs => do
    match ← serHooks c file (.tup xs) with
    | (.str s, bs) => return (.str s, bs)
    | _ =>
      let (xs', bs) ← asdictL c file 0 xs
      return (.tup xs', bs)
  -- a namedtuple is a tuple, serde.py:114
  | .ntup n kvs => do
    match ← serHooks c file (.ntup n kvs) with
    | (.str s, bs) => return (.str s, bs)
    | _ =>
      let (xs', bs) ← asdictV c file 0 kvs
      return (.tup xs', bs)
  | v => do
    let (v, bs) ← serHooks c file v
    match v with
    | .enm _ n _ => return (.str n, bs)
    | .ser _ _ => throw .deserType
    | v => return (v, bs)
termination_by structural x => x
/-- fields of a dataclass, entries of a dict -/
def asdictD (c : SerCfg) (file : String) : List (String × Val) → Except Err (List (String × Val) × List (String × Val))
  | [] => .ok ([], [])
  | kv :: rest => do
    let (kv', bs) ← asdictP c file kv
    let (rest', bs') ← asdictD c file rest
    return (kv' :: rest', bs ++ bs')
termination_by structural x => x
def asdictP (c : SerCfg) (file : String) : String × Val → Except Err ((String × Val) × List (String × Val))
  | (k, v) => do
    let (v', bs) ← asdict c (joinPath file k) v
    return ((k, v'), bs)
termination_by structural x => x
/-- elements of a list or tuple -/
def asdictL (c : SerCfg) (file : String) : Nat → List Val → Except Err (List Val × List (String × Val))
  | _, [] => .ok ([], [])
  | i, v :: vs => do
    let (v', bs) ← asdict c (joinPath file (i.repr)) v
    let (vs', bs') ← asdictL c file (i + 1) vs
    return (v' :: vs', bs ++ bs')
termination_by structural _ x => x
/-- elements of a namedtuple -/
def asdictV (c : SerCfg) (file : String) : Nat → List (String × Val) → Except Err (List Val × List (String × Val))
  | _, [] => .ok ([], [])
  | i, kv :: vs => do
    let (v', bs) ← asdictE c file i kv
    let (vs', bs') ← asdictV c file (i + 1) vs
    return (v' :: vs', bs ++ bs')
termination_by structural _ x => x
def asdictE (c : SerCfg) (file : String) : Nat → String × Val → Except Err (Val × List (String × Val))
  | i, (_, v) => asdict c (joinPath file (i.repr)) v
termination_by structural _ x => x
end

/-- `asdict` without serializers, named_tuples=False -/
def plainCfg : SerCfg :=
  { env := fun _ => ⟨.none, []⟩, lazy := false, versioned := false, sched := .none, elide := false, named := false }

/-! ## the text format -/

mutual
/-- TRUSTED: what `pyron.loads(pyron.to_string(v), preserve_class_names=True)` returns (serde.py:361, 376, 405): a named
tuple becomes a dict with its name under `"!__name__"`, everything else comes back as it was. -/
def ronTrip : Val → Val
  | .list xs => .list (ronTripL xs)
  | .tup xs => .tup (ronTripL xs)
  | .dict kvs => .dict (ronTripD kvs)
  | .ntup n kvs => .dict ((NAME_KEY, .str n) :: ronTripD kvs)
  | v => v
termination_by structural x => x
def ronTripL : List Val → List Val
  | [] => []
  | x :: xs => ronTrip x :: ronTripL xs
termination_by structural x => x
def ronTripD : List (String × Val) → List (String × Val)
  | [] => []
  | kv :: d => ronTripP kv :: ronTripD d
termination_by structural x => x
def ronTripP : String × Val → String × Val
  | (k, v) => (k, ronTrip v)
termination_by structural x => x
end

/-! ## deserialization -/

/-- what a load records on the side -/
inductive Ev where
  /-- a schedule string found at this path, for an `int` (`true`) or `float` field -/
  | sched (path : String) (text : String) (isInt : Bool)
  /-- a blob marker found at this path: class, file name relative to the directory of the document, legacy pickle? -/
  | lazy (path : String) (cls : String) (file : String) (pickle : Bool)
deriving DecidableEq, Repr

/-- external functions -/
structure Ext where
  /-- `float(s)`; `none` is ValueError -/
  parseFloat : String → Option Flt
  /-- `_parse_schedule(s).get_value(0.0)` -/
  schedAt0 : String → Except Err Flt
  /-- can this Literal value be used as argument of `List[...]`/`Tuple[...]`? (a string must be a Python expression) -/
  typeArgOk : Val → Bool

/-- which deserializers are installed -/
structure DCfg where
  ext : Ext
  /-- `VersionedDeserializer.allow_missing_version` -/
  allowMissing : Bool
  /-- a `LazyDeserializer` is installed (loading from a file) -/
  file : Bool
  /-- class table, used only to turn an instance found in raw data into a dict (serde.py:244-245) -/
  env : String → ClsInfo

abbrev Res := Except Err (Val × List Ev)

/-- `path.replace(".", "/").replace("[", "/").replace("]", "")` (lazy.py:106) -/
def legacyBlobPath (path : String) : String :=
  String.ofList ((path.toList.map (fun c => if c = '.' then '/' else if c = '[' then '/' else c)).filter (· ≠ ']'))

/-- `LazyDeserializer.deserialize` for a Serializable class (lazy.py:93-122) -/
def lazyHook (path cls : String) : Val → Res
  | .str "<BLOB>" => .ok (.none, [.lazy path cls (legacyBlobPath path) true])
  | .str "<blob:pickle>" => .ok (.none, [.lazy path cls ("state." ++ blobName path ++ ".pickle") true])
  | .str "<blob:msgpack>" => .ok (.none, [.lazy path cls (blobFile path) false])
  | _ => .error .assertionError

/-- `range(version, ...)` needs an int -/
def Val.asRangeInt : Val → Except Err Int
  | .int i => .ok i
  | .bool b => .ok (if b then 1 else 0)
  | _ => .error .typeError

/-- `clz._apply_upgrades(state_dict=value, version=version)` with an arbitrary version value (versioned.py:37-45) -/
def VerInfo.upgradeAny (vi : VerInfo) (sd version : Val) : Except Err Val :=
  if vi.rules.all (fun e => e.1 < vi.version) then do vi.applyUpgrades sd (← version.asRangeInt)
  else .error .assertionError

/-- `VersionedDeserializer.deserialize` for a `Versioned` class (versioned.py:58-80): the value as mutated in place.
For a namedtuple with a `version` attribute `remove_field` returns None, which is what the rules are applied to, and the
value itself is kept. Simplification: other objects with a `version` attribute are not considered. -/
def versionHook (allowMissing : Bool) (vi : VerInfo) (v : Val) : Except Err Val :=
  match v with
  | .dict d =>
    match dget d "version" with
    | some .none | .none => if allowMissing then .ok (.dict (ddel d "version")) else .error .valueError
    | some ver => vi.upgradeAny (.dict (ddel d "version")) ver
  | .ntup _ kvs =>
    match dget kvs "version" with
    | some .none | .none => if allowMissing then .ok v else .error .valueError
    | some ver => do let _ ← vi.upgradeAny .none ver; return v
  | _ => if allowMissing then .ok v else .error .valueError

/-- `ScheduleDeserializer.deserialize` (hyperstate.py:422-445) on an `int`/`float` field; `none` when it does not apply.
Simplification: the entry into the registry is made afterwards, from the recorded events (Model/Load.lean). -/
def schedHook (e : Ext) (isInt : Bool) (path : String) : Val → Option Res
  | .str s =>
    if '@' ∈ s.toList then some (do
      let f ← e.schedAt0 s
      if isInt then return (.int (← f.toInt), [.sched path s true])
      else return (.flt f, [.sched path s false]))
    else .none
  | _ => .none

/-- `float(value)` for an int -/
def toFloat (i : Int) : Res := do return (.flt (← floatOfInt i), [])

/-- `float(value)` for a str (serde.py:184-185) -/
def strToFloat (e : Ext) (s : String) : Res :=
  match e.parseFloat s with
  | some f => .ok (.flt f, [])
  | .none => .error .valueError

/-- the str-to-int branch (serde.py:186-191) -/
def strToInt (e : Ext) (s : String) : Res :=
  match e.parseFloat s with
  | some f => do
    let i ← f.toInt
    if (Flt.fin i).eqv f then return (.int i, []) else throw .deserValue
  | .none => .error .valueError

/-- the first branches of `from_dict` for a class that is (`wi`, `wf`, `ws`) or a union that contains
`int`, `float`, `str` (serde.py:176-191), after the isinstance test; `none` when no branch applies. -/
def primBranches (e : Ext) (wi wf ws : Bool) (v : Val) : Except Err (Option (Val × List Ev)) :=
  match v with
  -- serde.py:176-179
  | .ntup n [] => if ws then .ok (some (.str n, [])) else .ok .none
  -- serde.py:180-181; a bool is an int
  | .int i => if wf then do return some (← toFloat i) else .ok .none
  | .bool b => if wf then do return some (← toFloat (if b then 1 else 0)) else .ok .none
  -- serde.py:182-183
  | .flt f => if wi then do
      let i ← f.toInt
      if (Flt.fin i).eqv f then return some (.int i, []) else return .none
    else .ok .none
  -- serde.py:184-191
  | .str s => if wf then do return some (← strToFloat e s)
    else if wi then do return some (← strToInt e s)
    else .ok .none
  | _ => .ok .none

/-- a comprehension over the elements of a list or tuple -/
def mapIdx (f : Nat → Val → Res) : Nat → List Val → Except Err (List Val × List Ev)
  | _, [] => .ok ([], [])
  | i, v :: vs => do
    let (w, es) ← f i v
    let (ws, es') ← mapIdx f (i + 1) vs
    return (w :: ws, es ++ es')

/-- a comprehension over the items of a dict -/
def mapItems (f : String → Val → Res) : List (String × Val) → Except Err (List (String × Val) × List Ev)
  | [] => .ok ([], [])
  | (k, v) :: kvs => do
    let (w, es) ← f k v
    let (ws, es') ← mapItems f kvs
    return ((k, w) :: ws, es ++ es')

/-- the loop over the items of the document (serde.py:257-277); `f` converts the value of a field, `none` when there is
no field of that name. Objects marked weak are set aside (serde.py:260-262); `_try_create_defaults` never uses them:
see `createDefault`. -/
def itemsLoop (f : String → Val → Option Res) (ignoreExtra : Bool) :
    List (String × Val) → Except Err (List (String × Val) × List Ev)
  | [] => .ok ([], [])
  | (k, v) :: kvs =>
    if k = NAME_KEY then itemsLoop f ignoreExtra kvs
    else if v.isWeak then itemsLoop f ignoreExtra kvs
    else match f k v with
      | .none => if ignoreExtra then itemsLoop f ignoreExtra kvs else .error .deserType
      | some r => do
        let (w, es) ← r
        let (ws, es') ← itemsLoop f ignoreExtra kvs
        return ((k, w) :: ws, es ++ es')

mutual
/-- `_try_create_defaults` (serde.py:305-348) for one field without default: a dataclass is constructed from its own
defaults, recursively; anything else is a missing value (TypeError).
The branch for weak references (serde.py:340-341) is never taken: in the outer call every entry of `weak_refs` contains
the mark, in the inner calls every field considered lacks a default. -/
def createDefault : PyTy → Option Val
  | .data n fs _ => match createFields fs with
    | some kvs => some (.inst n kvs)
    | .none => .none
  | _ => .none
termination_by structural x => x
def createFields : List Fld → Option (List (String × Val))
  | [] => some []
  | f :: fs => match createField f, createFields fs with
    | some kv, some kvs => some (kv :: kvs)
    | _, _ => .none
termination_by structural x => x
def createField : Fld → Option (String × Val)
  | .mk n _ (some d) => some (n, d)
  | .mk n t .none => match createDefault t with
    | some v => some (n, v)
    | .none => .none
termination_by structural x => x
end

/-- value of one field: given, default, or constructed from defaults (serde.py:278-281, 319-348) -/
def fieldValue (kwargs : List (String × Val)) (f : Fld) : Except Err Val :=
  match dget kwargs f.name with
  | some v => .ok v
  | .none => match f.dflt with
    | some d => .ok d
    | .none => match createDefault f.ty with
      | some v => .ok v
      | .none => .error .typeError

/-- `clz(**kwargs)` after `_try_create_defaults` (serde.py:278-281): the attributes in field order. -/
def fillFields (kwargs : List (String × Val)) : List Fld → Except Err (List (String × Val))
  | [] => .ok []
  | f :: fs => do
    let v ← fieldValue kwargs f
    let rest ← fillFields kwargs fs
    return ((f.name, v) :: rest)

/-- serde.py:244-253: the raw value as a dict -/
def asRawDict (c : DCfg) (v : Val) : Except Err (List (String × Val)) := do
  let v ← match v with
    | .inst cls kvs => do
      let r ← asdict { plainCfg with env := c.env } "" (.inst cls kvs)
      pure r.1
    | v => pure v
  match v with
  | .tup [] => return []
  | .ntup _ kvs => return kvs
  | .dict d => return d
  | _ => throw .deserValue

/-- first member whose value equals `v`: `clz(value)` for an enum (serde.py:285) -/
def enumByValue (cls : String) (v : Val) : List (String × Val) → Except Err Val
  | [] => .error .valueError
  | (n, w) :: ms => if pyEq v w then .ok (.enm cls n w) else enumByValue cls v ms

/-- `fpath=f"{fpath}.{field_name}" if fpath else field_name` (serde.py:276) -/
def fieldPath (fpath name : String) : String := if fpath = "" then name else fpath ++ "." ++ name

mutual
/-- `from_dict` (serde.py:140-302). Simplified: for a refused object with a class name the code builds a namedtuple to print it
(serde.py:210-212, 295-297), which raises a ValueError if a key is no field name for `namedtuple` (a keyword, or with a leading
underscore); here the error is then the one that was to be raised. -/
def fromDict (c : DCfg) : PyTy → Bool → String → Val → Res
  -- `clz == int`
  | .int, _, path, v => match schedHook c.ext true path v with
    | some r => r
    | .none => match v with
      | .int i => .ok (.int i, [])
      | .bool b => .ok (.bool b, [])
      | v => do match ← primBranches c.ext true false false v with
        | some r => return r
        | .none => throw .deserType
  -- `clz == float`
  | .float, _, path, v => match schedHook c.ext false path v with
    | some r => r
    | .none => match v with
      | .flt f => .ok (.flt f, [])
      | v => do match ← primBranches c.ext false true false v with
        | some r => return r
        | .none => throw .deserType
  -- `clz == str`
  | .str, _, _, v => match v with
    | .str s => .ok (.str s, [])
    | v => do match ← primBranches c.ext false false true v with
      | some r => return r
      | .none => throw .deserType
  -- `clz == bool`
  | .bool, _, _, v => match v with
    | .bool b => .ok (.bool b, [])
    | _ => .error .deserType
  -- `clz is type(None)`
  | .noneT, _, _, v => match v with
    | .none => .ok (.none, [])
    | _ => .error .deserType
  -- Optional: serde.py:150-154; Union: serde.py:165-168, 176-191, 192-215
  | .union as, ig, path, v =>
    if isOptionalArgs as then
      if v.isNone then .ok (.none, []) else fdHead c as ig path v
    else do
      match ← primBranches c.ext (as.any PyTy.isInt) (as.any PyTy.isFloat) (as.any PyTy.isStr) v with
      | some r => return r
      | .none =>
        match v with
        | .dict d =>
          match (dget d NAME_KEY).bind (fun n => fdNamed c as n ig path v) with
          | some r => r
          | .none => if as.any PyTy.hasArgs then throw .attributeError else throw .deserValue
        | .list _ => if as.any PyTy.hasArgs then throw .attributeError else throw .deserValue
        | _ => throw .deserValue
  -- serde.py:217-223
  | .list a, _, path, v => match v with
    | .list xs => do
      let (ys, es) ← mapIdx (fun i x => fromDict c a false (path ++ "[" ++ i.repr ++ "]") x) 0 xs
      return (.list ys, es)
    | _ => .error .deserType
  -- serde.py:224-232; a namedtuple is a tuple
  | .tuple as, _, path, v => match v with
    | .tup xs => do
      let (ys, es) ← mapIdx (fun i x => fdNth c as i (path ++ "[" ++ i.repr ++ "]") x) 0 xs
      return (.tup ys, es)
    | .ntup _ kvs => do
      let (ys, es) ← mapIdx (fun i x => fdNth c as i (path ++ "[" ++ i.repr ++ "]") x) 0 (kvs.map Prod.snd)
      return (.tup ys, es)
    | _ => .error .deserType
  -- serde.py:233-242
  | .dict _ b, _, path, v => match v with
    | .dict kvs => do
      let (kvs', es) ← mapItems (fun k x => fromDict c b false (path ++ "." ++ k) x) kvs
      return (.dict kvs', es)
    | _ => .error .deserType
  -- versioned.py:58-80, serde.py:174-175, 243-283
  | .data name fs ver, ig, path, v => do
    let v ← match ver with
      | some vi => versionHook c.allowMissing vi v
      | .none => pure v
    match v with
    | .inst cls kvs =>
      if cls = name then return (.inst cls kvs, [])
      else do
        let d ← asRawDict c (.inst cls kvs)
        let (kwargs, es) ← itemsLoop (fun k x => fdField c fs k (fieldPath path k) x) ig d
        let kvs ← fillFields kwargs fs
        return (.inst name kvs, es)
    | v => do
      let d ← asRawDict c v
      let (kwargs, es) ← itemsLoop (fun k x => fdField c fs k (fieldPath path k) x) ig d
      let kvs ← fillFields kwargs fs
      return (.inst name kvs, es)
  -- serde.py:174-175, 284-285
  | .enum cls ms, _, _, v => match v with
    | .enm cls' n w =>
      if cls' = cls then .ok (.enm cls' n w, []) else do return (← enumByValue cls v ms, [])
    | v => do return (← enumByValue cls v ms, [])
  -- serde.py:217-237 evaluate `List[...]`/`Tuple[...]` on the literal values; serde.py:286-294
  | .literal vals, _, _, v =>
    if vals.all c.ext.typeArgOk then
      let v := match v with | .ntup n [] => .str n | v => v
      if pyMem v vals then .ok (v, []) else .error .deserValue
    else .error .syntaxError
  -- lazy.py:93-122; without a LazyDeserializer: isinstance test, then DeserializeTypeError
  | .blob cls, _, path, v =>
    if c.file then lazyHook path cls v
    else match v with
      | .ser cls' _ => if cls' = cls then .ok (v, []) else .error .deserType
      | _ => .error .deserType
termination_by structural x => x
/-- `clz = clz.__args__[0]` -/
def fdHead (c : DCfg) : List PyTy → Bool → String → Val → Res
  | [], _, _, _ => .error .indexError
  | t :: _, ig, path, v => fromDict c t ig path v
termination_by structural x => x
/-- serde.py:195-197: the first alternative whose `__name__` equals the tag -/
def fdNamed (c : DCfg) : List PyTy → Val → Bool → String → Val → Option Res
  | [], _, _, _, _ => .none
  | t :: ts, n, ig, path, v =>
    if pyEq n (.str t.pyName) then some (fromDict c t ig path v) else fdNamed c ts n ig path v
termination_by structural x => x
/-- serde.py:230: `clz.__args__[i]` -/
def fdNth (c : DCfg) : List PyTy → Nat → String → Val → Res
  | [], _, _, _ => .error .indexError
  | t :: ts, i, path, v => match i with
    | 0 => fromDict c t false path v
    | i + 1 => fdNth c ts i path v
termination_by structural x => x
/-- serde.py:263-277: the field of this name -/
def fdField (c : DCfg) : List Fld → String → String → Val → Option Res
  | [], _, _, _ => .none
  | f :: fs, k, path, v => match fdFld c f k path v with
    | some r => some r
    | .none => fdField c fs k path v
termination_by structural x => x
def fdFld (c : DCfg) : Fld → String → String → Val → Option Res
  | .mk n t _, k, path, v => if n = k then some (fromDict c t false path v) else .none
termination_by structural x => x
end

end HS
