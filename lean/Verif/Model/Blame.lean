import Verif.Model.Serde
/-!
# The messages of failed loads (`from_dict`, `_try_create_defaults`; hyperstate/serde.py:140-348)

`fromDictM` is `from_dict` again, branch by branch, with the message that is raised beside the kind of the exception.
Only what the message says about the place is kept: the path, the value printed, the class printed; the wording and the
spelling of values and classes are left out. `Verif/Proofs/Blame.lean` proves that without the messages it is `fromDict`.
-/
namespace HS

/-- what a message says -/
inductive Msg where
  /-- "Failed to deserialize 'path': value is not a class" (serde.py:300-302) -/
  | notA (path : String) (shown : Val) (ty : PyTy)
  /-- "Expected path to be an int, got value" (serde.py:191) -/
  | notInt (path : String) (shown : Val)
  /-- "Expected path to be one of args, got value" (serde.py:213-215) -/
  | notOneOf (path : String) (shown : Val) (args : List PyTy)
  /-- "path must be one of values but got 'value'." (serde.py:291-293) -/
  | notLiteral (path : String) (shown : Val) (vals : List Val)
  /-- "class has no attribute name." (serde.py:268-270) -/
  | noAttr (cls name : String)
  /-- "'value' cannot be deserialized as 'class'." (serde.py:251-253) -/
  | notObj (shown : Val) (cls : String)
  /-- "Failed to initialize 'class': missing value for 'path', ..." (serde.py:343-348) -/
  | missing (cls : String) (paths : List String)
  /-- an exception of Python itself, of an assertion or of an upgrade rule: nothing is said about the place -/
  | other

abbrev Fail := Err × Msg

abbrev ResM := Except Fail (Val × List Ev)

/-- an exception and its message -/
def located (m : Err → Msg) : Except Err α → Except Fail α
  | .ok a => .ok a
  | .error e => .error (e, m e)

/-- an exception that says nothing about the place -/
def bare : Except Err α → Except Fail α := located (fun _ => .other)

/-- serde.py:210-212, 295-297: an object with a class name is printed as a namedtuple. Simplified: `namedtuple` raises a ValueError
if a key is a keyword or begins with an underscore. -/
def namedShown : Val → Val
  | .dict d => match dget d NAME_KEY with
    | some (.str n) => .ntup n (ddel d NAME_KEY)
    | _ => .dict d
  | v => v

/-- serde.py:295-299: and one without fields as its name -/
def shownAs (v : Val) : Val :=
  match namedShown v with
  | .ntup n [] => .str n
  | v => v

/-- serde.py:176-191: only the conversion of a text to an int has a message of its own (serde.py:191) -/
def primBranchesM (e : Ext) (wi wf ws : Bool) (path : String) (v : Val) : Except Fail (Option (Val × List Ev)) :=
  located (fun
    | .deserValue => .notInt path v
    | _ => .other) (primBranches e wi wf ws v)

/-- `mapIdx` with messages -/
def mapIdxM (f : Nat → Val → ResM) : Nat → List Val → Except Fail (List Val × List Ev)
  | _, [] => .ok ([], [])
  | i, v :: vs => do
    let (w, es) ← f i v
    let (ws, es') ← mapIdxM f (i + 1) vs
    return (w :: ws, es ++ es')

/-- `mapItems` with messages -/
def mapItemsM (f : String → Val → ResM) : List (String × Val) → Except Fail (List (String × Val) × List Ev)
  | [] => .ok ([], [])
  | (k, v) :: kvs => do
    let (w, es) ← f k v
    let (ws, es') ← mapItemsM f kvs
    return ((k, w) :: ws, es ++ es')

/-- `itemsLoop` with messages (serde.py:257-277) -/
def itemsLoopM (cls : String) (f : String → Val → Option ResM) (ignoreExtra : Bool) :
    List (String × Val) → Except Fail (List (String × Val) × List Ev)
  | [] => .ok ([], [])
  | (k, v) :: kvs =>
    if k = NAME_KEY then itemsLoopM cls f ignoreExtra kvs
    else if v.isWeak then itemsLoopM cls f ignoreExtra kvs
    else match f k v with
      | .none => if ignoreExtra then itemsLoopM cls f ignoreExtra kvs else .error (.deserType, .noAttr cls k)
      | some r => do
        let (w, es) ← r
        let (ws, es') ← itemsLoopM cls f ignoreExtra kvs
        return ((k, w) :: ws, es ++ es')

/-- serde.py:244-253 with the message -/
def asRawDictM (c : DCfg) (cls : String) (v : Val) : Except Fail (List (String × Val)) := do
  let v ← match v with
    | .inst cls kvs => do
      let r ← bare (asdict { plainCfg with env := c.env } "" (.inst cls kvs))
      pure r.1
    | v => pure v
  match v with
  | .tup [] => return []
  | .ntup _ kvs => return kvs
  | .dict d => return d
  | v => throw (.deserValue, .notObj v cls)

/-- what `_try_create_defaults` does with one field (serde.py:319-341) -/
inductive Made where
  /-- it has a default, or was constructed -/
  | fine
  /-- it is added to `still_missing` -/
  | leaf
  /-- the construction of its class failed -/
  | raised (m : Msg)

mutual
/-- a field without default of this type, at `path` (serde.py:321-339) -/
def makeTy (path : String) : PyTy → Made
  | .data n fs _ => match makeFields path fs with
    | .error m => .raised m
    | .ok [] => .fine
    | .ok ps => .raised (.missing n ps)
  | _ => .leaf
termination_by structural x => x
/-- the loop of `_try_create_defaults` (serde.py:318-341): the paths of `still_missing` (serde.py:344-345), or the
message raised meanwhile. -/
def makeFields (path : String) : List Fld → Except Msg (List String)
  | [] => .ok []
  | f :: fs => match makeField path f with
    | .fine => makeFields path fs
    | .leaf => match makeFields path fs with
      | .ok ps => .ok (fieldPath path f.name :: ps)
      | .error m => .error m
    | .raised m => .error m
termination_by structural x => x
def makeField (path : String) : Fld → Made
  | .mk _ _ (some _) => .fine
  | .mk n t .none => makeTy (fieldPath path n) t
termination_by structural x => x
end

/-- serde.py:278-283. `remaining_fields` is a Python `set` (serde.py:255), so the loop goes over it in an order that
depends on the hashes of the names: `order` arranges the fields that got no value. (The inner calls get a list.) -/
def fillFieldsM (order : List Fld → List Fld) (cls path : String) (kwargs : List (String × Val)) (fs : List Fld) :
    Except Fail (List (String × Val)) :=
  match makeFields path (order (fs.filter (fun f => !(dget kwargs f.name).isSome))) with
  | .error m => .error (.typeError, m)
  | .ok [] => bare (fillFields kwargs fs)
  | .ok ps => .error (.typeError, .missing cls ps)

mutual
/-- `from_dict` (serde.py:140-302) with messages. -/
def fromDictM (c : DCfg) (order : List Fld → List Fld) : PyTy → Bool → String → Val → ResM
  | .int, _, path, v => match schedHook c.ext true path v with
    | some r => bare r
    | .none => match v with
      | .int i => .ok (.int i, [])
      | .bool b => .ok (.bool b, [])
      | v => do match ← primBranchesM c.ext true false false path v with
        | some r => return r
        | .none => throw (.deserType, .notA path (shownAs v) .int)
  | .float, _, path, v => match schedHook c.ext false path v with
    | some r => bare r
    | .none => match v with
      | .flt f => .ok (.flt f, [])
      | v => do match ← primBranchesM c.ext false true false path v with
        | some r => return r
        | .none => throw (.deserType, .notA path (shownAs v) .float)
  | .str, _, path, v => match v with
    | .str s => .ok (.str s, [])
    | v => do match ← primBranchesM c.ext false false true path v with
      | some r => return r
      | .none => throw (.deserType, .notA path (shownAs v) .str)
  | .bool, _, path, v => match v with
    | .bool b => .ok (.bool b, [])
    | v => .error (.deserType, .notA path (shownAs v) .bool)
  | .noneT, _, path, v => match v with
    | .none => .ok (.none, [])
    | v => .error (.deserType, .notA path (shownAs v) .noneT)
  | .union as, ig, path, v =>
    if isOptionalArgs as then
      if v.isNone then .ok (.none, []) else fmHead c order as ig path v
    else do
      match ← primBranchesM c.ext (as.any PyTy.isInt) (as.any PyTy.isFloat) (as.any PyTy.isStr) path v with
      | some r => return r
      | .none =>
        match v with
        | .dict d =>
          match (dget d NAME_KEY).bind (fun n => fmNamed c order as n ig path v) with
          | some r => r
          | .none =>
            if as.any PyTy.hasArgs then throw (.attributeError, .other)
            else throw (.deserValue, .notOneOf path (namedShown v) as)
        | .list _ =>
          if as.any PyTy.hasArgs then throw (.attributeError, .other)
          else throw (.deserValue, .notOneOf path v as)
        | v => throw (.deserValue, .notOneOf path v as)
  | .list a, _, path, v => match v with
    | .list xs => do
      let (ys, es) ← mapIdxM (fun i x => fromDictM c order a false (path ++ "[" ++ i.repr ++ "]") x) 0 xs
      return (.list ys, es)
    | v => .error (.deserType, .notA path (shownAs v) (.list a))
  | .tuple as, _, path, v => match v with
    | .tup xs => do
      let (ys, es) ← mapIdxM (fun i x => fmNth c order as i (path ++ "[" ++ i.repr ++ "]") x) 0 xs
      return (.tup ys, es)
    | .ntup _ kvs => do
      let (ys, es) ← mapIdxM (fun i x => fmNth c order as i (path ++ "[" ++ i.repr ++ "]") x) 0 (kvs.map Prod.snd)
      return (.tup ys, es)
    | v => .error (.deserType, .notA path (shownAs v) (.tuple as))
  | .dict a b, _, path, v => match v with
    | .dict kvs => do
      let (kvs', es) ← mapItemsM (fun k x => fromDictM c order b false (path ++ "." ++ k) x) kvs
      return (.dict kvs', es)
    | v => .error (.deserType, .notA path (shownAs v) (.dict a b))
  | .data name fs ver, ig, path, v => do
    let v ← match ver with
      | some vi => bare (versionHook c.allowMissing vi v)
      | .none => pure v
    match v with
    | .inst cls kvs =>
      if cls = name then return (.inst cls kvs, [])
      else do
        let d ← asRawDictM c name (.inst cls kvs)
        let (kwargs, es) ← itemsLoopM name (fun k x => fmField c order fs k (fieldPath path k) x) ig d
        let kvs ← fillFieldsM order name path kwargs fs
        return (.inst name kvs, es)
    | v => do
      let d ← asRawDictM c name v
      let (kwargs, es) ← itemsLoopM name (fun k x => fmField c order fs k (fieldPath path k) x) ig d
      let kvs ← fillFieldsM order name path kwargs fs
      return (.inst name kvs, es)
  | .enum cls ms, _, _, v => match v with
    | .enm cls' n w =>
      if cls' = cls then .ok (.enm cls' n w, []) else do return (← bare (enumByValue cls v ms), [])
    | v => do return (← bare (enumByValue cls v ms), [])
  | .literal vals, _, path, v =>
    if vals.all c.ext.typeArgOk then
      let v := match v with | .ntup n [] => .str n | v => v
      if pyMem v vals then .ok (v, []) else .error (.deserValue, .notLiteral path v vals)
    else .error (.syntaxError, .other)
  | .blob cls, _, path, v =>
    if c.file then bare (lazyHook path cls v)
    else match v with
      | .ser cls' _ => if cls' = cls then .ok (v, []) else .error (.deserType, .notA path (shownAs v) (.blob cls))
      | v => .error (.deserType, .notA path (shownAs v) (.blob cls))
termination_by structural x => x
/-- `clz = clz.__args__[0]` (serde.py:154) -/
def fmHead (c : DCfg) (order : List Fld → List Fld) : List PyTy → Bool → String → Val → ResM
  | [], _, _, _ => .error (.indexError, .other)
  | t :: _, ig, path, v => fromDictM c order t ig path v
termination_by structural x => x
/-- serde.py:195-197 -/
def fmNamed (c : DCfg) (order : List Fld → List Fld) : List PyTy → Val → Bool → String → Val → Option ResM
  | [], _, _, _, _ => .none
  | t :: ts, n, ig, path, v =>
    if pyEq n (.str t.pyName) then some (fromDictM c order t ig path v) else fmNamed c order ts n ig path v
termination_by structural x => x
/-- serde.py:230 -/
def fmNth (c : DCfg) (order : List Fld → List Fld) : List PyTy → Nat → String → Val → ResM
  | [], _, _, _ => .error (.indexError, .other)
  | t :: ts, i, path, v => match i with
    | 0 => fromDictM c order t false path v
    | i + 1 => fmNth c order ts i path v
termination_by structural x => x
/-- serde.py:263-277 -/
def fmField (c : DCfg) (order : List Fld → List Fld) : List Fld → String → String → Val → Option ResM
  | [], _, _, _ => .none
  | f :: fs, k, path, v => match fmFld c order f k path v with
    | some r => some r
    | .none => fmField c order fs k path v
termination_by structural x => x
def fmFld (c : DCfg) (order : List Fld → List Fld) : Fld → String → String → Val → Option ResM
  | .mk n t _, k, path, v => if n = k then some (fromDictM c order t false path v) else .none
termination_by structural x => x
end

end HS
