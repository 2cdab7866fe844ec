import Verif.Model.Py
/-!
# Rewrite rules on documents: `hyperstate/schema/rewrite_rule.py`, and `Versioned._apply_upgrades`

All functions of the source mutate the dict in place and return it; here they return the new document.
Simplification: values given in rules (defaults) are copied, so a rule object never changes by being applied. Model/Heap.lean has no such
copies; Proofs/Heap.lean relates the two (C89).
-/
namespace HS

/-- `_remove` (rewrite_rule.py:189-201). The second component is the removed value, if any (`ok` flag of the source). -/
def removePath : Val → List String → Except Err (Val × Option Val)
  | _, [] => .error .assertionError
  | sd, [k] =>
    match sd with
    | .dict d => match dget d k with
      | some v => .ok (.dict (ddel d k), some v)
      | .none => .ok (sd, .none)
    | _ => .ok (sd, .none)
  | sd, k :: k' :: ks => do
    if !(← pyIn k sd) then return (sd, .none)
    let child ← pyGetItem k sd
    if child.isNone then return (sd, .none)
    let (child', r) ← removePath child (k' :: ks)
    return (← pySetItem k child' sd, r)

/-- `_get` (rewrite_rule.py:204-212). -/
def getPath : Val → List String → Except Err (Option Val)
  | _, [] => .error .assertionError
  | sd, [k] => do
    if !(← pyIn k sd) then return .none
    return some (← pyGetItem k sd)
  | sd, k :: k' :: ks => do
    if !(← pyIn k sd) then return .none
    getPath (← pyGetItem k sd) (k' :: ks)

/-- the object created for a missing ancestor (rewrite_rule.py:224-227) -/
def freshObj (createNew : Bool) : Val :=
  if createNew then .dict [] else .dict [(WEAK_REF, .bool true)]

/-- `_insert` (rewrite_rule.py:215-233). -/
def insertPath (value : Val) (createNew : Bool) : Val → List String → Except Err Val
  | _, [] => .error .assertionError
  | sd, [k] => pySetItem k value sd
  | sd, k :: k' :: ks => do
    let sd := match sd with
      | .dict d => if dhas d k then sd else .dict (dset d k (freshObj createNew))
      | _ => sd
    let child ← pyGetItem k sd
    match child with
    | .dict dc =>
      let dc := if createNew && dhas dc WEAK_REF then ddel dc WEAK_REF else dc
      let child' ← insertPath value createNew (.dict dc) (k' :: ks)
      pySetItem k child' sd
    | _ => return sd

/-- The rewrite rules (rewrite_rule.py:21-186). Sets of values are lists. -/
inductive Rule where
  | rename (old new : List String)
  | delete (field : List String)
  | mapValue (field : List String) (fn : Val → Except Err Val) (rendered : Option String)
  | changeDefault (field : List String) (old new : Val)
  | addDefault (field : List String) (dflt : Val)
  | checkValue (field : List String) (allowed : List Val)
  | rejectValues (field : List String) (disallowed : List Val)

/-- `v in S` for a Python set: TypeError when `v` is unhashable. -/
def inSet (v : Val) (s : List Val) : Except Err Bool :=
  if hashable v then .ok (pyMem v s) else .error .typeError

/-- `isinstance(v, dict) and WEAK_REF in v` -/
def Val.isWeak : Val → Bool
  | .dict d => dhas d WEAK_REF
  | _ => false

/-- `RewriteRule.apply` of each rule. -/
def Rule.apply : Rule → Val → Except Err Val
  -- RenameField.apply, rewrite_rule.py:26-31
  | .rename old new, sd => do
    let (sd', r) ← removePath sd old
    match r with
    | some v => insertPath v true sd' new
    | .none => return sd'
  -- DeleteField.apply, rewrite_rule.py:43-45
  | .delete p, sd => do
    let (sd', _) ← removePath sd p
    return sd'
  -- MapFieldValue.apply, rewrite_rule.py:57-63
  | .mapValue p f _, sd => do
    let (sd', r) ← removePath sd p
    match r with
    | some v => insertPath (← f v) true sd' p
    | .none => return sd'
  -- ChangeDefault.apply, rewrite_rule.py:92-98
  | .changeDefault p old _, sd => do
    let (sd', r) ← removePath sd p
    match r with
    | some v => if v.isWeak then insertPath old false sd' p else insertPath v true sd' p
    | .none => insertPath old false sd' p
  -- AddDefault.apply, rewrite_rule.py:112-117
  | .addDefault p dflt, sd => do
    let (sd', r) ← removePath sd p
    match r with
    | some v => insertPath v false sd' p
    | .none => insertPath dflt false sd' p
  -- CheckValue.apply, rewrite_rule.py:138-144
  | .checkValue p allowed, sd => do
    match ← getPath sd p with
    | some v => if !(← inSet v allowed) then throw .valueError else return sd
    | .none => return sd
  -- RejectValues.apply, rewrite_rule.py:161-167 (it removes the value and does not put it back)
  | .rejectValues p disallowed, sd => do
    let (sd', r) ← removePath sd p
    match r with
    | some v => if (← inSet v disallowed) then throw .valueError else return sd'
    | .none => return sd'

/-- a list of rules in order (versioned.py:43-44) -/
def applyRules : List Rule → Val → Except Err Val
  | [], sd => .ok sd
  | r :: rs, sd => do applyRules rs (← r.apply sd)

/-- The class methods of a `Versioned` class: `version()` and `upgrade_rules()` (versioned.py:18-34). -/
structure VerInfo where
  version : Int
  rules : List (Int × List Rule)

/-- `clz.upgrade_rules().get(i, [])` -/
def VerInfo.rulesAt (vi : VerInfo) (i : Int) : List Rule :=
  match vi.rules.find? (fun e => e.1 == i) with
  | some e => e.2
  | .none => []

/-- `range(a, b)` -/
def rangeI (a b : Int) : List Int := (List.range (b - a).toNat).map (fun (n : Nat) => a + n)

/-- the loop over versions (versioned.py:42-44) -/
def upgradeLoop (vi : VerInfo) : List Int → Val → Except Err Val
  | [], sd => .ok sd
  | i :: is, sd => do upgradeLoop vi is (← applyRules (vi.rulesAt i) sd)

/-- `Versioned._apply_upgrades` (versioned.py:37-45). -/
def VerInfo.applyUpgrades (vi : VerInfo) (sd : Val) (version : Int) : Except Err Val :=
  if vi.rules.all (fun e => e.1 < vi.version) then upgradeLoop vi (rangeI version vi.version) sd
  else .error .assertionError

end HS
