import Verif.Model.Schema
/-!
# Rewrite rules on schemas: `hyperstate/schema/rewrite_rule.py`, and `Versioned._apply_schema_upgrades`

The functions of the source mutate the schema in place; here they return the new schema. Simplification: no two places of a
schema share an object (true of what `load_schema` and `materialize_type` return).
-/
namespace HS

/-- `_unwrap_container_type` (schema/types.py:342-347) -/
def STy.unwrap : STy → STy
  | .list t => t.unwrap
  | .option t => t.unwrap
  | t => t

/-- a type whose unwrapped part has been changed in place -/
def STy.rewrap (s : STy) : STy → STy
  | .list t => .list (s.rewrap t)
  | .option t => .option (s.rewrap t)
  | _ => s

def SFld.setType (t : STy) : SFld → SFld
  | .mk n _ d h doc => .mk n t d h doc

/-- `_remove_schema` (rewrite_rule.py:236-250): the schema and the removed field -/
def removeSchema : STy → List String → Except Err (STy × Option SFld)
  | _, [] => .error .assertionError
  | s, [k] => match s with
    | .struct n fs v => match dget fs k with
      | some f => .ok (.struct n (ddel fs k) v, some f)
      | .none => .ok (s, .none)
    | _ => .ok (s, .none)
  | s, k :: k' :: ks => match s with
    | .struct n fs v => match dget fs k with
      | some f => do
        let (t', r) ← removeSchema f.type.unwrap (k' :: ks)
        return (.struct n (dset fs k (f.setType (t'.rewrap f.type))) v, r)
      | .none => .ok (s, .none)
    | _ => .ok (s, .none)

/-- the field created for a missing ancestor (rewrite_rule.py:259-264); `version` is 0 by default (schema/types.py:181) -/
def freshField (k : String) : SFld := .mk k (.struct "" [] (some 0)) .none false .none

/-- `_insert_schema` (rewrite_rule.py:253-268) -/
def insertSchema (field : SFld) : STy → List String → Except Err STy
  | _, [] => .error .assertionError
  | s, [k] => match s with
    | .struct n fs v => .ok (.struct n (dset fs k field) v)
    | _ => .ok s
  | s, k :: k' :: ks => match s with
    | .struct n fs v => do
      let f := (dget fs k).getD (freshField k)
      let t' ← insertSchema field f.type.unwrap (k' :: ks)
      return .struct n (dset fs k (f.setType (t'.rewrap f.type))) v
    | _ => .ok s

/-- `{k: self.map_fn(v) for k, v in variants.items()}` -/
def mapVariants (f : Val → Except Err Val) : List (String × Val) → Except Err (List (String × Val))
  | [] => .ok []
  | (k, v) :: vs => do
    let v' ← f v
    let vs' ← mapVariants f vs
    return (k, v') :: vs'

/-- `assert field is not None` -/
def assertField : Option SFld → Except Err SFld
  | some f => .ok f
  | .none => .error .assertionError

/-- `RewriteRule.apply_to_schema` of each rule. -/
def Rule.applySchema : Rule → STy → Except Err STy
  -- RenameField, rewrite_rule.py:33-36
  | .rename old new, s => do
    let (s, f) ← removeSchema s old
    let f ← assertField f
    insertSchema f s new
  -- DeleteField, rewrite_rule.py:47-48
  | .delete p, s => do
    let (s, _) ← removeSchema s p
    return s
  -- MapFieldValue, rewrite_rule.py:65-83
  | .mapValue p fn _, s => do
    let (s, f) ← removeSchema s p
    match ← assertField f with
    | .mk n (.enum en vs) d h doc => do
      let vs ← mapVariants fn vs
      insertSchema (.mk n (.enum en vs) d h doc) s p
    | f => insertSchema f s p
  -- ChangeDefault, rewrite_rule.py:100-104
  | .changeDefault p old new, s => do
    let (s, f) ← removeSchema s p
    match ← assertField f with
    | .mk n t d h doc => if pyEq d old then insertSchema (.mk n t new h doc) s p else throw .assertionError
  -- AddDefault, rewrite_rule.py:119-130
  | .addDefault p dflt, s => do
    let (s, f) ← removeSchema s p
    match f with
    | .none => insertSchema (.mk (p.getLastD "") .nothing .none false .none) s p
    | some (.mk n t _ _ doc) => insertSchema (.mk n t dflt true doc) s p
  -- CheckValue, rewrite_rule.py:146-153
  | .checkValue p allowed, s => do
    let (s, f) ← removeSchema s p
    match ← assertField f with
    | .mk n _ d h doc => insertSchema (.mk n (.literal allowed) d h doc) s p
  -- RejectValues, rewrite_rule.py:169-186: `schema` is asserted to be a Literal, but a field was just removed from it, so it
  -- is a Struct
  | .rejectValues p _, s => do
    let (_, f) ← removeSchema s p
    let _ ← assertField f
    throw .assertionError

def applyRulesSchema : List Rule → STy → Except Err STy
  | [], s => .ok s
  | r :: rs, s => do applyRulesSchema rs (← r.applySchema s)

/-- the loop over versions (versioned.py:49-51) -/
def upgradeSchemaLoop (vi : VerInfo) : List Int → STy → Except Err STy
  | [], s => .ok s
  | i :: is, s => do upgradeSchemaLoop vi is (← applyRulesSchema (vi.rulesAt i) s)

/-- `schema.version or 0` -/
def STy.versionOr0 : STy → Int
  | .struct _ _ (some v) => v
  | _ => 0

/-- `Versioned._apply_schema_upgrades` (versioned.py:47-51) -/
def VerInfo.applySchemaUpgrades (vi : VerInfo) (s : STy) : Except Err STy :=
  upgradeSchemaLoop vi (rangeI s.versionOr0 vi.version) s

end HS
