import Verif.Model.Checker
/-!
# The printed report: `SchemaChecker.print_report`, `SchemaChange.emit_diagnostic`, and the commands `check-schema`, `upgrade-schema`

Colours are left out. `str` and `repr` of values and types are parameters. Sets of Literal values are lists, so the order in which
they are printed is fixed here, unlike in Python. The rules are the rule objects, not their `repr`.
-/
namespace HS

/-- how Python prints values (`str`, `repr`) and types -/
structure Show where
  str : Val → String
  repr : Val → String
  ty : STy → String

/-- `SchemaChange.field` (schema_change.py:42) -/
def Change.field : Change → List String
  | .fieldAdded p _ _ _ => p
  | .fieldRemoved p _ _ _ => p
  | .fieldRenamed p _ => p
  | .defaultChanged p _ _ => p
  | .defaultRemoved p _ => p
  | .typeChanged p _ _ => p
  | .variantValueChanged p _ _ _ _ => p
  | .variantRemoved p _ _ _ => p
  | .variantAdded p _ _ _ => p
  | .variantRenamed p _ _ _ => p
  | .literalAdded p _ => p
  | .literalRemoved p _ => p

/-- `sep.join(xs)` -/
def pyJoin (sep : String) : List String → String
  | [] => ""
  | [a] => a
  | a :: b :: as => a ++ sep ++ pyJoin sep (b :: as)

/-- `field_name` (schema_change.py:58-60) -/
def Change.fieldName (c : Change) : String := pyJoin "." c.field

/-- "value x" / "values x, y" (schema_change.py:240-243, 254-257) -/
def literalText (sh : Show) (verb name : String) : List Val → String
  | [v] => "value " ++ sh.str v ++ " " ++ verb ++ " literal type " ++ name
  | vs => "values " ++ pyJoin ", " (vs.map sh.repr) ++ " " ++ verb ++ " literal type " ++ name

/-- `diagnostic` of each class -/
def Change.diagnostic (sh : Show) (c : Change) : String :=
  match c with
  -- schema_change.py:96-97
  | .fieldAdded _ _ _ _ => "new field without default value"
  -- schema_change.py:106-107
  | .fieldRemoved _ _ _ _ => "field removed"
  -- schema_change.py:117-118
  | .fieldRenamed _ q => "field renamed to " ++ pyJoin "." q
  -- schema_change.py:129-130
  | .defaultChanged _ a b => "default value changed from " ++ sh.str a ++ " to " ++ sh.str b
  -- schema_change.py:140-141
  | .defaultRemoved _ a => "default value removed: " ++ sh.str a
  -- schema_change.py:157-158
  | .typeChanged _ a b => "type changed from " ++ sh.ty a ++ " to " ++ sh.ty b
  -- schema_change.py:185-186
  | .variantValueChanged _ e v a b => "value of " ++ e ++ "." ++ v ++ " changed from " ++ sh.str a ++ " to " ++ sh.str b
  -- schema_change.py:202-203
  | .variantRemoved _ e v _ => "variant " ++ v ++ " of " ++ e ++ " removed"
  -- schema_change.py:215-216
  | .variantAdded _ e v _ => "variant " ++ v ++ " of " ++ e ++ " added"
  -- schema_change.py:228-229: the new name twice
  | .variantRenamed _ e _ b => "variant " ++ b ++ " of " ++ e ++ " renamed to " ++ b
  -- schema_change.py:239-243
  | .literalAdded _ vs => literalText sh "added to" c.fieldName vs
  -- schema_change.py:253-257
  | .literalRemoved _ vs => literalText sh "removed from" c.fieldName vs

/-- a printed line: `{severity} {text}: {name}` -/
structure Line where
  sev : Severity
  text : String
  name : String
deriving DecidableEq

/-- `emit_diagnostic` (schema_change.py:62-73) -/
def Change.line (sh : Show) (c : Change) : Line := ⟨c.severity, c.diagnostic sh, c.fieldName⟩

/-- what `print_report` prints, in this order -/
structure Report where
  lines : List Line
  /-- "warn  schema changed but version identical" -/
  identical : Bool
  /-- "Schema compatible" or "Schema incompatible" -/
  compatible : Bool
  /-- "- add upgrade rules:", under which version, and the rules -/
  rules : Option (Option Int × List Rule)
  /-- "- bump version to ..." -/
  bump : Option Int

/-- `Struct.version` -/
def STy.version : STy → Option Int
  | .struct _ _ v => v
  | _ => .none

/-- `print_report` (schema_checker.py:66-92); `old` is the upgraded old schema -/
def printReport (sh : Show) (old new : STy) (cs : List Change) : Report :=
  let same := (severityOf cs).gt .info && decide (old.version = new.version)
  let lines := cs.map (Change.line sh)
  if severityOf cs = .info then ⟨lines, same, true, .none, .none⟩
  else
    ⟨lines, same, false,
     if (proposedFixes cs).isEmpty then .none else some (old.version, proposedFixes cs),
     if same then some (old.version.getD 0 + 1) else .none⟩

/-- `SchemaChecker(old, config_clz)` (schema_checker.py:36-57): the upgraded old schema, the new schema and the changes -/
def schemaChecker (lower : Char → String) (old : STy) (ty : PyTy) : Except Err (STy × STy × List Change) := do
  let (new, ver) ← classSchema ty
  match ver with
  | some vi => do
    let old ← vi.applySchemaUpgrades old
    let cs ← checkSchemas lower old new
    return (old, new, cs)
  | .none => throw .attributeError

/-- `check-schema` (schema_checker.py:446-452) for a file containing the schema `old` -/
def checkSchemaCmd (lower : Char → String) (sh : Show) (old : STy) (ty : PyTy) : Except Err Report := do
  if old.isStruct then
    let (old, new, cs) ← schemaChecker lower old ty
    return printReport sh old new cs
  else throw .assertionError

/-- what `upgrade-schema` does -/
inductive UpgradeOut where
  /-- a report is printed, the file is not written -/
  | refused (r : Report)
  /-- the schema is written to the file -/
  | written (s : STy)

/-- `upgrade-schema` (schema_checker.py:382-391, 437-441) for a file containing the schema `old` -/
def upgradeSchemaCmd (lower : Char → String) (sh : Show) (old : STy) (ty : PyTy) : Except Err UpgradeOut := do
  if old.isStruct then
    let (old, new, cs) ← schemaChecker lower old ty
    if (severityOf cs).ge .warn then return .refused (printReport sh old new cs)
    else return .written (← materialize ty)
  else throw .assertionError

end HS
