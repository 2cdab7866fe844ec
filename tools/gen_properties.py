#!/usr/bin/env python3
"""Writes properties.jsonl. Edit PROPS, then run."""
import json, os
P = []
def p(title, statement, quantifier, why, anchors):
    P.append(dict(id=f"C{len(P)+1:02d}", title=title, statement=statement, quantifier=quantifier,
                  why_tests_cant=why, anchors=anchors))

# --- serde -----------------------------------------------------------------
p("dump/load round trip",
  "Loading what dumps wrote for a well-typed config object returns an equal object: same classes, same field values, same nesting, and the load records no schedule and no lazy field. Holds for int, float, str, bool, List, Tuple, Dict[str, _], Optional, Literal, nested dataclasses (versioned or not), tagged unions of dataclasses, and enums whose member names equal their values.",
  "every config class built from the supported constructors (any nesting depth, any number of fields) and every well-typed value of it",
  "types nest without bound and each new type/value combination takes a different branch of the loader; tests fix one class and one value",
  ["hyperstate/serde.py:asdict", "hyperstate/serde.py:from_dict", "hyperstate/hyperstate.py:dumps", "hyperstate/hyperstate.py:loads", "hyperstate/schema/versioned.py:VersionedSerializer"])
p("enum values round trip",
  "A config field holding an enum member is restored to the same member after dumps/loads, whatever the member's name and value.",
  "every enum class and every member of it",
  "the dumper writes the member's name and the loader looks a member up by value; a test only sees this if it happens to pick a member whose name and value differ",
  ["hyperstate/serde.py:asdict", "hyperstate/serde.py:from_dict"])
p("elide_defaults is lossless",
  "dumps(obj, elide_defaults=True) may leave out fields, but loading the result gives an object equal (Python ==) to loading the full dump.",
  "every supported config class with defaults of the declared types, every nan-free value",
  "whether a field is left out depends on a comparison of the serialized attribute with the raw default for every field at every level",
  ["hyperstate/hyperstate.py:ElideDefaults", "hyperstate/serde.py:from_dict", "hyperstate/serde.py:_try_create_defaults"])
p("loaded configs are well typed",
  "If load succeeds, every attribute of the returned object, at every depth, has the declared type (int fields hold ints, Literal fields one of the listed values, enum fields a member, tuples the declared arity, and so on); raw data of a wrong shape is rejected, never passed through.",
  "every supported class and every raw document whatsoever, well formed or not",
  "the space of malformed documents is unbounded and each type constructor has its own fall-through",
  ["hyperstate/serde.py:from_dict", "hyperstate/serde.py:_try_create_defaults"])
p("unknown fields are rejected, or ignored when asked",
  "Without ignore_extra_fields a document with a key that is not a field of the class is rejected with DeserializeTypeError; with ignore_extra_fields=True such keys are ignored and the result is the same as for the document without them, at every nesting level.",
  "every class, every document, every set of extra keys at every depth",
  "the flag must reach every recursive call; a test at the top level does not exercise nested levels",
  ["hyperstate/serde.py:from_dict", "hyperstate/hyperstate.py:_typed_load"])
p("omitted fields take their defaults",
  "A field missing from the document takes its declared default; a missing dataclass field without default is built from its own defaults, recursively; the load fails (naming the class) exactly when some missing leaf has no default. Fields that are present are unaffected by which others are missing.",
  "every class, every subset of present fields",
  "exponentially many presence patterns per class and unbounded nesting",
  ["hyperstate/serde.py:_try_create_defaults", "hyperstate/serde.py:from_dict"])
p("numbers are never silently changed",
  "An int field accepts a float or numeric string only when it denotes an integer, and then holds exactly that integer; a float field given an int holds that number; no accepted numeral silently becomes a different number.",
  "every integer, every float, every numeral",
  "the failing region (beyond 2^53) is outside any sampled range",
  ["hyperstate/serde.py:from_dict"])
p("Literal fields only hold listed values",
  "A Literal field loads exactly when the document value equals one of the listed values, and a listed value always loads.",
  "every list of literal values, every raw value",
  "the loader builds typing objects out of the literal values before it looks at them, which only fails for particular strings",
  ["hyperstate/serde.py:from_dict"])
p("union fields load the alternative that was written",
  "A field of type Union[A, B, ...] round-trips: the value is restored with the alternative it was written with, for dataclass and for primitive alternatives and for None.",
  "every list of alternatives, every value of one of them",
  "which branch fires depends on which primitive types occur among the alternatives",
  ["hyperstate/serde.py:from_dict"])
p("tuple arity is enforced",
  "A Tuple[T1,...,Tn] field only accepts tuples with exactly n elements.",
  "every n and every tuple length",
  "needs all length pairs",
  ["hyperstate/serde.py:from_dict"])
# --- overrides ---------------------------------------------------------------
p("an override wins, and touches nothing else",
  "For overrides whose paths name fields, the value found at each overridden path is the parsed override value (the last one when a path is given twice), every path not related to an overridden path keeps its document value, and missing or None intermediate objects are created.",
  "every document, every list of overrides, every pair of paths",
  "frame properties quantify over all other paths",
  ["hyperstate/hyperstate.py:OverridesDeserializer"])
p("unknown override paths are all reported",
  "load fails if any override names a field that does not exist in the config class: with FieldNotFoundError naming it when there is one, with FieldsNotFoundError naming all of them in order when there are several. An override that names an existing field (through nested dataclasses and Optional ones) is never reported.",
  "every class, every list of overrides",
  "any position and any number of wrong overrides",
  ["hyperstate/hyperstate.py:OverridesDeserializer", "hyperstate/schema/types.py:Struct.find_field"])
p("boolean overrides",
  "A boolean override is accepted only in the spellings True/true/1/t/T and False/false/0/f/F and yields that boolean; any other spelling is rejected.",
  "every string, every position in the override list",
  "the outcome for an unrecognised spelling depends on which overrides came before it",
  ["hyperstate/hyperstate.py:OverridesDeserializer"])
p("overrides beat the upgraded document",
  "When the document is of an older version, an override of a field of the current class still determines that field after the upgrade rules ran.",
  "every rule list, every document version, every override",
  "needs every combination of rule target and override path",
  ["hyperstate/hyperstate.py:_typed_load", "hyperstate/schema/versioned.py:VersionedDeserializer"])
p("an override reaches the config object",
  "For a class without version, load(cls, file, overrides=['a.b.c=v']) returns an object whose attribute a.b.c is the value that v denotes for the declared type of that field.",
  "every class, every path through nested dataclasses, every document, every value",
  "unbounded nesting",
  ["hyperstate/hyperstate.py:load", "hyperstate/hyperstate.py:OverridesDeserializer", "hyperstate/serde.py:from_dict"])
# --- versioning ----------------------------------------------------------------
p("upgrades run once each, in order, from the document's version",
  "Loading a document of version v runs exactly the rules registered for v, v+1, ..., current-1, in that order, each list in list order, each once; a document of the current version is not changed; upgrading v to w and then w to current equals upgrading v to current.",
  "every rule table, every pair of versions, every document",
  "histories of versions are unbounded",
  ["hyperstate/schema/versioned.py:Versioned._apply_upgrades", "hyperstate/schema/versioned.py:VersionedDeserializer"])
p("missing version field",
  "A document without version field for a versioned class is treated as version 0 (README). ",
  "every versioned class, every document without version field, every way of loading (load, loads, StateManager)",
  "the outcome differs between entry points",
  ["hyperstate/schema/versioned.py:VersionedDeserializer", "hyperstate/hyperstate.py:load", "hyperstate/hyperstate.py:StateManager._load_config", "README.md"])
p("RenameField moves one value and nothing else",
  "Applying RenameField(old, new) to a document holding a value at old yields a document holding that value at new and nothing at old; all unrelated paths are unchanged; a document without old is unchanged; renaming back restores every path.",
  "every document, every pair of paths (including one being a prefix of the other), every other path",
  "frame properties quantify over all other paths",
  ["hyperstate/schema/rewrite_rule.py:RenameField", "hyperstate/schema/rewrite_rule.py:_remove", "hyperstate/schema/rewrite_rule.py:_insert"])
p("DeleteField removes exactly that path",
  "After DeleteField(p) nothing is found at p or below it, every unrelated path is unchanged, a document without p is unchanged, and applying it twice is the same as once.",
  "every document, every path", "frame properties quantify over all other paths",
  ["hyperstate/schema/rewrite_rule.py:DeleteField", "hyperstate/schema/rewrite_rule.py:_remove"])
p("MapFieldValue changes exactly that value",
  "MapFieldValue(p, f) replaces the value v found at p by f(v), leaves unrelated paths alone, does not call f when p is absent, and fails exactly when f fails.",
  "every document, path and function", "frame properties quantify over all other paths",
  ["hyperstate/schema/rewrite_rule.py:MapFieldValue"])
p("ChangeDefault and AddDefault fill in only what is missing",
  "AddDefault/ChangeDefault never change a value that the document sets; when the field is missing and its parent objects are present the field gets the old default; objects created only to hold a default are marked weak and an ordinary insertion below them un-marks them.",
  "every document, path and default", "frame properties quantify over all other paths",
  ["hyperstate/schema/rewrite_rule.py:ChangeDefault", "hyperstate/schema/rewrite_rule.py:AddDefault", "hyperstate/schema/rewrite_rule.py:_insert"])
p("ChangeDefault keeps old configs meaning the same",
  "After a default is changed under a ChangeDefault(p, old, new) rule, loading an old document that does not set p yields old at p, also when the document omits the whole object that contains p.",
  "every class, every document, every depth of p", "depends on which ancestors of p are present",
  ["hyperstate/schema/rewrite_rule.py:ChangeDefault", "hyperstate/serde.py:_try_create_defaults"])
p("CheckValue and RejectValues only reject",
  "CheckValue/RejectValues raise ValueError exactly when the field is present with a value outside the allowed set / inside the disallowed set; otherwise the document is left unchanged.",
  "every document, path and set of values", "the unchanged part quantifies over the whole document",
  ["hyperstate/schema/rewrite_rule.py:CheckValue", "hyperstate/schema/rewrite_rule.py:RejectValues"])
p("dumps records the current version",
  "The dump of every versioned object, at any depth, starts with a version entry equal to the class's current version, followed by its fields in declaration order; non-versioned objects get no such entry.",
  "every object", "every nesting depth",
  ["hyperstate/schema/versioned.py:VersionedSerializer", "hyperstate/serde.py:asdict"])
# --- schema checker ----------------------------------------------------------------
p("a schema is compatible with itself",
  "Checking a class against its own dumped schema finds no change, proposes no fix and has severity INFO.",
  "every class of the types the checker supports", "unbounded nesting",
  ["hyperstate/schema/schema_checker.py:SchemaChecker._find_changes"])
p("severity is the worst change",
  "The reported severity is INFO when there are no changes and otherwise the maximum of the severities of the changes; it is INFO exactly when every change is INFO.",
  "every list of changes", "any length",
  ["hyperstate/schema/schema_checker.py:SchemaChecker.severity", "hyperstate/schema/schema_change.py:Severity"])
p("INFO means old configs still load",
  "If the checker reports severity INFO between an old schema and the current class, every document valid for the old schema loads under the current class, and every value it set that still has a field is preserved.",
  "every pair of schemas, every valid old document", "this is the checker's promise over all documents, tests check single pairs",
  ["hyperstate/schema/schema_checker.py:SchemaChecker", "hyperstate/schema/types.py:is_subtype", "hyperstate/serde.py:from_dict"])
p("every added or removed leaf is reported",
  "Before rename matching, FieldAdded is reported for exactly the leaf paths of the new schema missing in the old one and FieldRemoved for exactly the leaf paths that disappeared.",
  "every pair of nested schemas", "unbounded nesting",
  ["hyperstate/schema/schema_checker.py:SchemaChecker._find_changes", "hyperstate/schema/schema_checker.py:SchemaChecker._all_new", "hyperstate/schema/schema_checker.py:SchemaChecker._all_gone"])
p("rename matching terminates and is a matching",
  "The rename search always terminates; each rename replaces exactly one removal and one addition that it names, no addition or removal is used twice, all other changes are kept, and no pair above the threshold is left unmatched.",
  "every list of changes and every similarity function", "schedules of the greedy loop depend on all pairwise similarities",
  ["hyperstate/schema/schema_checker.py:SchemaChecker._find_renames"])
p("subtyping is sound for values",
  "If type A is reported to be a subtype of type B, every value valid for A loads as B; every type is a subtype of itself.",
  "every pair of types, every value", "unbounded nesting; variance errors only show for particular nested pairs",
  ["hyperstate/schema/types.py:is_subtype"])
p("name similarity is a well-behaved measure",
  "name_similarity is symmetric, lies between 0 and 1.1, equals 1.1 exactly for identical names and never divides by zero; the edit distance underneath is symmetric, zero exactly for equal names, at most the longer length, and satisfies the triangle inequality.",
  "every pair (triple) of names", "all strings",
  ["hyperstate/schema/schema_checker.py:name_similarity", "hyperstate/schema/schema_checker.py:levenshtein"])
p("schema files round trip",
  "Loading a schema file written by dump-schema gives back the schema (without docstrings), for every class the loader supports; for any other class the load fails rather than returning a different schema.",
  "every schema", "unbounded nesting",
  ["hyperstate/schema/types.py:schema_from_namedtuple", "hyperstate/schema/schema_checker.py:_dump_schema", "hyperstate/schema/types.py:load_schema"])
p("upgrade rules act the same way on schemas and documents",
  "If a document is valid for a schema and a rule can be applied to the schema, then applying the rule to the document gives a document valid for the rewritten schema.",
  "every schema, every rule, every valid document", "commutation over all documents",
  ["hyperstate/schema/rewrite_rule.py:RewriteRule"])
p("upgrade-schema never overwrites an incompatible schema",
  "upgrade-schema writes the schema file only when the severity after upgrades is INFO; otherwise the file is untouched.",
  "every schema, class and file content", "decision over all change lists",
  ["hyperstate/schema/schema_checker.py:_upgrade_schema"])
# --- schedules -----------------------------------------------------------------
p("schedule text means its points",
  "A schedule string 'x: y0@x0 join y1@x1 ...' is parsed to one segment per consecutive pair of points, with those end points, with the interpolation named last before its right point (lin if none), keyed on x; unknown joins and malformed points are rejected.",
  "every list of points and joins", "any number of points",
  ["hyperstate/schedule.py:_parse_schedule"])
p("schedule values stay between the neighbouring points",
  "For increasing knots the value at every x lies between the two values of the segment used, hence between the smallest and largest value of the schedule.",
  "every schedule with increasing knots, every x", "all real x",
  ["hyperstate/schedule.py:PiecewiseFunction.get_value", "hyperstate/schedule.py:INTERPOLATORS"])
p("schedule hits its points and is constant outside them",
  "For increasing knots the schedule's value at each knot is the value given there, before the first knot it is the first value and after the last knot it is the last value.",
  "every schedule with increasing knots, every interpolation, every x", "all schedules and all real x",
  ["hyperstate/schedule.py:PiecewiseFunction.get_value"])
p("schedule moves monotonically inside a segment",
  "Within one segment the value moves monotonically from the left value to the right value for lin and cos and is constant for step.",
  "every segment, every pair of points in it", "all real x",
  ["hyperstate/schedule.py:PiecewiseFunction.get_value", "hyperstate/schedule.py:INTERPOLATORS"])
p("schedules can be attached to any int/float field",
  "A schedule string in any int or float field of the config, at any depth, is registered under that field, applied to that field on every step and written back unchanged into checkpoints.",
  "every field path, every set of schedules", "depth is unbounded; registry bugs show only from depth three",
  ["hyperstate/hyperstate.py:ScheduleDeserializer", "hyperstate/hyperstate.py:ScheduleSerializer", "hyperstate/hyperstate.py:_apply_schedules"])
# --- StateManager --------------------------------------------------------------
p("a crash never loses the last acknowledged checkpoint",
  "With strictly increasing checkpoint keys, whatever the history of steps, crashes at any instant of a step (also half-way through copying or deleting a directory) and restarts: after a restart the manager restores a complete checkpoint, namely the one of the last step that returned or of the step that was interrupted.",
  "every history of steps, crash points and restarts", "crash points and histories are unbounded",
  ["hyperstate/hyperstate.py:StateManager.step", "hyperstate/hyperstate.py:StateManager.checkpoint", "hyperstate/hyperstate.py:atomic_move", "hyperstate/hyperstate.py:find_latest_checkpoint"])
p("step leaves a checkpoint of the current state",
  "After step() returns with a checkpoint directory configured, the directory contains a complete checkpoint of the state and config at that moment, whatever the checkpoint key's value compared with earlier calls.",
  "every history of calls and key values (equal, smaller, larger)", "depends on the relation between successive keys",
  ["hyperstate/hyperstate.py:StateManager.step"])
p("old checkpoints are cleaned up",
  "In a crash-free run with strictly increasing keys the directory holds exactly one 'latest' checkpoint after each step; in general at most one stale directory per crash is left behind.",
  "every history", "histories are unbounded",
  ["hyperstate/hyperstate.py:StateManager.step"])
p("the newest checkpoint is the one restored",
  "Of the checkpoints written by step the one with the largest key is restored, whatever the order in which the directory is listed.",
  "every set of keys, every listing order", "keys beyond the zero padding width are outside tests",
  ["hyperstate/hyperstate.py:find_latest_checkpoint", "hyperstate/hyperstate.py:StateManager.step"])
p("foreign and temporary directories do not interfere",
  "Directories that were not written by step (temporary copies '<name>.<id>.tmp', other directories) are never restored and never prevent the newest checkpoint from being restored.",
  "every directory content", "all names",
  ["hyperstate/hyperstate.py:find_latest_checkpoint", "hyperstate/hyperstate.py:StateManager.checkpoint_dir", "hyperstate/hyperstate.py:atomic_move"])
p("checkpoint restores exactly what was saved",
  "A StateManager opened on a checkpoint directory returns the config, the schedules and the state that were current when the checkpoint was written.",
  "every config/state class and value, every schedule set supported", "all values",
  ["hyperstate/hyperstate.py:StateManager.checkpoint", "hyperstate/hyperstate.py:StateManager._load_config", "hyperstate/hyperstate.py:StateManager._load_state"])
p("scheduled config fields always reflect the state",
  "Whenever the user reads manager.config, a scheduled field holds the schedule's value at the current state (as of the last step or load).",
  "every sequence of config/state reads, state changes and steps", "depends on the order of the first accesses",
  ["hyperstate/hyperstate.py:StateManager.config", "hyperstate/hyperstate.py:StateManager.state", "hyperstate/hyperstate.py:_apply_schedules"])
p("where config and state come from",
  "If the checkpoint directory holds a restorable checkpoint it is used for both config and state and init_path is ignored; otherwise config comes from init_path (file or checkpoint directory), state from init_path only when it is a directory, else from initial_state; overrides apply in all cases.",
  "every combination of arguments and directory contents", "all combinations",
  ["hyperstate/hyperstate.py:StateManager._load_config", "hyperstate/hyperstate.py:StateManager._load_state", "hyperstate/hyperstate.py:StateManager.checkpoint_dir"])
# --- lazy / blobs ---------------------------------------------------------------
p("lazy fields load on first access, at most once",
  "A lazy field's file is read only when the field is accessed, is read successfully at most once, and other fields never cause reads; a missing file only matters when that field is accessed.",
  "every sequence of attribute reads and writes", "histories are unbounded",
  ["hyperstate/lazy.py:Lazy.__getattribute__"])
p("lazy fields behave like ordinary attributes",
  "Reading a lazy field returns the last value assigned to it, or the stored value if none was assigned.",
  "every sequence of attribute reads and writes", "depends on whether an assignment precedes the first read",
  ["hyperstate/lazy.py:Lazy.__getattribute__"])
p("each Serializable is restored from the file it was written to",
  "For every Serializable in a state, the file name written by dump equals the file name the loader reads, different Serializables use different files, and accessing the field after restore gives back its value.",
  "every position of a Serializable in a state (field, nested dataclass, list element)", "positions are unbounded",
  ["hyperstate/lazy.py:LazySerializer", "hyperstate/lazy.py:LazyDeserializer", "hyperstate/lazy.py:Lazy.__getattribute__", "hyperstate/serde.py:asdict", "hyperstate/serde.py:from_dict"])
p("deleting the old checkpoint loses no unread lazy data",
  "After step() has removed the previous checkpoint directory, every lazy field that had not been read yet is still available with its stored value.",
  "every set of unread fields, every history of steps", "depends on the history",
  ["hyperstate/hyperstate.py:StateManager.step", "hyperstate/lazy.py:Lazy.__getattribute__", "hyperstate/serde.py:asdict"])
p("tensor encoding round trips",
  "Packing and unpacking a nested structure with numpy/torch arrays gives back the same structure, with every array's dtype, shape and contents.",
  "every nested structure and array", "unbounded nesting",
  ["hyperstate/msgpack_torch.py:encode", "hyperstate/msgpack_torch.py:decode"])
# --- help / CLI -------------------------------------------------------------------
p("help lists every overridable field under its override path",
  "find_fields returns every field reachable through nested dataclasses exactly once, and the path it returns for a field is a path that an override accepts and that names that field.",
  "every class, every query", "unbounded nesting",
  ["hyperstate/schema/help.py:find_fields", "hyperstate/schema/types.py:Struct.find_field"])
p("command line dispatch",
  "The CLI runs the user function exactly when no --hps-info is given, every hyperparameter argument contains '=', and (stateful) --config and --resume-from are not both given; the init path is --config if given, else --resume-from.",
  "every combination of arguments", "all argument lists",
  ["hyperstate/command.py:command", "hyperstate/command.py:stateful_command", "hyperstate/command.py:_check_overrides"])
p("upgrade-config preserves meaning",
  "Rewriting a config file with upgrade-config does not change what load returns for it, and running it a second time does not change the file's parsed content again.",
  "every class and document that loads", "all documents and rule tables",
  ["hyperstate/schema/schema_checker.py:_upgrade_config"])
p("help shows the closest fields",
  "hps-info QUERY shows the fields of the class in order of decreasing name similarity; the first field shown is a most similar one, and every field whose name equals the query (also up to underscores, or as initials) is shown.",
  "every class, every query", "all names and queries; the cut-off rule looks at the previous line only",
  ["hyperstate/schema/help.py:help", "hyperstate/schema/help.py:find_fields"])
p("failing command lines end with a nonzero exit code",
  "When the command line cannot be executed (unknown field, value of a wrong type, malformed hyperparameter, conflicting options) the user's function is not called, one error per bad override is printed and the exit code is nonzero; other exceptions are passed on unchanged.",
  "every command line and config class", "all argument combinations and all error kinds",
  ["hyperstate/command.py:command", "hyperstate/command.py:_check_overrides", "hyperstate/command.py:_print_config_exception"])
p("following the checker's advice makes the check pass",
  "When check-schema reports severity WARN or less severe changes with proposed rules, then after adding the proposed rules to the class and incrementing its version as advised, check-schema on the same schema file reports severity INFO.",
  "every stored schema and every class", "all pairs of schemas; the rules of a report are applied one after the other and may interact",
  ["hyperstate/schema/schema_checker.py:SchemaChecker.print_report", "hyperstate/schema/schema_checker.py:SchemaChecker.__init__", "hyperstate/schema/schema_change.py:SchemaChange.proposed_fix", "hyperstate/schema/rewrite_rule.py:RewriteRule.apply_to_schema"])
p("whatever a load returns can be saved and loaded again",
  "If load returns an object, whatever the document's version and with or without overrides, then dumping that object succeeds, loading the dump returns the same object, and dumping once more gives the same document.",
  "every class, document, override list and set of flags", "all documents and classes; no condition on the loaded object",
  ["hyperstate/hyperstate.py:load", "hyperstate/hyperstate.py:loads", "hyperstate/hyperstate.py:dump", "hyperstate/hyperstate.py:_typed_load", "hyperstate/hyperstate.py:_typed_dump"])
p("config_dict mirrors the config",
  "config_dict() returns plain data of the same shape as the current config: a dict with exactly the fields of each (nested) dataclass, plus its version if it has one, in declaration order, with enum members by name; and from_dict of it gives back the config.",
  "every manager and config", "all configs at any nesting",
  ["hyperstate/hyperstate.py:StateManager.config_dict", "hyperstate/serde.py:asdict", "hyperstate/serde.py:from_dict"])
p("checkpoint(dir) and init_path=dir are inverse",
  "After checkpoint(dir), a new manager started with init_path=dir has the same config, the same schedules and the same state fields; and checkpoint(dir) changes nothing that can be observed of the manager or of its checkpoint directory.",
  "every history of operations before the checkpoint", "unbounded histories, all configs and states",
  ["hyperstate/hyperstate.py:StateManager.checkpoint", "hyperstate/hyperstate.py:StateManager.__init__", "hyperstate/hyperstate.py:StateManager._load_config", "hyperstate/hyperstate.py:StateManager._load_state"])
p("pickled blobs are not read unless allowed",
  "Unless reading pickles was enabled explicitly, no access to a field of a lazily loaded object interprets a pickled blob file: the access fails with RuntimeError (FileNotFoundError if the file is missing), and the contents of such files have no influence on any result.",
  "every loaded object, every store, every sequence of accesses", "all documents, all blob contents and access orders; non-interference",
  ["hyperstate/lazy.py:Lazy.__getattribute__", "hyperstate/lazy.py:LazyDeserializer"])
p("upgrade-config on several files",
  "upgrade-config with several files treats each file as if it were the only one, up to the first failure; files after the failure and files not named are untouched, --dry-run writes nothing, and the order of distinct files does not matter when all succeed.",
  "every store and every list of files", "unbounded lists of files, failures at any position",
  ["hyperstate/schema/schema_checker.py:upgrade_config", "hyperstate/schema/schema_checker.py:_upgrade_config"])
p("only scheduled fields of the config ever change",
  "Whatever is done with a manager (reading config and state, assigning to the state, checkpointing, stepping), the config it returns has the value it was loaded with in every field without a schedule, no field appears or disappears, and the set of schedules stays as loaded; a config without schedules never changes.",
  "every history of operations, every config class, document, override list and checkpoint directory", "unbounded histories; schedules are applied in place on a shared object",
  ["hyperstate/hyperstate.py:StateManager._apply_schedules", "hyperstate/hyperstate.py:_apply_schedules", "hyperstate/hyperstate.py:StateManager.config", "hyperstate/hyperstate.py:StateManager.step"])
p("a scheduled field stays within the range of its schedule and settles at its final value",
  "At any time a field with a schedule holds a value between the smallest and the largest value of its points (an integer if the field is an int), and after a step at a state past the last point it holds exactly the final value until the next step.",
  "every history of operations, every schedule", "unbounded histories; all schedules and state values",
  ["hyperstate/hyperstate.py:_apply_schedules", "hyperstate/schedule.py:PiecewiseFunction.get_value", "hyperstate/hyperstate.py:StateManager.step"])
p("a proposed ChangeDefault keeps the meaning of old configs",
  "When a field's default changes, the schema checker proposes a ChangeDefault rule whose old value is what the schema recorded for the old default (an enum member by its value). With the proposed rules in place, an old config that leaves the field out loads in the new version of the class with the old default in that field: the same value that the old version of the class gives.",
  "every pair of versions of a class, every field at any depth, every old document", "all schemas, enum classes, paths and documents; the recorded default goes through the schema, the rule and the loader",
  ["hyperstate/schema/types.py:materialize_type", "hyperstate/schema/schema_change.py:DefaultValueChanged", "hyperstate/schema/rewrite_rule.py:ChangeDefault", "hyperstate/serde.py:from_dict"])

p("a proposed RenameField keeps the values of old configs",
  "When the schema checker reports a renamed field and the proposed rules are added for the old version, an old config that sets the field loads in the new version of the class with the value it gives, read as the new type (the same value if the type is the same); an old config that leaves the field out gets defaults that are equal.",
  "every pair of versions of a class, every reported rename between fields at any depth, every old document", "all schemas, paths and documents; the report, the rule and two loads have to fit together",
  ["hyperstate/schema/schema_checker.py:_find_renames", "hyperstate/schema/schema_change.py:FieldRenamed", "hyperstate/schema/rewrite_rule.py:RenameField", "hyperstate/serde.py:from_dict"])
p("the place of a value in a document does not matter for what it loads to",
  "from_dict gives the same value or fails with the same error for every fpath; only the recorded schedules and blob files depend on it.",
  "every type, every value, every two paths", "all types and values, nested arbitrarily",
  ["hyperstate/serde.py:from_dict", "hyperstate/lazy.py:LazyDeserializer", "hyperstate/hyperstate.py:ScheduleDeserializer"])

p("the report of check-schema",
  "check-schema prints one line per change, in order, with its severity and the dotted name of its field; it says compatible exactly if all lines are info, which is exactly when upgrade-schema replaces the file (otherwise upgrade-schema prints the same report and writes nothing); if incompatible, it lists under the file's version the proposed fix of every warning, and advises a bump to the next version exactly if file and class have the same version. The text of a line says what changed.",
  "every schema file, every config class with any upgrade rules", "all pairs of schemas and rule lists",
  ["hyperstate/schema/schema_checker.py:SchemaChecker.print_report", "hyperstate/schema/schema_checker.py:check_schema", "hyperstate/schema/schema_checker.py:_upgrade_schema", "hyperstate/schema/schema_change.py:SchemaChange.emit_diagnostic"])
p("the listing of all hyperparameters can be read back",
  "--hps-info without a query prints a listing which, read by its indentation, gives the path of every field of the config class and of the classes nested in it (also inside lists and Optionals), each once and nothing else, with the default of each field that has one and no fields of its own.",
  "every config class", "all classes, nested arbitrarily",
  ["hyperstate/schema/help.py:help", "hyperstate/schema/help.py:print_schema", "hyperstate/schema/types.py:_unwrap_container_type"])

p("after an exception the manager is consistent",
  "A caller may catch an exception from config, an attribute of state, config_dict, checkpoint or step and go on. Then the config still has the loaded value in every field without a schedule and a value of its schedule in every other; attributes of the state that were loaded or assigned keep their values; a failed load of the config changes nothing; the checkpoint directory and the last checkpoint are unchanged (only a step whose previous checkpoint has disappeared has written the new one); the next step that returns brings all schedules up to date.",
  "every history of operations in which any may raise, any state of the directory", "unbounded histories, every place at which an operation can raise",
  ["hyperstate/hyperstate.py:StateManager.config", "hyperstate/hyperstate.py:StateManager.state", "hyperstate/hyperstate.py:StateManager.step", "hyperstate/hyperstate.py:_apply_schedules"])

p("training that is interrupted and resumed any number of times loses at most the interrupted step",
  "With a checkpoint directory, and a checkpoint key that grows with every step, processes may be started and killed at any time, also after any number of the effects of a step on the directory, and operations may raise and be caught. At every moment a StateManager started on the directory gives either the config, its schedules and all fields of the state as they were when the last step returned (or was restored), or as they were in the step that was interrupted since; never anything else, and never nothing once a step has returned. A step that raises leaves the directory as it was.",
  "every history of starts, operations, steps, exceptions and kills, of any length, over every directory without checkpoints", "unbounded histories, a kill between any two effects, repeatedly",
  ["hyperstate/hyperstate.py:StateManager.step", "hyperstate/hyperstate.py:StateManager.__init__", "hyperstate/hyperstate.py:find_latest_checkpoint", "hyperstate/hyperstate.py:StateManager.checkpoint", "hyperstate/hyperstate.py:StateManager._load_config"])

p("giving the same overrides again after a restart changes nothing",
  "A StateManager that restores a checkpoint applies its overrides to the saved config. If they are the ones the config was first loaded with, the restored config is the one that was saved: a field with an overridden plain value has it, a schedule that an override installed is kept and not evaluated again from its beginning, and all other fields are as saved.",
  "every config class, config file, list of overrides, history of operations before the checkpoint", "all overrides and configs, unbounded histories between the two loads",
  ["hyperstate/hyperstate.py:StateManager.config", "hyperstate/hyperstate.py:OverridesDeserializer", "hyperstate/hyperstate.py:ScheduleDeserializer", "hyperstate/hyperstate.py:ScheduleSerializer"])

p("schedules computed in floating point are close to the schedules that were written",
  "With every operation rounded to binary64, a schedule with increasing knots still has a value everywhere; at each left knot, before the first and after the last point it is exactly the value given; elsewhere it differs from the exact value by at most a few units of roundoff of the larger end value, and stays within the range of the two end values up to the same error. A segment that goes down to 0 stays in its range and never goes up, without any error. An int field is set to the integer part of the exact value.",
  "every schedule with increasing knots, every x, every monotone rounding with a relative error bound and a small absolute error near zero (binary64 is one); overflow for numbers up to 2^1022", "all floating-point numbers; the failing inputs differ by one unit in the last place",
  ["hyperstate/schedule.py:PiecewiseFunction.get_value", "hyperstate/schedule.py:INTERPOLATORS", "hyperstate/hyperstate.py:ScheduleDeserializer"])

p("values in the deserialization context reach the code that loads the state",
  "A value set with set_deserialize_ctx on a StateManager is passed to initial_state, and to the deserialize method of every field of a restored state that is read for the first time after it was set; of several values for a key the last one counts. A value set on the state object itself is passed to the deserialize method of every field read for the first time afterwards. Setting values has no other effect: a field that was read keeps its value, and no other operation has another outcome.",
  "every history of operations, calls of set_deserialize_ctx on manager and state and exceptions, every deserialize method", "unbounded histories, every position of the calls relative to the first access of state and of each field",
  ["hyperstate/hyperstate.py:StateManager.set_deserialize_ctx", "hyperstate/hyperstate.py:StateManager.state", "hyperstate/hyperstate.py:StateManager._load_state", "hyperstate/lazy.py:Lazy.set_deserialize_ctx", "hyperstate/lazy.py:Lazy.__getattribute__"])

p("checkpoint_dir can be changed while training",
  "checkpoint_dir may be assigned any number of times, to any directory or None, between steps. The checkpoint of the last step that returned is complete in the directory it was written to at every moment, also during the next step until that one's checkpoint is complete, whatever is killed when. The next step writes to the directory assigned last, and a StateManager started there restores that step; without a directory a step touches nothing. Nothing but temporary copies, the new checkpoint and the manager's own previous one is written or removed.",
  "every history of starts, assignments, steps, exceptions and kills over any number of directories with any contents", "unbounded histories, all directory contents, a kill between any two effects",
  ["hyperstate/hyperstate.py:StateManager.checkpoint_dir", "hyperstate/hyperstate.py:StateManager.step", "hyperstate/hyperstate.py:find_latest_checkpoint", "hyperstate/hyperstate.py:StateManager.checkpoint"])

p("another process that reads the checkpoints of a training process sees one checkpoint",
  "A process opens a StateManager on the checkpoint directory of a process that is training there (with growing keys of at most 12 characters), and reads the config and fields of the state, or writes them elsewhere with checkpoint(dir), while the trainer makes steps, is killed and restarted. Whatever the moments of the reads, either one of them raises FileNotFoundError, or all of them give what they would have given if the trainer had stopped when the directory was opened; never parts of two checkpoints. The trainer's directory is not changed by the reads.",
  "every history of the trainer, every moment of it for opening and for each read, every sequence of reads, every config and state class", "interleavings of two processes, unbounded histories",
  ["hyperstate/hyperstate.py:StateManager.config", "hyperstate/hyperstate.py:StateManager.state", "hyperstate/hyperstate.py:StateManager.step", "hyperstate/hyperstate.py:atomic_move", "hyperstate/lazy.py:Lazy.__getattribute__"])

p("checkpoint_dir can be assigned after the StateManager was created",
  "A StateManager created without checkpoint_dir, to which a directory is assigned later, behaves like one that was given the directory at construction: if the directory has no checkpoint, whatever was read or assigned to the state in between; if it has one, config and state are restored from it.",
  "every config and state class, init_path, overrides, history of operations before the assignment, contents of the directory", "unbounded histories before the assignment, all directories",
  ["hyperstate/hyperstate.py:StateManager.checkpoint_dir", "hyperstate/hyperstate.py:StateManager.config", "hyperstate/hyperstate.py:StateManager.state", "hyperstate/hyperstate.py:StateManager.step"])

p("several processes that use the same checkpoint directory do not lose checkpoints",
  "Any number of processes have a StateManager with the same checkpoint_dir (for example the processes of a distributed training) and call step, each with increasing keys, interleaved in any way, while processes are killed and new ones are started. Every call of step returns. At every moment, if some call has returned, a StateManager opened on the directory finds a complete checkpoint that was passed to step by one of the processes, with a key at least as large as that of every call that has returned; what it finds never gets older.",
  "any number of processes, every interleaving between effects on the directory, every contents, rename or copy across file systems", "interleavings of any number of processes, kills between any two effects",
  ["hyperstate/hyperstate.py:StateManager.step", "hyperstate/hyperstate.py:StateManager.checkpoint", "hyperstate/hyperstate.py:StateManager.checkpoint_dir", "hyperstate/hyperstate.py:atomic_move", "hyperstate/hyperstate.py:find_latest_checkpoint"])

p("a section of a config can have a versioned class of its own",
  "A field of a config (reached through unversioned classes, possibly Optional) may have a Versioned class. On load such a section is upgraded by the rules of its class from the version given in the section, after the rules of the config itself, and then loads like a file of that class; a section may be left out and then has its default, also when some of its fields are overridden; the schema checker takes the rules of the section's class into account.",
  "every config class, section path, section class with any rules, document, override", "all classes and rules, all documents and overrides",
  ["hyperstate/schema/versioned.py:VersionedDeserializer", "hyperstate/schema/versioned.py:Versioned", "hyperstate/serde.py:from_dict", "hyperstate/hyperstate.py:OverridesDeserializer", "hyperstate/hyperstate.py:load", "hyperstate/schema/schema_checker.py:SchemaChecker"])

p("a config or checkpoint can be edited by hand",
  "If in a config file, or in the config or state file of a checkpoint, that loads, one value is replaced by another value that the declared type of that field accepts, the edited file is accepted and gives the config (state) of before with that field set to the new value; no other field is different. (Schedules more than two fields deep can make the load fail afterwards, see the property on schedules being followed.)",
  "every config class, field path through nested (optional) classes, document, old and new value, loader", "all classes, documents, paths and values; that nothing else changes",
  ["hyperstate/serde.py:from_dict", "hyperstate/hyperstate.py:_typed_load", "hyperstate/hyperstate.py:StateManager._load_config", "hyperstate/hyperstate.py:StateManager._load_state", "hyperstate/schema/versioned.py:VersionedDeserializer"])

p("the order of the entries of a config file does not matter",
  "If the entries of the objects and dicts in a config file or state file are written in another order, at any depth, the file loads if it loaded before, and the two results are equal: the same attributes with the same values (dicts may be ordered differently). This holds for versioned classes with upgrade rules and with overrides as well.",
  "every type, document, reordering at any depth, upgrade rules, overrides, loader", "all documents and all permutations of their entries, at all levels",
  ["hyperstate/serde.py:from_dict", "hyperstate/hyperstate.py:_typed_load", "hyperstate/hyperstate.py:OverridesDeserializer", "hyperstate/hyperstate.py:ScheduleDeserializer", "hyperstate/schema/rewrite_rule.py"])

p("a proposed default gives old configs a value that the new class accepts",
  "When the checker reports a new Optional or List field without default, or a default that was removed, and its proposed rules are adopted for the old version, every config file of the old version that leaves the field out stands for None, the empty list, or the old default there, in the new class. This should hold also for files that leave out the whole object around the field.",
  "every pair of class versions, path of a field through nested classes, report and the rules proposed for it, config file of the old version, loader", "all classes and documents; the checker, the rewrite rules and the loader together",
  ["hyperstate/schema/schema_change.py:FieldAdded", "hyperstate/schema/schema_change.py:DefaultValueRemoved", "hyperstate/schema/rewrite_rule.py:AddDefault", "hyperstate/serde.py:from_dict"])

p("help shows the description that a class gives for its field",
  "If the docstring of a config class, or of a class it inherits from, describes a field, help shows this description on the line of the field, after its type and default; if several of them describe it, that of the most derived class counts. If none does, no description is shown.",
  "every class hierarchy, with any number of base classes at every level, every docstring contents, field at any depth", "all hierarchies and all assignments of descriptions to classes",
  ["hyperstate/schema/types.py:_find_all_field_docs", "hyperstate/schema/types.py:materialize_type", "hyperstate/schema/help.py:help", "hyperstate/schema/help.py:print_schema"])

p("what help prints can be read back",
  "Reading the output of help without a query by its indentation, each line up to the first colon, gives exactly the paths of the fields of the config class and of the classes nested in it, each once. In the output of help for a query, each line that is not indented has before its first colon the dotted path of a field that the search shows, in the order of the ranking, and each indented line is about a field of the section above it. The rest of each line shows type, default and description of its field.",
  "every config class (nested to any depth, also in lists and Optionals), query, descriptions, way of writing types and values", "all classes and queries; that no line is ambiguous or missing",
  ["hyperstate/schema/help.py:help", "hyperstate/schema/help.py:print_schema", "hyperstate/schema/help.py:find_fields"])

p("a printed type tells which type it is",
  "help and the report of changes print two types in the same way only if they are the same type: the same primitive types, containers, enum variants and Literal values, in the same places. So a line of the report about a changed type shows two different texts, and two config classes for which help prints the same output have the same fields with the same types, so that they accept the same files.",
  "every pair of types, nested to any depth, class names and Literal values; every pair of config classes and report", "all types: the text has no ambiguous brackets, separators or orders",
  ["hyperstate/schema/types.py:Primitive", "hyperstate/schema/types.py:Tuple", "hyperstate/schema/types.py:Literal", "hyperstate/schema/types.py:Struct", "hyperstate/schema/help.py:print_schema", "hyperstate/schema/schema_change.py:TypeChanged"])

p("the place that the message of a failed load names",
  "If from_dict fails with a message that names the place of a value, there is a value at this place in the (upgraded) document; everything before it in the lists and objects around it loads; the message prints this value and the type declared for it; the type refuses this value; and no document with this value at this place loads, whatever else is in it. The text of the place determines the place, unless a key on the way has a dot or a bracket. If the message names an unknown field or a value that is no object, the class is the one declared for the first value that fails.",
  "every type, every document, every set order, every message", "the place is put together on the way down through arbitrarily nested types; a test sees a few documents",
  ["hyperstate/serde.py:from_dict", "hyperstate/schema/versioned.py:VersionedDeserializer"])
p("the message about missing values",
  "If a load fails because values are missing, the message lists, with their places, exactly the fields of the named class that have no default and are no dataclasses; this class is constructed for an object in the document that gives no value for it or for the section around it; no document loads in which an object at this place lacks the value. Whether the load fails does not depend on the order of the set of missing fields.",
  "every type, every document, every order of the set", "the order of a Python set of strings differs from run to run; all nestings of classes without default",
  ["hyperstate/serde.py:_try_create_defaults", "hyperstate/serde.py:from_dict"])

p("what a config file loads as does not depend on what was loaded before",
  "When a process loads several config files of a versioned class one after the other, each is upgraded as if it were the only one: the dicts that rules put into a document or change in it are not shared with the rules or with other documents, whatever was loaded before and whether those loads failed.",
  "every class with upgrade rules, every sequence of documents, rules created by each call of upgrade_rules or once", "sequences of loads in one process; depends on which dict objects are shared",
  ["hyperstate/schema/rewrite_rule.py:AddDefault", "hyperstate/schema/rewrite_rule.py:ChangeDefault", "hyperstate/schema/rewrite_rule.py:_insert", "hyperstate/schema/versioned.py:Versioned._apply_upgrades", "hyperstate/schema/versioned.py:VersionedDeserializer"])

p("a run is resumed with a compatibly changed config class",
  "Between two processes of a run the config class is changed, and check-schema reports only changes of severity INFO. Then the next process restores the checkpoint with the new class: every field of the state is as it was, every value of the config that the checkpoint holds is kept, and the same fields follow the same schedules and hold their values for the restored state.",
  "every pair of definitions of the class, every history of processes with crashes, every checkpoint", "needs every compatible change of a class combined with every history of a run; involves the checker, the loader, schedules and the manager",
  ["hyperstate/hyperstate.py:StateManager.__init__", "hyperstate/hyperstate.py:StateManager.state", "hyperstate/hyperstate.py:_apply_schedules", "hyperstate/schema/schema_checker.py:SchemaChecker", "hyperstate/serde.py:from_dict"])

p("a run that starts from pickled fields",
  "A run whose state was saved by an old version, with pickled fields, goes on as follows. If UNSAFE_DESERIALIZE_PICKLE is not set and the state class is lazy, no checkpoint is ever written: every call of checkpoint raises, every step that would write one raises, and nothing is added to the checkpoint directory, whatever is assigned to the field. If it is set until the first step has returned, later processes restore what was saved whether it is set or not, however they were interrupted.",
  "every history of operations with and without exceptions, every history of processes with crashes, every state class", "all interleavings of reads, assignments, steps, restarts; that no pickle is left in any checkpoint that was written",
  ["hyperstate/lazy.py:Lazy.__getattribute__", "hyperstate/hyperstate.py:StateManager.step", "hyperstate/hyperstate.py:StateManager.checkpoint", "hyperstate/serde.py:asdict"])

p("values that the user assigns to the config",
  "The config object is the user's: a value assigned to a field of manager.config that has no schedule stays there through reads, assignments to the state and to other fields, checkpoints and steps, also if these raise; it is saved, and a manager that is started on the directory has it again. An assignment changes no other field. An assignment to a field with a schedule lasts until the next step, which sets the field to the value of the schedule; the schedule is saved, not the value. initial_state gets the config with the assigned values.",
  "every config class, every history of operations and assignments on one manager (with exceptions), every value of the declared type; for the restart any history of processes", "all histories with assignments at any time; the schedules, the lazily loaded config, the checkpoint and the overrides work together",
  ["hyperstate/hyperstate.py:StateManager.config", "hyperstate/hyperstate.py:StateManager.step", "hyperstate/hyperstate.py:_apply_schedules", "hyperstate/hyperstate.py:StateManager.checkpoint"])

p("lazy fields that use other fields of the state",
  "The deserialize method of a lazy field gets the state and may use other fields, lazy or not. An access to a field then returns what deserialize makes of the field's file and of the values that accesses to the fields it uses return. This value does not depend on which fields were read before, in which order, or on which reads raised. A field that uses itself, directly or through other unread fields, cannot be read, whatever was read before; if there is no such cycle, the files are there and allowed and no deserialize raises, every access returns. An assignment to a field changes only that field and the fields that use it and are not read yet.",
  "every state class, every relation of which field uses which, every history of reads (also failing ones), every recursion limit above the number of lazy fields", "all dependency graphs and all orders of reads",
  ["hyperstate/lazy.py:Lazy.__getattribute__", "hyperstate/lazy.py:Serializable.deserialize"])

p("the config that deserialize of a lazy field is given",
  "The deserialize method of a lazy field gets the config of the manager as it is at the moment of the first access, with the values that the schedules had at the last step or when the state was loaded. So an access returns what deserialize makes of the file, of the fields it uses and of the config that manager.config returns right before and right after the access; config fields without schedule are as they were loaded or as the user assigned them. Once a field has been read it does not follow the config any more.",
  "every config and state class, every deserialize that may use the config, every history of operations, any of which may raise", "every moment of the first access to a field in every history of steps that change the config",
  ["hyperstate/lazy.py:Lazy.__getattribute__", "hyperstate/lazy.py:LazyDeserializer", "hyperstate/hyperstate.py:StateManager._load_state", "hyperstate/hyperstate.py:_apply_schedules"])

p("loading without a file",
  "load(cls, None) returns the instance with its default values: each field has its declared default, a section without one is made of the defaults of its fields. It fails with a TypeError exactly if there is no such instance. This holds for versioned classes too, whatever their upgrade rules. loads of the empty text or of {} is the same for a class without versions and raises a ValueError for a versioned one. A manager that finds no checkpoint and was given neither init_path nor overrides has these values in its config, whatever was done before; nothing follows a schedule, also if a default is a text that would be a schedule in a file. With overrides, every field that none of them names or goes through has its default.",
  "every class, every history of operations of the manager that return", "all classes with nested sections and rules; all histories",
  ["hyperstate/hyperstate.py:load", "hyperstate/hyperstate.py:loads", "hyperstate/hyperstate.py:_typed_load", "hyperstate/hyperstate.py:StateManager._load_config", "hyperstate/serde.py:_try_create_defaults"])

p("the class that blob makes",
  "blob(clz, mixin) makes a class whose instances are instances of clz and of mixin, hence Serializable. What mixin itself defines (serialize, deserialize) is taken from mixin, also if clz defines it; a name that mixin and its bases do not define, except in bases that clz has as well, means what it means in clz. If the two have only their last bases in common, the class is made, and everything of mixin comes before everything of clz. If clz is mixin or already inherits from it, blob raises.",
  "every pair of classes, every hierarchy of base classes, every name", "all hierarchies; depends on the method resolution order",
  ["hyperstate/lazy.py:blob", "README.md"])

out = os.path.join(os.path.dirname(__file__), "..", "properties.jsonl")
with open(out, "w") as f:
    for x in P: f.write(json.dumps(x) + "\n")
print(len(P))
