{"id": "C01", "title": "dump/load round trip", "statement": "Loading what dumps wrote for a well-typed config object returns an equal object: same classes, same field values, same nesting, and the load records no schedule and no lazy field. Holds for int, float, str, bool, List, Tuple, Dict[str, _], Optional, Literal, nested dataclasses (versioned or not), tagged unions of dataclasses, and enums whose member names equal their values.", "quantifier": "every config class built from the supported constructors (any nesting depth, any number of fields) and every well-typed value of it", "why_tests_cant": "types nest without bound and each new type/value combination takes a different branch of the loader; tests fix one class and one value", "anchors": ["hyperstate/serde.py:asdict", "hyperstate/serde.py:from_dict", "hyperstate/hyperstate.py:dumps", "hyperstate/hyperstate.py:loads", "hyperstate/schema/versioned.py:VersionedSerializer"]}
{"id": "C02", "title": "enum values round trip", "statement": "A config field holding an enum member is restored to the same member after dumps/loads, whatever the member's name and value.", "quantifier": "every enum class and every member of it", "why_tests_cant": "the dumper writes the member's name and the loader looks a member up by value; a test only sees this if it happens to pick a member whose name and value differ", "anchors": ["hyperstate/serde.py:asdict", "hyperstate/serde.py:from_dict"]}
{"id": "C03", "title": "elide_defaults is lossless", "statement": "dumps(obj, elide_defaults=True) may leave out fields, but loading the result gives an object equal (Python ==) to loading the full dump.", "quantifier": "every supported config class with defaults of the declared types, every nan-free value", "why_tests_cant": "whether a field is left out depends on a comparison of the serialized attribute with the raw default for every field at every level", "anchors": ["hyperstate/hyperstate.py:ElideDefaults", "hyperstate/serde.py:from_dict", "hyperstate/serde.py:_try_create_defaults"]}
{"id": "C04", "title": "loaded configs are well typed", "statement": "If load succeeds, every attribute of the returned object, at every depth, has the declared type (int fields hold ints, Literal fields one of the listed values, enum fields a member, tuples the declared arity, and so on); raw data of a wrong shape is rejected, never passed through.", "quantifier": "every supported class and every raw document whatsoever, well formed or not", "why_tests_cant": "the space of malformed documents is unbounded and each type constructor has its own fall-through", "anchors": ["hyperstate/serde.py:from_dict", "hyperstate/serde.py:_try_create_defaults"]}
{"id": "C05", "title": "unknown fields are rejected, or ignored when asked", "statement": "Without ignore_extra_fields a document with a key that is not a field of the class is rejected with DeserializeTypeError; with ignore_extra_fields=True such keys are ignored and the result is the same as for the document without them, at every nesting level.", "quantifier": "every class, every document, every set of extra keys at every depth", "why_tests_cant": "the flag must reach every recursive call; a test at the top level does not exercise nested levels", "anchors": ["hyperstate/serde.py:from_dict", "hyperstate/hyperstate.py:_typed_load"]}
{"id": "C06", "title": "omitted fields take their defaults", "statement": "A field missing from the document takes its declared default; a missing dataclass field without default is built from its own defaults, recursively; the load fails (naming the class) exactly when some missing leaf has no default. Fields that are present are unaffected by which others are missing.", "quantifier": "every class, every subset of present fields", "why_tests_cant": "exponentially many presence patterns per class and unbounded nesting", "anchors": ["hyperstate/serde.py:_try_create_defaults", "hyperstate/serde.py:from_dict"]}
{"id": "C07", "title": "numbers are never silently changed", "statement": "An int field accepts a float or numeric string only when it denotes an integer, and then holds exactly that integer; a float field given an int holds that number; no accepted numeral silently becomes a different number.", "quantifier": "every integer, every float, every numeral", "why_tests_cant": "the failing region (beyond 2^53) is outside any sampled range", "anchors": ["hyperstate/serde.py:from_dict"]}
{"id": "C08", "title": "Literal fields only hold listed values", "statement": "A Literal field loads exactly when the document value equals one of the listed values, and a listed value always loads.", "quantifier": "every list of literal values, every raw value", "why_tests_cant": "the loader builds typing objects out of the literal values before it looks at them, which only fails for particular strings", "anchors": ["hyperstate/serde.py:from_dict"]}
{"id": "C09", "title": "union fields load the alternative that was written", "statement": "A field of type Union[A, B, ...] round-trips: the value is restored with the alternative it was written with, for dataclass and for primitive alternatives and for None.", "quantifier": "every list of alternatives, every value of one of them", "why_tests_cant": "which branch fires depends on which primitive types occur among the alternatives", "anchors": ["hyperstate/serde.py:from_dict"]}
{"id": "C10", "title": "tuple arity is enforced", "statement": "A Tuple[T1,...,Tn] field only accepts tuples with exactly n elements.", "quantifier": "every n and every tuple length", "why_tests_cant": "needs all length pairs", "anchors": ["hyperstate/serde.py:from_dict"]}
{"id": "C11", "title": "an override wins, and touches nothing else", "statement": "For overrides whose paths name fields, the value found at each overridden path is the parsed override value (the last one when a path is given twice), every path not related to an overridden path keeps its document value, and missing or None intermediate objects are created.", "quantifier": "every document, every list of overrides, every pair of paths", "why_tests_cant": "frame properties quantify over all other paths", "anchors": ["hyperstate/hyperstate.py:OverridesDeserializer"]}
{"id": "C12", "title": "unknown override paths are all reported", "statement": "load fails if any override names a field that does not exist in the config class: with FieldNotFoundError naming it when there is one, with FieldsNotFoundError naming all of them in order when there are several. An override that names an existing field (through nested dataclasses and Optional ones) is never reported.", "quantifier": "every class, every list of overrides", "why_tests_cant": "any position and any number of wrong overrides", "anchors": ["hyperstate/hyperstate.py:OverridesDeserializer", "hyperstate/schema/types.py:Struct.find_field"]}
{"id": "C13", "title": "boolean overrides", "statement": "A boolean override is accepted only in the spellings True/true/1/t/T and False/false/0/f/F and yields that boolean; any other spelling is rejected.", "quantifier": "every string, every position in the override list", "why_tests_cant": "the outcome for an unrecognised spelling depends on which overrides came before it", "anchors": ["hyperstate/hyperstate.py:OverridesDeserializer"]}
{"id": "C14", "title": "overrides beat the upgraded document", "statement": "When the document is of an older version, an override of a field of the current class still determines that field after the upgrade rules ran.", "quantifier": "every rule list, every document version, every override", "why_tests_cant": "needs every combination of rule target and override path", "anchors": ["hyperstate/hyperstate.py:_typed_load", "hyperstate/schema/versioned.py:VersionedDeserializer"]}
{"id": "C15", "title": "an override reaches the config object", "statement": "For a class without version, load(cls, file, overrides=['a.b.c=v']) returns an object whose attribute a.b.c is the value that v denotes for the declared type of that field.", "quantifier": "every class, every path through nested dataclasses, every document, every value", "why_tests_cant": "unbounded nesting", "anchors": ["hyperstate/hyperstate.py:load", "hyperstate/hyperstate.py:OverridesDeserializer", "hyperstate/serde.py:from_dict"]}
{"id": "C16", "title": "upgrades run once each, in order, from the document's version", "statement": "Loading a document of version v runs exactly the rules registered for v, v+1, ..., current-1, in that order, each list in list order, each once; a document of the current version is not changed; upgrading v to w and then w to current equals upgrading v to current.", "quantifier": "every rule table, every pair of versions, every document", "why_tests_cant": "histories of versions are unbounded", "anchors": ["hyperstate/schema/versioned.py:Versioned._apply_upgrades", "hyperstate/schema/versioned.py:VersionedDeserializer"]}
{"id": "C17", "title": "missing version field", "statement": "A document without version field for a versioned class is treated as version 0 (README). ", "quantifier": "every versioned class, every document without version field, every way of loading (load, loads, StateManager)", "why_tests_cant": "the outcome differs between entry points", "anchors": ["hyperstate/schema/versioned.py:VersionedDeserializer", "hyperstate/hyperstate.py:load", "hyperstate/hyperstate.py:StateManager._load_config", "README.md"]}
{"id": "C18", "title": "RenameField moves one value and nothing else", "statement": "Applying RenameField(old, new) to a document holding a value at old yields a document holding that value at new and nothing at old; all unrelated paths are unchanged; a document without old is unchanged; renaming back restores every path.", "quantifier": "every document, every pair of paths (including one being a prefix of the other), every other path", "why_tests_cant": "frame properties quantify over all other paths", "anchors": ["hyperstate/schema/rewrite_rule.py:RenameField", "hyperstate/schema/rewrite_rule.py:_remove", "hyperstate/schema/rewrite_rule.py:_insert"]}
{"id": "C19", "title": "DeleteField removes exactly that path", "statement": "After DeleteField(p) nothing is found at p or below it, every unrelated path is unchanged, a document without p is unchanged, and applying it twice is the same as once.", "quantifier": "every document, every path", "why_tests_cant": "frame properties quantify over all other paths", "anchors": ["hyperstate/schema/rewrite_rule.py:DeleteField", "hyperstate/schema/rewrite_rule.py:_remove"]}
{"id": "C20", "title": "MapFieldValue changes exactly that value", "statement": "MapFieldValue(p, f) replaces the value v found at p by f(v), leaves unrelated paths alone, does not call f when p is absent, and fails exactly when f fails.", "quantifier": "every document, path and function", "why_tests_cant": "frame properties quantify over all other paths", "anchors": ["hyperstate/schema/rewrite_rule.py:MapFieldValue"]}
{"id": "C21", "title": "ChangeDefault and AddDefault fill in only what is missing", "statement": "AddDefault/ChangeDefault never change a value that the document sets; when the field is missing and its parent objects are present the field gets the old default; objects created only to hold a default are marked weak and an ordinary insertion below them un-marks them.", "quantifier": "every document, path and default", "why_tests_cant": "frame properties quantify over all other paths", "anchors": ["hyperstate/schema/rewrite_rule.py:ChangeDefault", "hyperstate/schema/rewrite_rule.py:AddDefault", "hyperstate/schema/rewrite_rule.py:_insert"]}
{"id": "C22", "title": "ChangeDefault keeps old configs meaning the same", "statement": "After a default is changed under a ChangeDefault(p, old, new) rule, loading an old document that does not set p yields old at p, also when the document omits the whole object that contains p.", "quantifier": "every class, every document, every depth of p", "why_tests_cant": "depends on which ancestors of p are present", "anchors": ["hyperstate/schema/rewrite_rule.py:ChangeDefault", "hyperstate/serde.py:_try_create_defaults"]}
{"id": "C23", "title": "CheckValue and RejectValues only reject", "statement": "CheckValue/RejectValues raise ValueError exactly when the field is present with a value outside the allowed set / inside the disallowed set; otherwise the document is left unchanged.", "quantifier": "every document, path and set of values", "why_tests_cant": "the unchanged part quantifies over the whole document", "anchors": ["hyperstate/schema/rewrite_rule.py:CheckValue", "hyperstate/schema/rewrite_rule.py:RejectValues"]}
{"id": "C24", "title": "dumps records the current version", "statement": "The dump of every versioned object, at any depth, starts with a version entry equal to the class's current version, followed by its fields in declaration order; non-versioned objects get no such entry.", "quantifier": "every object", "why_tests_cant": "every nesting depth", "anchors": ["hyperstate/schema/versioned.py:VersionedSerializer", "hyperstate/serde.py:asdict"]}
{"id": "C25", "title": "a schema is compatible with itself", "statement": "Checking a class against its own dumped schema finds no change, proposes no fix and has severity INFO.", "quantifier": "every class of the types the checker supports", "why_tests_cant": "unbounded nesting", "anchors": ["hyperstate/schema/schema_checker.py:SchemaChecker._find_changes"]}
{"id": "C26", "title": "severity is the worst change", "statement": "The reported severity is INFO when there are no changes and otherwise the maximum of the severities of the changes; it is INFO exactly when every change is INFO.", "quantifier": "every list of changes", "why_tests_cant": "any length", "anchors": ["hyperstate/schema/schema_checker.py:SchemaChecker.severity", "hyperstate/schema/schema_change.py:Severity"]}
{"id": "C27", "title": "INFO means old configs still load", "statement": "If the checker reports severity INFO between an old schema and the current class, every document valid for the old schema loads under the current class, and every value it set that still has a field is preserved.", "quantifier": "every pair of schemas, every valid old document", "why_tests_cant": "this is the checker's promise over all documents, tests check single pairs", "anchors": ["hyperstate/schema/schema_checker.py:SchemaChecker", "hyperstate/schema/types.py:is_subtype", "hyperstate/serde.py:from_dict"]}
{"id": "C28", "title": "every added or removed leaf is reported", "statement": "Before rename matching, FieldAdded is reported for exactly the leaf paths of the new schema missing in the old one and FieldRemoved for exactly the leaf paths that disappeared.", "quantifier": "every pair of nested schemas", "why_tests_cant": "unbounded nesting", "anchors": ["hyperstate/schema/schema_checker.py:SchemaChecker._find_changes", "hyperstate/schema/schema_checker.py:SchemaChecker._all_new", "hyperstate/schema/schema_checker.py:SchemaChecker._all_gone"]}
{"id": "C29", "title": "rename matching terminates and is a matching", "statement": "The rename search always terminates; each rename replaces exactly one removal and one addition that it names, no addition or removal is used twice, all other changes are kept, and no pair above the threshold is left unmatched.", "quantifier": "every list of changes and every similarity function", "why_tests_cant": "schedules of the greedy loop depend on all pairwise similarities", "anchors": ["hyperstate/schema/schema_checker.py:SchemaChecker._find_renames"]}
{"id": "C30", "title": "subtyping is sound for values", "statement": "If type A is reported to be a subtype of type B, every value valid for A loads as B; every type is a subtype of itself.", "quantifier": "every pair of types, every value", "why_tests_cant": "unbounded nesting; variance errors only show for particular nested pairs", "anchors": ["hyperstate/schema/types.py:is_subtype"]}
{"id": "C31", "title": "name similarity is a well-behaved measure", "statement": "name_similarity is symmetric, lies between 0 and 1.1, equals 1.1 exactly for identical names and never divides by zero; the edit distance underneath is symmetric, zero exactly for equal names, at most the longer length, and satisfies the triangle inequality.", "quantifier": "every pair (triple) of names", "why_tests_cant": "all strings", "anchors": ["hyperstate/schema/schema_checker.py:name_similarity", "hyperstate/schema/schema_checker.py:levenshtein"]}
{"id": "C32", "title": "schema files round trip", "statement": "Loading a schema file written by dump-schema gives back the schema (without docstrings), for every class the loader supports; for any other class the load fails rather than returning a different schema.", "quantifier": "every schema", "why_tests_cant": "unbounded nesting", "anchors": ["hyperstate/schema/types.py:schema_from_namedtuple", "hyperstate/schema/schema_checker.py:_dump_schema", "hyperstate/schema/types.py:load_schema"]}
{"id": "C33", "title": "upgrade rules act the same way on schemas and documents", "statement": "If a document is valid for a schema and a rule can be applied to the schema, then applying the rule to the document gives a document valid for the rewritten schema.", "quantifier": "every schema, every rule, every valid document", "why_tests_cant": "commutation over all documents", "anchors": ["hyperstate/schema/rewrite_rule.py:RewriteRule"]}
{"id": "C34", "title": "upgrade-schema never overwrites an incompatible schema", "statement": "upgrade-schema writes the schema file only when the severity after upgrades is INFO; otherwise the file is untouched.", "quantifier": "every schema, class and file content", "why_tests_cant": "decision over all change lists", "anchors": ["hyperstate/schema/schema_checker.py:_upgrade_schema"]}
{"id": "C35", "title": "schedule text means its points", "statement": "A schedule string 'x: y0@x0 join y1@x1 ...' is parsed to one segment per consecutive pair of points, with those end points, with the interpolation named last before its right point (lin if none), keyed on x; unknown joins and malformed points are rejected.", "quantifier": "every list of points and joins", "why_tests_cant": "any number of points", "anchors": ["hyperstate/schedule.py:_parse_schedule"]}
{"id": "C36", "title": "schedule values stay between the neighbouring points", "statement": "For increasing knots the value at every x lies between the two values of the segment used, hence between the smallest and largest value of the schedule.", "quantifier": "every schedule with increasing knots, every x", "why_tests_cant": "all real x", "anchors": ["hyperstate/schedule.py:PiecewiseFunction.get_value", "hyperstate/schedule.py:INTERPOLATORS"]}
{"id": "C37", "title": "schedule hits its points and is constant outside them", "statement": "For increasing knots the schedule's value at each knot is the value given there, before the first knot it is the first value and after the last knot it is the last value.", "quantifier": "every schedule with increasing knots, every interpolation, every x", "why_tests_cant": "all schedules and all real x", "anchors": ["hyperstate/schedule.py:PiecewiseFunction.get_value"]}
{"id": "C38", "title": "schedule moves monotonically inside a segment", "statement": "Within one segment the value moves monotonically from the left value to the right value for lin and cos and is constant for step.", "quantifier": "every segment, every pair of points in it", "why_tests_cant": "all real x", "anchors": ["hyperstate/schedule.py:PiecewiseFunction.get_value", "hyperstate/schedule.py:INTERPOLATORS"]}
{"id": "C39", "title": "schedules can be attached to any int/float field", "statement": "A schedule string in any int or float field of the config, at any depth, is registered under that field, applied to that field on every step and written back unchanged into checkpoints.", "quantifier": "every field path, every set of schedules", "why_tests_cant": "depth is unbounded; registry bugs show only from depth three", "anchors": ["hyperstate/hyperstate.py:ScheduleDeserializer", "hyperstate/hyperstate.py:ScheduleSerializer", "hyperstate/hyperstate.py:_apply_schedules"]}
{"id": "C40", "title": "a crash never loses the last acknowledged checkpoint", "statement": "With strictly increasing checkpoint keys, whatever the history of steps, crashes at any instant of a step (also half-way through copying or deleting a directory) and restarts: after a restart the manager restores a complete checkpoint, namely the one of the last step that returned or of the step that was interrupted.", "quantifier": "every history of steps, crash points and restarts", "why_tests_cant": "crash points and histories are unbounded", "anchors": ["hyperstate/hyperstate.py:StateManager.step", "hyperstate/hyperstate.py:StateManager.checkpoint", "hyperstate/hyperstate.py:atomic_move", "hyperstate/hyperstate.py:find_latest_checkpoint"]}
{"id": "C41", "title": "step leaves a checkpoint of the current state", "statement": "After step() returns with a checkpoint directory configured, the directory contains a complete checkpoint of the state and config at that moment, whatever the checkpoint key's value compared with earlier calls.", "quantifier": "every history of calls and key values (equal, smaller, larger)", "why_tests_cant": "depends on the relation between successive keys", "anchors": ["hyperstate/hyperstate.py:StateManager.step"]}
{"id": "C42", "title": "old checkpoints are cleaned up", "statement": "In a crash-free run with strictly increasing keys the directory holds exactly one 'latest' checkpoint after each step; in general at most one stale directory per crash is left behind.", "quantifier": "every history", "why_tests_cant": "histories are unbounded", "anchors": ["hyperstate/hyperstate.py:StateManager.step"]}
{"id": "C43", "title": "the newest checkpoint is the one restored", "statement": "Of the checkpoints written by step the one with the largest key is restored, whatever the order in which the directory is listed.", "quantifier": "every set of keys, every listing order", "why_tests_cant": "keys beyond the zero padding width are outside tests", "anchors": ["hyperstate/hyperstate.py:find_latest_checkpoint", "hyperstate/hyperstate.py:StateManager.step"]}
{"id": "C44", "title": "foreign and temporary directories do not interfere", "statement": "Directories that were not written by step (temporary copies '<name>.<id>.tmp', other directories) are never restored and never prevent the newest checkpoint from being restored.", "quantifier": "every directory content", "why_tests_cant": "all names", "anchors": ["hyperstate/hyperstate.py:find_latest_checkpoint", "hyperstate/hyperstate.py:StateManager.checkpoint_dir", "hyperstate/hyperstate.py:atomic_move"]}
{"id": "C45", "title": "checkpoint restores exactly what was saved", "statement": "A StateManager opened on a checkpoint directory returns the config, the schedules and the state that were current when the checkpoint was written.", "quantifier": "every config/state class and value, every schedule set supported", "why_tests_cant": "all values", "anchors": ["hyperstate/hyperstate.py:StateManager.checkpoint", "hyperstate/hyperstate.py:StateManager._load_config", "hyperstate/hyperstate.py:StateManager._load_state"]}
{"id": "C46", "title": "scheduled config fields always reflect the state", "statement": "Whenever the user reads manager.config, a scheduled field holds the schedule's value at the current state (as of the last step or load).", "quantifier": "every sequence of config/state reads, state changes and steps", "why_tests_cant": "depends on the order of the first accesses", "anchors": ["hyperstate/hyperstate.py:StateManager.config", "hyperstate/hyperstate.py:StateManager.state", "hyperstate/hyperstate.py:_apply_schedules"]}
{"id": "C47", "title": "where config and state come from", "statement": "If the checkpoint directory holds a restorable checkpoint it is used for both config and state and init_path is ignored; otherwise config comes from init_path (file or checkpoint directory), state from init_path only when it is a directory, else from initial_state; overrides apply in all cases.", "quantifier": "every combination of arguments and directory contents", "why_tests_cant": "all combinations", "anchors": ["hyperstate/hyperstate.py:StateManager._load_config", "hyperstate/hyperstate.py:StateManager._load_state", "hyperstate/hyperstate.py:StateManager.checkpoint_dir"]}
{"id": "C48", "title": "lazy fields load on first access, at most once", "statement": "A lazy field's file is read only when the field is accessed, is read successfully at most once, and other fields never cause reads; a missing file only matters when that field is accessed.", "quantifier": "every sequence of attribute reads and writes", "why_tests_cant": "histories are unbounded", "anchors": ["hyperstate/lazy.py:Lazy.__getattribute__"]}
{"id": "C49", "title": "lazy fields behave like ordinary attributes", "statement": "Reading a lazy field returns the last value assigned to it, or the stored value if none was assigned.", "quantifier": "every sequence of attribute reads and writes", "why_tests_cant": "depends on whether an assignment precedes the first read", "anchors": ["hyperstate/lazy.py:Lazy.__getattribute__"]}
{"id": "C50", "title": "each Serializable is restored from the file it was written to", "statement": "For every Serializable in a state, the file name written by dump equals the file name the loader reads, different Serializables use different files, and accessing the field after restore gives back its value.", "quantifier": "every position of a Serializable in a state (field, nested dataclass, list element)", "why_tests_cant": "positions are unbounded", "anchors": ["hyperstate/lazy.py:LazySerializer", "hyperstate/lazy.py:LazyDeserializer", "hyperstate/lazy.py:Lazy.__getattribute__", "hyperstate/serde.py:asdict", "hyperstate/serde.py:from_dict"]}
{"id": "C51", "title": "deleting the old checkpoint loses no unread lazy data", "statement": "After step() has removed the previous checkpoint directory, every lazy field that had not been read yet is still available with its stored value.", "quantifier": "every set of unread fields, every history of steps", "why_tests_cant": "depends on the history", "anchors": ["hyperstate/hyperstate.py:StateManager.step", "hyperstate/lazy.py:Lazy.__getattribute__", "hyperstate/serde.py:asdict"]}
{"id": "C52", "title": "tensor encoding round trips", "statement": "Packing and unpacking a nested structure with numpy/torch arrays gives back the same structure, with every array's dtype, shape and contents.", "quantifier": "every nested structure and array", "why_tests_cant": "unbounded nesting", "anchors": ["hyperstate/msgpack_torch.py:encode", "hyperstate/msgpack_torch.py:decode"]}
{"id": "C53", "title": "help lists every overridable field under its override path", "statement": "find_fields returns every field reachable through nested dataclasses exactly once, and the path it returns for a field is a path that an override accepts and that names that field.", "quantifier": "every class, every query", "why_tests_cant": "unbounded nesting", "anchors": ["hyperstate/schema/help.py:find_fields", "hyperstate/schema/types.py:Struct.find_field"]}
{"id": "C54", "title": "command line dispatch", "statement": "The CLI runs the user function exactly when no --hps-info is given, every hyperparameter argument contains '=', and (stateful) --config and --resume-from are not both given; the init path is --config if given, else --resume-from.", "quantifier": "every combination of arguments", "why_tests_cant": "all argument lists", "anchors": ["hyperstate/command.py:command", "hyperstate/command.py:stateful_command", "hyperstate/command.py:_check_overrides"]}
{"id": "C55", "title": "upgrade-config preserves meaning", "statement": "Rewriting a config file with upgrade-config does not change what load returns for it, and running it a second time does not change the file's parsed content again.", "quantifier": "every class and document that loads", "why_tests_cant": "all documents and rule tables", "anchors": ["hyperstate/schema/schema_checker.py:_upgrade_config"]}
{"id": "C56", "title": "help shows the closest fields", "statement": "hps-info QUERY shows the fields of the class in order of decreasing name similarity; the first field shown is a most similar one, and every field whose name equals the query (also up to underscores, or as initials) is shown.", "quantifier": "every class, every query", "why_tests_cant": "all names and queries; the cut-off rule looks at the previous line only", "anchors": ["hyperstate/schema/help.py:help", "hyperstate/schema/help.py:find_fields"]}
{"id": "C57", "title": "failing command lines end with a nonzero exit code", "statement": "When the command line cannot be executed (unknown field, value of a wrong type, malformed hyperparameter, conflicting options) the user's function is not called, one error per bad override is printed and the exit code is nonzero; other exceptions are passed on unchanged.", "quantifier": "every command line and config class", "why_tests_cant": "all argument combinations and all error kinds", "anchors": ["hyperstate/command.py:command", "hyperstate/command.py:_check_overrides", "hyperstate/command.py:_print_config_exception"]}
{"id": "C58", "title": "following the checker's advice makes the check pass", "statement": "When check-schema reports severity WARN or less severe changes with proposed rules, then after adding the proposed rules to the class and incrementing its version as advised, check-schema on the same schema file reports severity INFO.", "quantifier": "every stored schema and every class", "why_tests_cant": "all pairs of schemas; the rules of a report are applied one after the other and may interact", "anchors": ["hyperstate/schema/schema_checker.py:SchemaChecker.print_report", "hyperstate/schema/schema_checker.py:SchemaChecker.__init__", "hyperstate/schema/schema_change.py:SchemaChange.proposed_fix", "hyperstate/schema/rewrite_rule.py:RewriteRule.apply_to_schema"]}
{"id": "C59", "title": "whatever a load returns can be saved and loaded again", "statement": "If load returns an object, whatever the document's version and with or without overrides, then dumping that object succeeds, loading the dump returns the same object, and dumping once more gives the same document.", "quantifier": "every class, document, override list and set of flags", "why_tests_cant": "all documents and classes; no condition on the loaded object", "anchors": ["hyperstate/hyperstate.py:load", "hyperstate/hyperstate.py:loads", "hyperstate/hyperstate.py:dump", "hyperstate/hyperstate.py:_typed_load", "hyperstate/hyperstate.py:_typed_dump"]}
{"id": "C60", "title": "config_dict mirrors the config", "statement": "config_dict() returns plain data of the same shape as the current config: a dict with exactly the fields of each (nested) dataclass, plus its version if it has one, in declaration order, with enum members by name; and from_dict of it gives back the config.", "quantifier": "every manager and config", "why_tests_cant": "all configs at any nesting", "anchors": ["hyperstate/hyperstate.py:StateManager.config_dict", "hyperstate/serde.py:asdict", "hyperstate/serde.py:from_dict"]}
{"id": "C61", "title": "checkpoint(dir) and init_path=dir are inverse", "statement": "After checkpoint(dir), a new manager started with init_path=dir has the same config, the same schedules and the same state fields; and checkpoint(dir) changes nothing that can be observed of the manager or of its checkpoint directory.", "quantifier": "every history of operations before the checkpoint", "why_tests_cant": "unbounded histories, all configs and states", "anchors": ["hyperstate/hyperstate.py:StateManager.checkpoint", "hyperstate/hyperstate.py:StateManager.__init__", "hyperstate/hyperstate.py:StateManager._load_config", "hyperstate/hyperstate.py:StateManager._load_state"]}
{"id": "C62", "title": "pickled blobs are not read unless allowed", "statement": "Unless reading pickles was enabled explicitly, no access to a field of a lazily loaded object interprets a pickled blob file: the access fails with RuntimeError (FileNotFoundError if the file is missing), and the contents of such files have no influence on any result.", "quantifier": "every loaded object, every store, every sequence of accesses", "why_tests_cant": "all documents, all blob contents and access orders; non-interference", "anchors": ["hyperstate/lazy.py:Lazy.__getattribute__", "hyperstate/lazy.py:LazyDeserializer"]}
{"id": "C63", "title": "upgrade-config on several files", "statement": "upgrade-config with several files treats each file as if it were the only one, up to the first failure; files after the failure and files not named are untouched, --dry-run writes nothing, and the order of distinct files does not matter when all succeed.", "quantifier": "every store and every list of files", "why_tests_cant": "unbounded lists of files, failures at any position", "anchors": ["hyperstate/schema/schema_checker.py:upgrade_config", "hyperstate/schema/schema_checker.py:_upgrade_config"]}
{"id": "C64", "title": "only scheduled fields of the config ever change", "statement": "Whatever is done with a manager (reading config and state, assigning to the state, checkpointing, stepping), the config it returns has the value it was loaded with in every field without a schedule, no field appears or disappears, and the set of schedules stays as loaded; a config without schedules never changes.", "quantifier": "every history of operations, every config class, document, override list and checkpoint directory", "why_tests_cant": "unbounded histories; schedules are applied in place on a shared object", "anchors": ["hyperstate/hyperstate.py:StateManager._apply_schedules", "hyperstate/hyperstate.py:_apply_schedules", "hyperstate/hyperstate.py:StateManager.config", "hyperstate/hyperstate.py:StateManager.step"]}
{"id": "C65", "title": "a scheduled field stays within the range of its schedule and settles at its final value", "statement": "At any time a field with a schedule holds a value between the smallest and the largest value of its points (an integer if the field is an int), and after a step at a state past the last point it holds exactly the final value until the next step.", "quantifier": "every history of operations, every schedule", "why_tests_cant": "unbounded histories; all schedules and state values", "anchors": ["hyperstate/hyperstate.py:_apply_schedules", "hyperstate/schedule.py:PiecewiseFunction.get_value", "hyperstate/hyperstate.py:StateManager.step"]}
{"id": "C66", "title": "a proposed ChangeDefault keeps the meaning of old configs", "statement": "When a field's default changes, the schema checker proposes a ChangeDefault rule whose old value is what the schema recorded for the old default (an enum member by its value). With the proposed rules in place, an old config that leaves the field out loads in the new version of the class with the old default in that field: the same value that the old version of the class gives.", "quantifier": "every pair of versions of a class, every field at any depth, every old document", "why_tests_cant": "all schemas, enum classes, paths and documents; the recorded default goes through the schema, the rule and the loader", "anchors": ["hyperstate/schema/types.py:materialize_type", "hyperstate/schema/schema_change.py:DefaultValueChanged", "hyperstate/schema/rewrite_rule.py:ChangeDefault", "hyperstate/serde.py:from_dict"]}
{"id": "C67", "title": "a proposed RenameField keeps the values of old configs", "statement": "When the schema checker reports a renamed field and the proposed rules are added for the old version, an old config that sets the field loads in the new version of the class with the value it gives, read as the new type (the same value if the type is the same); an old config that leaves the field out gets defaults that are equal.", "quantifier": "every pair of versions of a class, every reported rename between fields at any depth, every old document", "why_tests_cant": "all schemas, paths and documents; the report, the rule and two loads have to fit together", "anchors": ["hyperstate/schema/schema_checker.py:_find_renames", "hyperstate/schema/schema_change.py:FieldRenamed", "hyperstate/schema/rewrite_rule.py:RenameField", "hyperstate/serde.py:from_dict"]}
{"id": "C68", "title": "the place of a value in a document does not matter for what it loads to", "statement": "from_dict gives the same value or fails with the same error for every fpath; only the recorded schedules and blob files depend on it.", "quantifier": "every type, every value, every two paths", "why_tests_cant": "all types and values, nested arbitrarily", "anchors": ["hyperstate/serde.py:from_dict", "hyperstate/lazy.py:LazyDeserializer", "hyperstate/hyperstate.py:ScheduleDeserializer"]}
{"id": "C69", "title": "the report of check-schema", "statement": "check-schema prints one line per change, in order, with its severity and the dotted name of its field; it says compatible exactly if all lines are info, which is exactly when upgrade-schema replaces the file (otherwise upgrade-schema prints the same report and writes nothing); if incompatible, it lists under the file's version the proposed fix of every warning, and advises a bump to the next version exactly if file and class have the same version. The text of a line says what changed.", "quantifier": "every schema file, every config class with any upgrade rules", "why_tests_cant": "all pairs of schemas and rule lists", "anchors": ["hyperstate/schema/schema_checker.py:SchemaChecker.print_report", "hyperstate/schema/schema_checker.py:check_schema", "hyperstate/schema/schema_checker.py:_upgrade_schema", "hyperstate/schema/schema_change.py:SchemaChange.emit_diagnostic"]}
{"id": "C70", "title": "the listing of all hyperparameters can be read back", "statement": "--hps-info without a query prints a listing which, read by its indentation, gives the path of every field of the config class and of the classes nested in it (also inside lists and Optionals), each once and nothing else, with the default of each field that has one and no fields of its own.", "quantifier": "every config class", "why_tests_cant": "all classes, nested arbitrarily", "anchors": ["hyperstate/schema/help.py:help", "hyperstate/schema/help.py:print_schema", "hyperstate/schema/types.py:_unwrap_container_type"]}
{"id": "C71", "title": "after an exception the manager is consistent", "statement": "A caller may catch an exception from config, an attribute of state, config_dict, checkpoint or step and go on. Then the config still has the loaded value in every field without a schedule and a value of its schedule in every other; attributes of the state that were loaded or assigned keep their values; a failed load of the config changes nothing; the checkpoint directory and the last checkpoint are unchanged (only a step whose previous checkpoint has disappeared has written the new one); the next step that returns brings all schedules up to date.", "quantifier": "every history of operations in which any may raise, any state of the directory", "why_tests_cant": "unbounded histories, every place at which an operation can raise", "anchors": ["hyperstate/hyperstate.py:StateManager.config", "hyperstate/hyperstate.py:StateManager.state", "hyperstate/hyperstate.py:StateManager.step", "hyperstate/hyperstate.py:_apply_schedules"]}
{"id": "C72", "title": "training that is interrupted and resumed any number of times loses at most the interrupted step", "statement": "With a checkpoint directory, and a checkpoint key that grows with every step, processes may be started and killed at any time, also after any number of the effects of a step on the directory, and operations may raise and be caught. At every moment a StateManager started on the directory gives either the config, its schedules and all fields of the state as they were when the last step returned (or was restored), or as they were in the step that was interrupted since; never anything else, and never nothing once a step has returned. A step that raises leaves the directory as it was.", "quantifier": "every history of starts, operations, steps, exceptions and kills, of any length, over every directory without checkpoints", "why_tests_cant": "unbounded histories, a kill between any two effects, repeatedly", "anchors": ["hyperstate/hyperstate.py:StateManager.step", "hyperstate/hyperstate.py:StateManager.__init__", "hyperstate/hyperstate.py:find_latest_checkpoint", "hyperstate/hyperstate.py:StateManager.checkpoint", "hyperstate/hyperstate.py:StateManager._load_config"]}
{"id": "C73", "title": "giving the same overrides again after a restart changes nothing", "statement": "A StateManager that restores a checkpoint applies its overrides to the saved config. If they are the ones the config was first loaded with, the restored config is the one that was saved: a field with an overridden plain value has it, a schedule that an override installed is kept and not evaluated again from its beginning, and all other fields are as saved.", "quantifier": "every config class, config file, list of overrides, history of operations before the checkpoint", "why_tests_cant": "all overrides and configs, unbounded histories between the two loads", "anchors": ["hyperstate/hyperstate.py:StateManager.config", "hyperstate/hyperstate.py:OverridesDeserializer", "hyperstate/hyperstate.py:ScheduleDeserializer", "hyperstate/hyperstate.py:ScheduleSerializer"]}
{"id": "C74", "title": "schedules computed in floating point are close to the schedules that were written", "statement": "With every operation rounded to binary64, a schedule with increasing knots still has a value everywhere; at each left knot, before the first and after the last point it is exactly the value given; elsewhere it differs from the exact value by at most a few units of roundoff of the larger end value, and stays within the range of the two end values up to the same error. A segment that goes down to 0 stays in its range and never goes up, without any error. An int field is set to the integer part of the exact value.", "quantifier": "every schedule with increasing knots, every x, every monotone rounding with a relative error bound and a small absolute error near zero (binary64 is one); overflow for numbers up to 2^1022", "why_tests_cant": "all floating-point numbers; the failing inputs differ by one unit in the last place", "anchors": ["hyperstate/schedule.py:PiecewiseFunction.get_value", "hyperstate/schedule.py:INTERPOLATORS", "hyperstate/hyperstate.py:ScheduleDeserializer"]}
{"id": "C75", "title": "values in the deserialization context reach the code that loads the state", "statement": "A value set with set_deserialize_ctx on a StateManager is passed to initial_state, and to the deserialize method of every field of a restored state that is read for the first time after it was set; of several values for a key the last one counts. A value set on the state object itself is passed to the deserialize method of every field read for the first time afterwards. Setting values has no other effect: a field that was read keeps its value, and no other operation has another outcome.", "quantifier": "every history of operations, calls of set_deserialize_ctx on manager and state and exceptions, every deserialize method", "why_tests_cant": "unbounded histories, every position of the calls relative to the first access of state and of each field", "anchors": ["hyperstate/hyperstate.py:StateManager.set_deserialize_ctx", "hyperstate/hyperstate.py:StateManager.state", "hyperstate/hyperstate.py:StateManager._load_state", "hyperstate/lazy.py:Lazy.set_deserialize_ctx", "hyperstate/lazy.py:Lazy.__getattribute__"]}
{"id": "C76", "title": "checkpoint_dir can be changed while training", "statement": "checkpoint_dir may be assigned any number of times, to any directory or None, between steps. The checkpoint of the last step that returned is complete in the directory it was written to at every moment, also during the next step until that one's checkpoint is complete, whatever is killed when. The next step writes to the directory assigned last, and a StateManager started there restores that step; without a directory a step touches nothing. Nothing but temporary copies, the new checkpoint and the manager's own previous one is written or removed.", "quantifier": "every history of starts, assignments, steps, exceptions and kills over any number of directories with any contents", "why_tests_cant": "unbounded histories, all directory contents, a kill between any two effects", "anchors": ["hyperstate/hyperstate.py:StateManager.checkpoint_dir", "hyperstate/hyperstate.py:StateManager.step", "hyperstate/hyperstate.py:find_latest_checkpoint", "hyperstate/hyperstate.py:StateManager.checkpoint"]}
{"id": "C77", "title": "another process that reads the checkpoints of a training process sees one checkpoint", "statement": "A process opens a StateManager on the checkpoint directory of a process that is training there (with growing keys of at most 12 characters), and reads the config and fields of the state, or writes them elsewhere with checkpoint(dir), while the trainer makes steps, is killed and restarted. Whatever the moments of the reads, either one of them raises FileNotFoundError, or all of them give what they would have given if the trainer had stopped when the directory was opened; never parts of two checkpoints. The trainer's directory is not changed by the reads.", "quantifier": "every history of the trainer, every moment of it for opening and for each read, every sequence of reads, every config and state class", "why_tests_cant": "interleavings of two processes, unbounded histories", "anchors": ["hyperstate/hyperstate.py:StateManager.config", "hyperstate/hyperstate.py:StateManager.state", "hyperstate/hyperstate.py:StateManager.step", "hyperstate/hyperstate.py:atomic_move", "hyperstate/lazy.py:Lazy.__getattribute__"]}
{"id": "C78", "title": "checkpoint_dir can be assigned after the StateManager was created", "statement": "A StateManager created without checkpoint_dir, to which a directory is assigned later, behaves like one that was given the directory at construction: if the directory has no checkpoint, whatever was read or assigned to the state in between; if it has one, config and state are restored from it.", "quantifier": "every config and state class, init_path, overrides, history of operations before the assignment, contents of the directory", "why_tests_cant": "unbounded histories before the assignment, all directories", "anchors": ["hyperstate/hyperstate.py:StateManager.checkpoint_dir", "hyperstate/hyperstate.py:StateManager.config", "hyperstate/hyperstate.py:StateManager.state", "hyperstate/hyperstate.py:StateManager.step"]}
{"id": "C79", "title": "several processes that use the same checkpoint directory do not lose checkpoints", "statement": "Any number of processes have a StateManager with the same checkpoint_dir (for example the processes of a distributed training) and call step, each with increasing keys, interleaved in any way, while processes are killed and new ones are started. Every call of step returns. At every moment, if some call has returned, a StateManager opened on the directory finds a complete checkpoint that was passed to step by one of the processes, with a key at least as large as that of every call that has returned; what it finds never gets older.", "quantifier": "any number of processes, every interleaving between effects on the directory, every contents, rename or copy across file systems", "why_tests_cant": "interleavings of any number of processes, kills between any two effects", "anchors": ["hyperstate/hyperstate.py:StateManager.step", "hyperstate/hyperstate.py:StateManager.checkpoint", "hyperstate/hyperstate.py:StateManager.checkpoint_dir", "hyperstate/hyperstate.py:atomic_move", "hyperstate/hyperstate.py:find_latest_checkpoint"]}
{"id": "C80", "title": "a section of a config can have a versioned class of its own", "statement": "A field of a config (reached through unversioned classes, possibly Optional) may have a Versioned class. On load such a section is upgraded by the rules of its class from the version given in the section, after the rules of the config itself, and then loads like a file of that class; a section may be left out and then has its default, also when some of its fields are overridden; the schema checker takes the rules of the section's class into account.", "quantifier": "every config class, section path, section class with any rules, document, override", "why_tests_cant": "all classes and rules, all documents and overrides", "anchors": ["hyperstate/schema/versioned.py:VersionedDeserializer", "hyperstate/schema/versioned.py:Versioned", "hyperstate/serde.py:from_dict", "hyperstate/hyperstate.py:OverridesDeserializer", "hyperstate/hyperstate.py:load", "hyperstate/schema/schema_checker.py:SchemaChecker"]}
{"id": "C81", "title": "a config or checkpoint can be edited by hand", "statement": "If in a config file, or in the config or state file of a checkpoint, that loads, one value is replaced by another value that the declared type of that field accepts, the edited file is accepted and gives the config (state) of before with that field set to the new value; no other field is different. (Schedules more than two fields deep can make the load fail afterwards, see the property on schedules being followed.)", "quantifier": "every config class, field path through nested (optional) classes, document, old and new value, loader", "why_tests_cant": "all classes, documents, paths and values; that nothing else changes", "anchors": ["hyperstate/serde.py:from_dict", "hyperstate/hyperstate.py:_typed_load", "hyperstate/hyperstate.py:StateManager._load_config", "hyperstate/hyperstate.py:StateManager._load_state", "hyperstate/schema/versioned.py:VersionedDeserializer"]}
{"id": "C82", "title": "the order of the entries of a config file does not matter", "statement": "If the entries of the objects and dicts in a config file or state file are written in another order, at any depth, the file loads if it loaded before, and the two results are equal: the same attributes with the same values (dicts may be ordered differently). This holds for versioned classes with upgrade rules and with overrides as well.", "quantifier": "every type, document, reordering at any depth, upgrade rules, overrides, loader", "why_tests_cant": "all documents and all permutations of their entries, at all levels", "anchors": ["hyperstate/serde.py:from_dict", "hyperstate/hyperstate.py:_typed_load", "hyperstate/hyperstate.py:OverridesDeserializer", "hyperstate/hyperstate.py:ScheduleDeserializer", "hyperstate/schema/rewrite_rule.py"]}
{"id": "C83", "title": "a proposed default gives old configs a value that the new class accepts", "statement": "When the checker reports a new Optional or List field without default, or a default that was removed, and its proposed rules are adopted for the old version, every config file of the old version that leaves the field out stands for None, the empty list, or the old default there, in the new class. This should hold also for files that leave out the whole object around the field.", "quantifier": "every pair of class versions, path of a field through nested classes, report and the rules proposed for it, config file of the old version, loader", "why_tests_cant": "all classes and documents; the checker, the rewrite rules and the loader together", "anchors": ["hyperstate/schema/schema_change.py:FieldAdded", "hyperstate/schema/schema_change.py:DefaultValueRemoved", "hyperstate/schema/rewrite_rule.py:AddDefault", "hyperstate/serde.py:from_dict"]}
{"id": "C84", "title": "help shows the description that a class gives for its field", "statement": "If the docstring of a config class, or of a class it inherits from, describes a field, help shows this description on the line of the field, after its type and default; if several of them describe it, that of the most derived class counts. If none does, no description is shown.", "quantifier": "every class hierarchy, with any number of base classes at every level, every docstring contents, field at any depth", "why_tests_cant": "all hierarchies and all assignments of descriptions to classes", "anchors": ["hyperstate/schema/types.py:_find_all_field_docs", "hyperstate/schema/types.py:materialize_type", "hyperstate/schema/help.py:help", "hyperstate/schema/help.py:print_schema"]}
{"id": "C85", "title": "what help prints can be read back", "statement": "Reading the output of help without a query by its indentation, each line up to the first colon, gives exactly the paths of the fields of the config class and of the classes nested in it, each once. In the output of help for a query, each line that is not indented has before its first colon the dotted path of a field that the search shows, in the order of the ranking, and each indented line is about a field of the section above it. The rest of each line shows type, default and description of its field.", "quantifier": "every config class (nested to any depth, also in lists and Optionals), query, descriptions, way of writing types and values", "why_tests_cant": "all classes and queries; that no line is ambiguous or missing", "anchors": ["hyperstate/schema/help.py:help", "hyperstate/schema/help.py:print_schema", "hyperstate/schema/help.py:find_fields"]}
{"id": "C86", "title": "a printed type tells which type it is", "statement": "help and the report of changes print two types in the same way only if they are the same type: the same primitive types, containers, enum variants and Literal values, in the same places. So a line of the report about a changed type shows two different texts, and two config classes for which help prints the same output have the same fields with the same types, so that they accept the same files.", "quantifier": "every pair of types, nested to any depth, class names and Literal values; every pair of config classes and report", "why_tests_cant": "all types: the text has no ambiguous brackets, separators or orders", "anchors": ["hyperstate/schema/types.py:Primitive", "hyperstate/schema/types.py:Tuple", "hyperstate/schema/types.py:Literal", "hyperstate/schema/types.py:Struct", "hyperstate/schema/help.py:print_schema", "hyperstate/schema/schema_change.py:TypeChanged"]}
{"id": "C87", "title": "the place that the message of a failed load names", "statement": "If from_dict fails with a message that names the place of a value, there is a value at this place in the (upgraded) document; everything before it in the lists and objects around it loads; the message prints this value and the type declared for it; the type refuses this value; and no document with this value at this place loads, whatever else is in it. The text of the place determines the place, unless a key on the way has a dot or a bracket. If the message names an unknown field or a value that is no object, the class is the one declared for the first value that fails.", "quantifier": "every type, every document, every set order, every message", "why_tests_cant": "the place is put together on the way down through arbitrarily nested types; a test sees a few documents", "anchors": ["hyperstate/serde.py:from_dict", "hyperstate/schema/versioned.py:VersionedDeserializer"]}
{"id": "C88", "title": "the message about missing values", "statement": "If a load fails because values are missing, the message lists, with their places, exactly the fields of the named class that have no default and are no dataclasses; this class is constructed for an object in the document that gives no value for it or for the section around it; no document loads in which an object at this place lacks the value. Whether the load fails does not depend on the order of the set of missing fields.", "quantifier": "every type, every document, every order of the set", "why_tests_cant": "the order of a Python set of strings differs from run to run; all nestings of classes without default", "anchors": ["hyperstate/serde.py:_try_create_defaults", "hyperstate/serde.py:from_dict"]}
{"id": "C89", "title": "what a config file loads as does not depend on what was loaded before", "statement": "When a process loads several config files of a versioned class one after the other, each is upgraded as if it were the only one: the dicts that rules put into a document or change in it are not shared with the rules or with other documents, whatever was loaded before and whether those loads failed.", "quantifier": "every class with upgrade rules, every sequence of documents, rules created by each call of upgrade_rules or once", "why_tests_cant": "sequences of loads in one process; depends on which dict objects are shared", "anchors": ["hyperstate/schema/rewrite_rule.py:AddDefault", "hyperstate/schema/rewrite_rule.py:ChangeDefault", "hyperstate/schema/rewrite_rule.py:_insert", "hyperstate/schema/versioned.py:Versioned._apply_upgrades", "hyperstate/schema/versioned.py:VersionedDeserializer"]}
{"id": "C90", "title": "a run is resumed with a compatibly changed config class", "statement": "Between two processes of a run the config class is changed, and check-schema reports only changes of severity INFO. Then the next process restores the checkpoint with the new class: every field of the state is as it was, every value of the config that the checkpoint holds is kept, and the same fields follow the same schedules and hold their values for the restored state.", "quantifier": "every pair of definitions of the class, every history of processes with crashes, every checkpoint", "why_tests_cant": "needs every compatible change of a class combined with every history of a run; involves the checker, the loader, schedules and the manager", "anchors": ["hyperstate/hyperstate.py:StateManager.__init__", "hyperstate/hyperstate.py:StateManager.state", "hyperstate/hyperstate.py:_apply_schedules", "hyperstate/schema/schema_checker.py:SchemaChecker", "hyperstate/serde.py:from_dict"]}
{"id": "C91", "title": "a run that starts from pickled fields", "statement": "A run whose state was saved by an old version, with pickled fields, goes on as follows. If UNSAFE_DESERIALIZE_PICKLE is not set and the state class is lazy, no checkpoint is ever written: every call of checkpoint raises, every step that would write one raises, and nothing is added to the checkpoint directory, whatever is assigned to the field. If it is set until the first step has returned, later processes restore what was saved whether it is set or not, however they were interrupted.", "quantifier": "every history of operations with and without exceptions, every history of processes with crashes, every state class", "why_tests_cant": "all interleavings of reads, assignments, steps, restarts; that no pickle is left in any checkpoint that was written", "anchors": ["hyperstate/lazy.py:Lazy.__getattribute__", "hyperstate/hyperstate.py:StateManager.step", "hyperstate/hyperstate.py:StateManager.checkpoint", "hyperstate/serde.py:asdict"]}
{"id": "C92", "title": "values that the user assigns to the config", "statement": "The config object is the user's: a value assigned to a field of manager.config that has no schedule stays there through reads, assignments to the state and to other fields, checkpoints and steps, also if these raise; it is saved, and a manager that is started on the directory has it again. An assignment changes no other field. An assignment to a field with a schedule lasts until the next step, which sets the field to the value of the schedule; the schedule is saved, not the value. initial_state gets the config with the assigned values.", "quantifier": "every config class, every history of operations and assignments on one manager (with exceptions), every value of the declared type; for the restart any history of processes", "why_tests_cant": "all histories with assignments at any time; the schedules, the lazily loaded config, the checkpoint and the overrides work together", "anchors": ["hyperstate/hyperstate.py:StateManager.config", "hyperstate/hyperstate.py:StateManager.step", "hyperstate/hyperstate.py:_apply_schedules", "hyperstate/hyperstate.py:StateManager.checkpoint"]}
{"id": "C93", "title": "lazy fields that use other fields of the state", "statement": "The deserialize method of a lazy field gets the state and may use other fields, lazy or not. An access to a field then returns what deserialize makes of the field's file and of the values that accesses to the fields it uses return. This value does not depend on which fields were read before, in which order, or on which reads raised. A field that uses itself, directly or through other unread fields, cannot be read, whatever was read before; if there is no such cycle, the files are there and allowed and no deserialize raises, every access returns. An assignment to a field changes only that field and the fields that use it and are not read yet.", "quantifier": "every state class, every relation of which field uses which, every history of reads (also failing ones), every recursion limit above the number of lazy fields", "why_tests_cant": "all dependency graphs and all orders of reads", "anchors": ["hyperstate/lazy.py:Lazy.__getattribute__", "hyperstate/lazy.py:Serializable.deserialize"]}
{"id": "C94", "title": "the config that deserialize of a lazy field is given", "statement": "The deserialize method of a lazy field gets the config of the manager as it is at the moment of the first access, with the values that the schedules had at the last step or when the state was loaded. So an access returns what deserialize makes of the file, of the fields it uses and of the config that manager.config returns right before and right after the access; config fields without schedule are as they were loaded or as the user assigned them. Once a field has been read it does not follow the config any more.", "quantifier": "every config and state class, every deserialize that may use the config, every history of operations, any of which may raise", "why_tests_cant": "every moment of the first access to a field in every history of steps that change the config", "anchors": ["hyperstate/lazy.py:Lazy.__getattribute__", "hyperstate/lazy.py:LazyDeserializer", "hyperstate/hyperstate.py:StateManager._load_state", "hyperstate/hyperstate.py:_apply_schedules"]}
{"id": "C95", "title": "loading without a file", "statement": "load(cls, None) returns the instance with its default values: each field has its declared default, a section without one is made of the defaults of its fields. It fails with a TypeError exactly if there is no such instance. This holds for versioned classes too, whatever their upgrade rules. loads of the empty text or of {} is the same for a class without versions and raises a ValueError for a versioned one. A manager that finds no checkpoint and was given neither init_path nor overrides has these values in its config, whatever was done before; nothing follows a schedule, also if a default is a text that would be a schedule in a file. With overrides, every field that none of them names or goes through has its default.", "quantifier": "every class, every history of operations of the manager that return", "why_tests_cant": "all classes with nested sections and rules; all histories", "anchors": ["hyperstate/hyperstate.py:load", "hyperstate/hyperstate.py:loads", "hyperstate/hyperstate.py:_typed_load", "hyperstate/hyperstate.py:StateManager._load_config", "hyperstate/serde.py:_try_create_defaults"]}
{"id": "C96", "title": "the class that blob makes", "statement": "blob(clz, mixin) makes a class whose instances are instances of clz and of mixin, hence Serializable. What mixin itself defines (serialize, deserialize) is taken from mixin, also if clz defines it; a name that mixin and its bases do not define, except in bases that clz has as well, means what it means in clz. If the two have only their last bases in common, the class is made, and everything of mixin comes before everything of clz. If clz is mixin or already inherits from it, blob raises.", "quantifier": "every pair of classes, every hierarchy of base classes, every name", "why_tests_cant": "all hierarchies; depends on the method resolution order", "anchors": ["hyperstate/lazy.py:blob", "README.md"]}
