# Design

Subject: `/repo` (hyperstate, pure Python). Nothing is executed; the model is a reading of the text.
Tool: Lean 4.33.0; Mathlib modules are imported one at a time where a file needs them. Build: `lake build` in `/verif/lean`.

## 1. Layout

| directory | content |
|---|---|
| `lean/Verif/Model/` | the model: total functions, one per Python function, each citing file and lines |
| `lean/Verif/Spec/` | specifications (predicates on documents, types, schemas) written without the model's helpers |
| `lean/Verif/Proofs/` | helper lemmas |
| `lean/Verif/Props/` | the property theorems (what MANIFEST.json names) with a non-vacuity `example` beside each |
| `tools/` | `gen_properties.py` (writes properties.jsonl), `claim.py`/`gen_manifest.py` (write MANIFEST.json), `mutate.py` (wrong programs) |
| `seeded/` | wrong programs tried on scratch copies: `mutants*.json` (the edits), `LOG.jsonl` (the outcome) |

## 2. Trusted base

* **Lean's kernel** and the three standard axioms. Every theorem named in MANIFEST.json was checked with `#print axioms`:
  each depends on a subset of `propext`, `Classical.choice`, `Quot.sound`. There is no axiom of our own, no `sorry`, no
  `native_decide`/`bv_decide`. Closed facts (witnesses, examples) are evaluated with `decide`/`rfl` in the kernel.
* **The model is a faithful reading of the source.** This is not checked by a machine. Every definition cites the lines it
  models and says what it leaves out; section 4 collects this.
* **External code**, as follows. Nothing else about it is assumed.

| external | how it appears |
|---|---|
| `pyron` (text format) | a document is its parsed value. `ronTrip` states what writing and reading back does to the values `asdict` produces (a named tuple becomes a dict with its name under `!__name__`), `ronStruct` the same for schema files. Parsing of override values is the parameter `RonParse`. |
| `float(str)`, `math.cos` | parameters (`Ext.parseFloat`, `cosPi`); facts about cosine are hypotheses (`IsCos`), discharged for the real cosine (`isCos_real`) |
| schedule evaluation at 0 and at a state, inside the loaders | parameters `schedAt0`, `sv`; the evaluation itself is modelled in Model/Schedule.lean |
| binary64 arithmetic | a float is `nan`, `±inf` or a rational. `float(int)` is rounded to nearest even (`roundNat`); arithmetic of similarities and edit distances is exact; arithmetic of schedules is exact in Model/Schedule and everything built on it (C36-C38, C65), and rounded in Model/ScheduleFloat (C74: any rounding) and Model/ScheduleIEEE (C74: infinite numbers, NaN and subnormal numbers as in binary64, with one zero) |
| `str.lower` | a parameter, arbitrary |
| `msgpack`, numpy, torch | msgpack output is a tree of items, arrays are dtype/shape/bytes; `np.dtype(str)` is a parameter |
| `Serializable.serialize/deserialize`, `initial_state`, the user's function | parameters, arbitrary |
| file system | a checkpoint directory is a list of entries. `os.rename` on one file system is atomic; a copy or `rmtree` is interruptible at any time and leaves a directory about which nothing is known. Writes survive a crash once the operation returned (no fsync modelling). Nobody else writes to the directory |
| `argparse`, `click`, `docstring_parser`, printing | not modelled; commands start from parsed arguments and end in an outcome. Exceptions: the report of `check-schema` (Model/Report.lean) and which fields `help` lists (Model/Help.lean) |
| `typing` | `PyTy` has the annotation forms the code inspects; `List[...]`/`Tuple[...]` applied to Literal values may raise, which is the parameter `typeArgOk` |

## 3. Modelling decisions

* Python values are one inductive type `Val` (None, bool, int, float, str, list, tuple, dict with string keys,
  namedtuple, dataclass instance, enum member, Serializable object). Dicts are association lists; reading takes the
  first match, writing replaces in place or appends, deleting removes every match.
* In-place mutation becomes a returned value; exceptions are values (`Except Err`), with the exception class and the payload
  that callers look at. An error raised while an error message is being built is reported as the intended error.
* Python class objects are `PyTy`; the schema types of `schema/types.py` are `STy`.
* Deserializer hooks (`OverridesDeserializer`, `ScheduleDeserializer`, `VersionedDeserializer`, `LazyDeserializer`)
  are inlined in the order in which `_typed_load` installs them. What they collect on the side (schedules, lazy fields) is
  returned as a list of events, from which the registry is built in the same order.
* `StateManager` is a state machine over histories of reads, assignments and steps; `step` is a list of atomic directory
  effects, so that a crash is a prefix of it.
* When a property is false of the code, the negation is proved on a concrete witness (`..._false`), and the part that
  does hold is proved with the suffix `_partial`.

## 4. What is modelled

| source | model | left out |
|---|---|---|
| serde.py `asdict`, `from_dict`, `_try_create_defaults`, `is_optional`, `isnamedtupleinstance` | Model/Serde, Model/Ty, Model/Blame (messages) | user-written (de)serializers; non-string dict keys; `__post_init__`, `init=False`, frozen classes; subclassing between config classes; `Tuple[X, ...]`; self-referential classes; wording of messages (place, value and class are kept); an AttributeError when a weak object holds a non-object where an object is constructed; the ValueError of `namedtuple` when a refused object with a class name has a key like `_x` or `class` |
| serde.py `loads/load/dumps/dump` | Model/Load on parsed documents | the empty text (`loads` reads it as `{}`, see C95) |
| hyperstate.py `_typed_load/_typed_dump/load/loads/dump/dumps`, `OverridesDeserializer`, `ScheduleDeserializer/Serializer`, `ElideDefaults` | Model/Load, Model/Serde | aliasing of a leftover override value |
| hyperstate.py `_apply_schedules` | Model/Apply | attributes that are properties |
| hyperstate.py `StateManager`, `config_dict`, `checkpoint(dir)`, `init_path` | Model/Manager | re-assigning `checkpoint_dir` (its effect on the directories: Model/Redirect; a first assignment: Model/Assign); Serializable fields in the config (no such config can be loaded: C50_config); `initial_state` mutating the config |
| hyperstate.py `StateManager` when operations raise and are caught | Model/ManagerExc | as above; a failing `checkpoint` has read all fields of the state or all up to the one that failed (the code converts fields while it reads them) |
| lazy.py, hyperstate.py: the argument `config` of `deserialize`, also with assignments of the user to the config | Model/LazyConfig, Model/LazyConfigUser | `deserialize` that changes the config; schedules over a state attribute that is a lazy field |
| `set_deserialize_ctx` of hyperstate.py and lazy.py | Model/Context | an `initial_state` that keeps the dictionary, a `deserialize` that changes it |
| hyperstate.py `StateManager` on a directory that another process writes to | Model/Shared | changes of the directory inside a call, other than through separate reads (see there); reads from a directory that is being deleted fail |
| hyperstate.py `checkpoint_dir` assigned to a manager created without one | Model/Assign | managers that had a directory before (Model/Redirect, without config and state) |
| assignments to attributes of `manager.config`, a property that returns the object itself (hyperstate.py:94-98) | Model/UserConfig | objects of the config that are shared: one nested object assigned to two fields, or an object that is the default of a field in the class |
| hyperstate.py `step` of several processes on one directory | Model/Ranks | two uses of the same UUID; changes by others between the test and the effect inside one system call |
| hyperstate.py `StateManager.step` in a process that is killed | Model/Life | as Model/Checkpoint: the effects on the directory happen one after another; what was copied of a checkpoint when the process ends is not looked into |
| hyperstate.py `find_latest_checkpoint`, `atomic_move`, `step`, `checkpoint` | Model/Checkpoint | Unicode digits and spaces in names |
| hyperstate.py `_dict_to_cpu` | - | unused in the repository |
| lazy.py | Model/Lazy (+ Serde for the (de)serializer) | pickle contents |
| lazy.py `blob` | Model/BlobClass: the C3 merge that Python makes of the bases | metaclasses, layouts, `__init_subclass__` |
| msgpack_torch.py | Model/Msgpack | strides and flags of arrays |
| schedule.py | Model/Schedule (exact arithmetic), Model/ScheduleFloat (every operation of `get_value` rounded), Model/ScheduleIEEE (the same on floats that can be infinite, NaN or subnormal) | the sign of zero; positions that are ints beyond 2^53 (compared exactly, then rounded); the inside of `math.cos` (assumed within a given error) |
| command.py | Model/Command | argparse, `--verbose`, printing |
| schema/rewrite_rule.py | Model/Rewrite (documents as trees), Model/Heap (documents as dict objects that are changed in place), Model/SchemaRewrite (schemas) | user-written rules; sharing through lists; a `map_fn` that changes its argument or returns a part of it |
| schema/versioned.py | Model/Rewrite, Model/Serde | `minimum_version` (never called) |
| schema/types.py | Model/Schema, Model/Subtype, Model/SchemaFile, Model/HelpText (docstrings), Model/TypeText (`__repr__`, `__str__`) | parsing of a docstring; what `docstring_parser` finds is given |
| schema/schema_change.py, schema_checker.py | Model/Checker, Model/Names, Model/Report, Model/UpgradeConfig | colours and `repr` in printed reports; `list.remove` removes the change object itself (changes have different paths, so equal ones are identical) |
| schema/help.py | Model/Help, Model/HelpText | colours; how Python writes default values is a parameter |
| schema/namedtuple_utils.py | `remove_field` returns None: inlined in `versionHook` | |

## 5. Behaviour found that contradicts the documentation or the evident intention

Each is a theorem about the model (`..._false`). Where it was feasible the theorem covers the whole class of inputs and not one witness
(for example `C18_blocked_false`, `C25_unequal_false`, `C30_options_false`, `C30_structs_false`, `C32_unequal_false`, `C40_large_keys_false`,
`C43_large_keys_false`, `C53_below_optional_false`, `C58_literals_removed_false`, `C70_nones_false`).

* Enum fields are written by name and read by value (C02); an enum field overridden by an identifier is rejected (C15).
* `ignore_extra_fields` is not passed to nested classes (C05). Shorter tuples are accepted (C04, C10). `Literal[1]` accepts
  `True` (C08). Unions of primitives do not round-trip; `Union[A, B, None]` rejects None (C09). Large ints in float fields
  are rounded (C07).
* A boolean override with an unknown spelling reuses the value of the previous override (C13, C11). An unusable override of an
  existing field hides the report of unknown ones (C12). RenameField overwrites
  an override, MapFieldValue converts it as if it were an old value, RejectValues and DeleteField drop it (C14); an overwritten
  override then takes effect at the next restart (C73).
* A document without version is rejected by `load` and not upgraded by `StateManager`, contrary to the README (C17).
* DeleteField and MapFieldValue raise if a number is in the place of an object on the path (C19, C20).
* With keys of more than twelve digits an interrupted step can lose every checkpoint (C40).
* RenameField under a None parent loses the value (C18); RejectValues deletes the value it accepts (C23) and can never be
  applied to a schema (C33); ChangeDefault has no effect when the containing object is omitted, unless another rule for the same field ran before it (C22).
* The checker: a default that is a dataclass instance or nan is always reported (C25); Optional and dataclass subtyping is
  contravariant and a Union is a subtype only of an equal one (C30), so a report of severity INFO does not imply that old files load (C27); Tuple, Dict and Union fields raise
  ValueError (C25); the float-to-int fix is never proposed (compares a Primitive with a str).
* A schema file of a class with Tuple/Dict/Union fields can be written but not read (C32).
* Schema rules and document rules differ: below lists, below None, for created parents, for Optional enums, whose variants are not mapped;
  the default of an enum field is not mapped either (C33).
* The character after the state field of a schedule is dropped unchecked (C35); a step schedule never reaches its last value
  (C37); schedules three levels deep or in lists fail or change another field (C39), and the order of two sections of the file can decide whether it is accepted (C82); the config read before the state is
  accessed has schedules evaluated at 0 (C46).
* Two steps with the same key delete the only checkpoint (C41); keys of more than 12 characters are ordered by their last 12,
  and a negative key of twelve digits is read without its sign (C43); directories ending in a number are taken for checkpoints (C44).
* Assigning a lazy field before reading it is undone by the read (C49); Serializables inside lists, nested dataclasses or in classes
  not inheriting from Lazy are not restored, and dict keys `a_b` and `a[b]` share a file (C50); a step right after restoring may delete unread blobs (C51).
* Tensors: tuples, structured dtypes, object arrays, tensors requiring grad, dicts with the marker key (C52).
* Help does not list fields below Optional dataclasses (C53); `--config ""` (C54); a malformed hyperparameter exits with
  code 0 (C57); upgrade-config writes files that no longer load (enums, Serializables) (C55).
* `config_dict()` cannot be read back for unions of dataclasses, it has no class names (C60); a manager started from a checkpoint written
  between two steps evaluates the schedules at the newer state (C61).
* If `_apply_schedules` raises while `state` is read, the state stays set and the next read returns it, with schedules not
  applied (C71).
* check-schema: the rules it proposes do not always settle the report: `AddDefault` for a removed default changes nothing,
  `RejectValues` raises on every schema, `MapFieldValue` leaves a type changed to a list as it is, exchanged enum values are
  mapped twice, and the advised version is the wrong one for classes several versions ahead (C58).
* Schedules are computed in binary64 without care for rounding (C74): the constant schedule `0.9@0 0.9@10` has the value
  0.9000000000000001 at 3, so C36 and C38 hold only up to rounding; an int field with `0@0 10@100` is 1 at 20, where the exact
  value is 2, because `int()` cuts off 1.9999999999999996.
  A schedule whose knots are more than about 1.8 · 10^308 apart has the value NaN from its last point on (`C74_overflow_false`).
* A value that is added to the manager's deserialization context after the state was loaded reaches no field, also not those that are
  read later (C75).
* Assigning `checkpoint_dir` makes the latest checkpoint found there the one that the next step deletes, although another run wrote it;
  the manager's own previous checkpoint stays behind (C76_foreign_false). If the new directory has none, the next step deletes the
  checkpoint in the old directory (C76_left_false). If it has one with the same key, the step writes nothing and deletes that one
  (C76_taken_false).
* A directory with a checkpoint, assigned to a manager whose config was read before (to compute the name of the directory, say): the state
  is restored, the config stays that of `init_path` (C78_config_read_false). If the state was read before, nothing is restored
  (C78_state_read_false) and the next step deletes the checkpoint (C78_deleted_false).
* When several processes step on the same directory, the ones that are not first raise FileNotFoundError at their second step, and at
  every later one, because the checkpoint they want to delete is gone (C79_lockstep_false, C79_gone_false); if two write the same checkpoint
  at the same time, one of them raises and leaves its copy behind (C79_race_false).
* A section with a versioned class cannot be overridden while it is left out: the override makes a section without a version, which `load` refuses (C80_override_false, for every class and field); a `StateManager` accepts it (C80_manager). The schema checker ignores the rules of section classes and asks for a rule that is already there (C80_checker_false).
* A manager that was opened on the directory of another process that is training can load nothing more once that process has made a
  step: the checkpoint it found is gone, and it does not look for a newer one (C77_gone_false). Of two processes that train in one
  directory only one can make steps (C77_two_trainers_false).
* An object with a field whose name starts with `_` cannot be dumped (`C01_underscore_false`).

A version larger than the current one is accepted silently by `load`, `loads` and the state (`C16_load_newer`).
* C83: a file that leaves out the object around a new field without default loads in the old class; with the proposed AddDefault rule the new class raises a TypeError, because the object made by the rule is weak and dropped (`C83_false`, for every class and file `C83_omitted_false`).
* C84: a class that inherits a field and describes it anew is shown with the text of its base class, and of two base classes the last one counts (`C84_own_false`, `C84_order_false`); the description of a field that has fields itself is missing in the listing (`C84_section_false`).
* C85: the second line of a description of two lines is printed at the left margin and can read as a field that does not exist (`C85_multiline_false`).
* C86: `help` does not show the fields of the dataclasses inside a union (nor inside a Dict or Tuple): classes that accept different files print the same (`C86_union_false`).
* C87: the message of a failed load can name a value that is one of the declared types (`Union[int, str]` and 3: `C87_union_false`), gives the place after the upgrade, which need not be in the file (`C87_renamed_false`), and gives no place for unknown fields, wrong enum values, texts that are no numbers (`C87_silent_false`).
* C88: which missing value is reported depends on the order of a Python set of strings, so the same program on the same file can print different messages (`C88_order_false`).
* C89: a rule that is created once and has a dict as its default gives that dict itself to the document. Later rules change it, so the second load of the same
  file in a process gives another result (`C89_stored_false`: 2, then 3). Loading a dict with `from_dict` takes the version out of it, so the same dict cannot be
  loaded twice (`C89_same_dict_false`).
* C92: a value that the user assigns to a field for which an override was given is saved, but after a restart with the same arguments the override is in
  effect again (`C92_override_false`).
* C93: a field that is assigned before it is read is overwritten from its file when another field's `deserialize` uses it
  (`C93_assigned_false`); fields that use each other raise, there is no recursion check (`C93_cycle`, lazy.py:62).
* C94: what a lazy field holds, and what the next checkpoint stores for it, depends on whether it was read before or after a step that changed the
  config (`C94_when_false`).

Not stated as theorems: `materialize_type` calls `breakpoint()` for unsupported classes.

## 6. Method per property

| id | modelled | method |
|---|---|---|
| C01 | `asdict`, RON transport, `from_dict` with all hooks | induction on the type |
| C02 | enum branch of both | direct; witness for the negation |
| C03 | `ElideDefaults` | induction on the type |
| C04 | `from_dict` on arbitrary raw values | induction on the type |
| C05, C06 | dataclass branch, `_try_create_defaults` | induction on types / field lists; for the entry points: dropping unknown entries commutes with overrides (Props/ExtraFields) |
| C07 | numeric branches with binary64 rounding of ints | arithmetic |
| C08, C09, C10 | Literal, Union, Tuple branches | case analysis; witnesses |
| C11-C15 | `OverridesDeserializer`, `find_field`, `_typed_load` | induction on override list and path |
| C16, C17 | `_apply_upgrades`, `VersionedDeserializer`, entry points | induction on version ranges |
| C18-C23 | every rewrite rule with `_remove`, `_get`, `_insert` | induction on paths; frame lemmas |
| C24 | `VersionedSerializer` | direct |
| C25-C30 | `SchemaChecker`, `schema_change`, `is_subtype` | induction on schemas, loop invariant for matching |
| C31 | `levenshtein` (row DP) and `name_similarity` | DP = recursive distance = minimum over edit scripts |
| C32 | `schema_from_namedtuple` | induction on schemas; for edited files `SaysTy` (Spec/SchemaEdited) describes a file without the loader |
| C33 | `apply` and `apply_to_schema` | induction on paths |
| C34 | `_upgrade_schema` | direct |
| C35-C38 | `_parse_schedule`, `get_value` | induction on the point list; ordered field / real analysis for cos |
| C39 | registry of schedules | induction; witness at depth 3 |
| C40-C44 | `step`, `checkpoint`, `atomic_move`, `find_latest_checkpoint` as sequences of atomic file-system effects | invariant over histories with crashes |
| C45-C47 | `StateManager` loading | composition of C01 with the directory model; `C45_class_partial` restricts the config class and the loaded document instead of the config, by the invariant `Fits` (Proofs/Fits.lean) |
| C48-C51 | `Lazy`, blob paths | state machine, induction over operation lists |
| C52 | `encode`/`decode` under a msgpack transport | structural induction |
| C53, C54, C56, C57 | `find_fields`, `help`, CLI decision logic | induction / case analysis |
| C55 | `_upgrade_config` | corollary of C01, C03, C16 |
| C58 | what one put or removed field does to the report (`open_put`), lifted to rules and lists of independent rules | induction on paths and rules; counterexamples by evaluation |
| C59 | every load, with overrides and upgrades | C01 for the objects that loads return (`Storable`), which is closed under defaults, overrides and upgrades |
| C60 | `config_dict` | induction on the object; the round trip for dumps without class names |
| C61 | `checkpoint(dir)`, `init_path` | the argument of C45 with the files given by `init_path`; what a config is saved as does not depend on its scheduled fields (`restored_applyDX`), so C61_now_partial needs no condition on them |
| C62 | `Lazy.__getattribute__` with pickled entries | two disks compared along every history; every event of a load |
| C63 | `upgrade_config` on a list of files | induction on the list |
| C64 | the config over a manager's life (hyperstate.py:136-262) | an invariant of every history (`config_history`): what loading establishes and applying schedules keeps holds of every config read |
| C65 | the same, with schedule.py | C64's invariant with C36/C37; schedule texts are evaluated by the model of schedule.py (`Evaluates`) over rationals |
| C66 | types.py:256-284, schema_change.py:125-133, rewrite_rule.py:86-104, serde.py | the recorded default (C66_recorded), what it loads as (C66_meaning), C28/C29 for the report, C22 for the rule |
| C67 | schema_checker.py:94-266, schema_change.py:113-122, rewrite_rule.py:21-37, serde.py | the two fields a reported rename is about (C67_reported), that the rule's target ends up in unmarked objects, C30 for the types, C68 for the place |
| C68 | serde.py:140-302, lazy.py:93-122 | none beyond those of `fromDict` |
| C69 | schema_checker.py:59-92, 382-391, 437-452, schema_change.py:42-73 and the `diagnostic` methods | `str`/`repr` of values and types are parameters; rules are shown as rule objects, not as their `repr`; colours left out. False of the code: the line for a renamed enum variant prints the new name twice, a new field is called "without default value" even if it has one, rules are also listed for changes that are only info. The texts are specified by `Says` (Spec/Report) in terms of the two schemas; a removed variant matched with a new one of another value is reported under the wrong enum (C69_matched_false) |
| C70 | help.py:9-13, 67-89, schema/types.py:342-347 | the text of the lines is C85. False of the code: a default None is not shown |
| C71 | hyperstate.py:93-107, 124-142, 154-201, 218-224 | both models agree on outcomes and on operations that return (`execX_exec`). False of the code: after `state` raised because a schedule cannot be evaluated, the state is set and the next access returns although no schedule was applied (C71_retry_false) |
| C72 | hyperstate.py:75-91, 113-142, 154-201, 225-243 | `Life`: histories of processes, the manager of C71 on the directory of C40; `step_wrote` shows that a step of the manager has the effects of C40 with the files that restore what the user has. Assumed: conditions on the config class and the initial config document with the overrides in it (`RunOK`); at every step the conditions of C45 on the state (`SnapOK`) and growing keys. The `C72_class` theorems replace `SnapOK` by conditions on the state class (`StClass`), on the initial state (`InitOK`) and on the values that are assigned (`MOp.Typed`): `lifeT_inv` shows that every field has a value of its type at any time, as an attribute or in a file that was not read yet |
| C73 | `StateManager.config` after a restart | the last override for each field is in effect after the load, and earlier ones for the same field are replaced in the document (`overridesLoop_replaced`); an override in effect (`InEffect`) is found in the dumped document where it is written again (`effect_way`), so that the second load reads the same values; `InEffect` is an invariant of the manager, used by C45, C61 and C72 |
| C74 | schedule.py:15-19, 42-56 with rounding; hyperstate.py:435 | forward error analysis for any monotone rounding with relative error `u` (`IsRnd`), instantiated with round-to-nearest-even at 53 bits (`isRnd_rnd64`), with binary64 and its subnormal numbers (`isRnd_rndSub`), and the rounded real cosine (`cos64_near`); `C74_no_overflow` compares the run on floats that can overflow with the run that cannot; witnesses computed by the kernel or from monotonicity; `C74_infinite_partial`, `C74_nan`: positions that are no finite numbers |
| C75 | hyperstate.py:91, 99-107, 144-151, 176; lazy.py:60-82 | a layer over Model/ManagerExc with the two contexts; no call uses `initial_state` once the state is there (`execX_same`), so the history after loading is one of a manager with a fixed context |
| C76 | hyperstate.py:81-85, 109-142 | any number of directories by path; histories with the last completed checkpoint as a ghost, the invariant is that it is intact or the interrupted step's is; one directory gives the step of Model/Checkpoint (C76_one_dir) |
| C77 | hyperstate.py:93-107, 124-201, lazy.py:40-71 | the directory changes between any two calls of the reader; a name once complete is never complete with other contents (`later_contents`, over the histories of C40); simulation of every call by the same call on the directory as it was (`Sim`) |
| C78 | hyperstate.py:59, 81-122 | equality of managers; calls of a manager without checkpoint do not read the directory (the simulation of C77 with no checkpoint, where it cannot fail) |
| C79 | hyperstate.py:82-85, 113-142, 184-195, 334-348, 507-540 | an invariant of the interleaved system: the newest checkpoint ever written is complete in the directory and nobody deletes it, since a process only deletes a checkpoint older than one it has seen there |
| C80 | versioned.py:37-80, serde.py:245-321, hyperstate.py:311-331, 356-414, schema_checker.py:36-57 | the loaded object at the path of the section is what `from_dict` makes of the section at top level (C68), which is C16 for the section's class; `SectionAt` composes this for versioned sections inside versioned sections |
| C81 | serde.py:140-348, hyperstate.py:154-182, 260-297 | induction on the path: replacing an entry of the document replaces one keyword argument of the class |
| C82 | serde.py:140-348, rewrite_rule.py, hyperstate.py:260-297, 340-445 | a relation `VPerm` (equal up to the order of dict entries) kept by the rewrite rules, the overrides and `from_dict`, by induction on the type |
| C83 | schema_change.py:75-144, rewrite_rule.py:62-84, serde.py | C28/C29 for the report, C21 for AddDefault, frames for the other rules, as for C66 |
| C84 | schema/types.py:349-358, 256-275, help.py:57-62, 83-88 | class hierarchies as trees; `dict.update` characterised by lookups. False of the code: texts of base classes override those of the class, fields with fields are listed without text |
| C85 | help.py:9-89 | reading the lines back by indentation and first colon; induction on schema types. False of the code for descriptions of several lines |
| C86 | schema/types.py:30-232, help.py:67-89, schema_change.py:145-160 | the text up to the first bracket or comma gives the kind of the type; induction on types, reading the text from the left. False of the code: classes in a union are only named |
| C87 | serde.py:140-302 | `fromDictM` mirrors `from_dict` with messages, `drop_fromDict` proves it equal to `fromDict`; well-founded induction on types; text of places: reading from the left. |
| C88 | serde.py:278-348 | the order of the set is a parameter (`IsOrder`: any permutation); induction on the nesting of classes. |
| C89 | rewrite_rule.py:21-233, versioned.py:37-80 | dict objects in a memory (`Heap`), in-place `_remove` and `_insert`; documents as trees with addresses (`OTree`), used at most once each; every rule does to the objects what Model/Rewrite does to the tree and changes no other object (`rule_ok`). This also justifies the trees of Model/Rewrite and that the value changed in place is the one that is read afterwards |
| C90 | hyperstate.py:60-260, schema_checker.py, serde.py, schedule.py | what C27 gives for one load is carried on: the registries of the two loads (`RLikeD`), the schedules applied to both configs (`apply_like`), lazy state and blobs, and C72's histories (`C90_run_partial`). `MgrEnv.changed` is the same program with another config class; loading does not depend on what decides how defaults are written (Proofs/LoadEnv) |
| C91 | lazy.py:40-71, hyperstate.py:99-195 | invariant over histories with exceptions (`Stuck`): the field stays unread, nothing is added to the directory; for C72's histories, `Wrote.restoreWith` says that a checkpoint is restored with any value of the permission |
| C92 | hyperstate.py:94-98, 113-142, 225-260 | `setConfigX` added to the operations of C71 (`runU`); a field without schedule is in the frame of `applyX` (`applyX_frame`), `KeptU`: invariants of the config over histories with exceptions; `cfgGood_assign`: the assigned value keeps the conditions under which a config is saved and restored, so that the histories of C72 have these assignments as well |
| C93 | lazy.py:40-71 | Spec/LazyDeps: `FieldVal`, the value of a field defined from the files and `deserialize` only, without order of reads; `ReadFrom`: every state that reads lead to has the same values; absence of cycles gives a chain that is too long (pigeonhole) |
| C94 | lazy.py:40-71, 84-121; hyperstate.py:99-142, 170-195 | each operation is the operation of Model/ManagerExc with a `deserialize` that has one fixed config (`execC_at`: within one operation all reads of lazy fields see the same config), so the invariants of C71, those of C92 for assignments of the user (`runUC_kept`) and the values of C93 carry over |
| C95 | hyperstate.py:154-168, 260-331; serde.py:240-281, 379-404; versioned.py:58-80 | the fields of a class that are filled from no arguments are its `AreDefaults` (as for C06), nothing is recorded for schedules or lazy fields, and a config without schedules is not changed by a history (as for C64) |
| C96 | lazy.py:144-148 | the C3 merge keeps the order of every list, adds nothing and repeats nothing; the first class that defines a name is then the same in the merged order as in one that contains all classes that define it |
