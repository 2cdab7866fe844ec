import Verif.Model.Load
/-!
# `upgrade-config` (hyperstate/schema/schema_checker.py:394-421)
-/
namespace HS

/-- `_upgrade_config` (schema_checker.py:394-421) on a file holding `doc`: the contents of the file afterwards, and whether an
exception was raised. Simplifications: contents are parsed documents; printing (lines 400, 405-418) is left out; writing
the file (line 421) is one step. The blobs collected by `_typed_dump` are not written, since no file is passed to it
(hyperstate.py:240-241). -/
def upgradeConfig (w : World) (ty : PyTy) (elide dryRun : Bool) (doc : Val) : Val × Except Err Unit :=
  match typedLoad (w.dcfg false true) w.ron .none false ty doc with
  | .error e => (doc, .error e)
  | .ok r => match typedDump w.env (some r.schedules) elide r.value with
    | .error e => (doc, .error e)
    | .ok (doc', _) => (if dryRun then doc else doc', .ok ())

/-- the command `upgrade-config FILE...` (schema_checker.py:451-463) in a directory of config files: the files are processed in the
order given, an exception ends the run. A missing file is FileNotFoundError (serde.py:52). -/
def upgradeConfigs (w : World) (ty : PyTy) (elide dryRun : Bool) : List String → List (String × Val) → List (String × Val) × Except Err Unit
  | [], dir => (dir, .ok ())
  | f :: fs, dir => match dget dir f with
    | .none => (dir, .error .fileNotFound)
    | some doc => match upgradeConfig w ty elide dryRun doc with
      | (doc', .error e) => (dset dir f doc', .error e)
      | (doc', .ok ()) => upgradeConfigs w ty elide dryRun fs (dset dir f doc')

end HS
