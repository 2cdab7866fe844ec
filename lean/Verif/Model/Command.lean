import Verif.Model.Load
import Verif.Model.Help
/-!
# `hyperstate/command.py`

`argparse` is external: the model starts with the parsed arguments. What is printed is modelled by the calls of `help`.
`--verbose` only adds a traceback and is left out.
-/
namespace HS

/-- the parsed arguments (command.py:18-57); `hpsInfo` is `some ""` for `--hps-info` without a value -/
structure Args where
  config : Option String
  hpsInfo : Option String
  hyperparams : List String
  checkpointDir : Option String
  resumeFrom : Option String

/-- how a command ends -/
inductive CmdOut (α : Type) where
  /-- `sys.exit(code)` after printing help -/
  | exit (code : Int) (helps : List HelpOut)
  /-- the user's function was called and returned -/
  | returned (a : α)
  | raised (e : Err)

/-- several calls of `help` -/
def helpEach (lower : Char → String) (ty : PyTy) : List String → Except Err (List HelpOut)
  | [] => .ok []
  | q :: qs => do
    let h ← helpCmd lower ty q
    let hs ← helpEach lower ty qs
    return h :: hs

/-- print help and exit, unless help raises -/
def helpExit {α : Type} (lower : Char → String) (ty : PyTy) (code : Int) (qs : List String) : CmdOut α :=
  match helpEach lower ty qs with
  | .ok hs => .exit code hs
  | .error e => .raised e

/-- the first override without `=` (command.py:131-140) -/
def badOverride : List String → Option String
  | [] => .none
  | o :: os => if '=' ∈ o.toList then badOverride os else some o

/-- `_print_config_exception(e, …)` followed by `raise` (command.py:77-79, 119-121, 143-169) -/
def handleExc {α : Type} (lower : Char → String) (ty : PyTy) : Err → CmdOut α
  | .fieldsNotFound ps => helpExit lower ty 1 ps
  | .fieldNotFound p => helpExit lower ty 1 [p]
  | .deserType => .exit 1 []
  | .deserValue => .exit 1 []
  | e => .raised e

/-- `hyperstate.load(cls, file=args.config, overrides=args.hyperparams)`; `files` reads and parses a file -/
def cmdLoad (w : World) (files : String → Except Err Val) (ty : PyTy) (a : Args) : Except Err Val :=
  match a.config with
  | .none => hsLoad w ty .none (some a.hyperparams)
  | some p => do hsLoad w ty (some (← files p)) (some a.hyperparams)

/-- `command` (command.py:60-84): `_f()` for the class `ty` and the user's function `f` -/
def commandMain {α : Type} (lower : Char → String) (w : World) (files : String → Except Err Val) (ty : PyTy)
    (f : Val → Except Err α) (a : Args) : CmdOut α :=
  match a.hpsInfo with
  | some q => helpExit lower ty 0 [q]
  | .none => match badOverride a.hyperparams with
    | some o => helpExit lower ty 0 [o]
    | .none => match cmdLoad w files ty a with
      | .error e => handleExc lower ty e
      | .ok cfg => match f cfg with
        | .ok r => .returned r
        | .error e => .raised e

/-- arguments of `StateManager` (command.py:108-116) -/
structure SMArgs where
  initPath : Option String
  checkpointDir : Option String
  overrides : List String
deriving DecidableEq

/-- `x or y` for optional strings -/
def orStr : Option String → Option String → Option String
  | some s, y => if s = "" then y else some s
  | .none, y => y

/-- `stateful_command` (command.py:87-128): `mk` is the constructor of `StateManager`, `f` the user's function -/
def statefulMain {α σ : Type} (lower : Char → String) (ty : PyTy) (mk : SMArgs → Except Err σ) (f : σ → Except Err α) (a : Args) :
    CmdOut α :=
  match a.hpsInfo with
  | some q => helpExit lower ty 0 [q]
  | .none =>
    if a.config.isSome && a.resumeFrom.isSome then .exit 1 []
    else match badOverride a.hyperparams with
      | some o => helpExit lower ty 0 [o]
      | .none => match mk ⟨orStr a.config a.resumeFrom, a.checkpointDir, a.hyperparams⟩ with
        | .error e => .raised e
        | .ok sm => match f sm with
          | .ok r => .returned r
          | .error e => handleExc lower ty e

end HS
