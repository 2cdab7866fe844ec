import Verif.Model.Py
/-!
# Checkpoint directories: `StateManager.checkpoint_dir`, `step`, `checkpoint`, `find_latest_checkpoint`, `atomic_move`

A checkpoint directory is a list of entries in listing order (`iterdir`). The contents of a checkpoint (config.ron, state.ron
and the blob files) are one value of the parameter `P`; whether dumping and loading these files is faithful is the subject of
Model/Load.lean. A directory that is being copied or deleted is `broken`: nothing is assumed about its contents.
-/
namespace HS

/-! ## numerals -/

/-- `str.isspace` on the ASCII range (simplification: other Unicode spaces are not spaces) -/
def isSpaceC (c : Char) : Bool := c.toNat == 32 || (9 ≤ c.toNat && c.toNat ≤ 13) || (28 ≤ c.toNat && c.toNat ≤ 31)

/-- `s.strip()` -/
def stripC (cs : List Char) : List Char := ((cs.dropWhile isSpaceC).reverse.dropWhile isSpaceC).reverse

/-- value of an ASCII digit (simplification: `int` also accepts other Unicode digits) -/
def digitVal (c : Char) : Option Nat := if '0' ≤ c ∧ c ≤ '9' then some (c.toNat - 48) else .none

/-- digits with single underscores between them; `prev`: the previous character was a digit -/
def digitsC : List Char → Nat → Bool → Option Nat
  | [], acc, prev => if prev then some acc else .none
  | c :: cs, acc, prev =>
    if c = '_' then if prev then digitsC cs acc false else .none
    else match digitVal c with
      | some d => digitsC cs (10 * acc + d) true
      | .none => .none

/-- `int(s)`; `none` is ValueError -/
def pyInt (cs : List Char) : Option Int :=
  match stripC cs with
  | '-' :: r => (digitsC r 0 false).map (fun n => -(n : Int))
  | '+' :: r => (digitsC r 0 false).map (fun n => (n : Int))
  | r => (digitsC r 0 false).map (fun n => (n : Int))

def digitC (n : Nat) : Char := Char.ofNat (48 + n)

/-- decimal digits of `n`; enough for `n < 10^(fuel+1)` -/
def decF : Nat → Nat → List Char
  | 0, n => [digitC (n % 10)]
  | f + 1, n => if n < 10 then [digitC n] else decF f (n / 10) ++ [digitC (n % 10)]

/-- `str(n)` -/
def dec (n : Nat) : List Char := decF n.log2 n

/-- `f"{i:0w}"`: padded with zeros after the sign -/
def fmtPad (w : Nat) (i : Int) : List Char :=
  if 0 ≤ i then List.replicate (w - (dec i.natAbs).length) '0' ++ dec i.natAbs
  else '-' :: (List.replicate (w - 1 - (dec i.natAbs).length) '0' ++ dec i.natAbs)

/-! ## directories -/

inductive Ent (P : Type) where
  /-- a complete checkpoint -/
  | full (p : P)
  /-- a directory with unknown contents -/
  | broken
  /-- not a directory -/
  | file
deriving DecidableEq

abbrev Dir (P : Type) := List (String × Ent P)

def Ent.isDir {P : Type} : Ent P → Bool
  | .file => false
  | _ => true

/-- the number that `find_latest_checkpoint` reads off a name: `int(d.name[-12:])`, if there are 12 characters
(hyperstate.py:341-344) -/
def suffixInt (name : String) : Option Int :=
  if 12 ≤ name.toList.length then pyInt (name.toList.drop (name.toList.length - 12)) else .none

/-- the loop of `find_latest_checkpoint` (hyperstate.py:340-347) -/
def findLatestLoop {P : Type} : Dir P → Option (Int × String) → Option (Int × String)
  | [], best => best
  | (n, e) :: d, best =>
    if e.isDir then
      match suffixInt n with
      | some i => match best with
        | .none => findLatestLoop d (some (i, n))
        | some (j, _) => if i > j then findLatestLoop d (some (i, n)) else findLatestLoop d best
      | .none => findLatestLoop d best
    else findLatestLoop d best

/-- `find_latest_checkpoint` (hyperstate.py:334-348) on an existing directory -/
def findLatest {P : Type} (d : Dir P) : Option String := (findLatestLoop d .none).map Prod.snd

/-- `checkpoint_dir` setter for a new StateManager (hyperstate.py:82-85, 113-122): the value of `_last_checkpoint` -/
def openMgr {P : Type} (d : Dir P) : Option String :=
  match findLatest d with
  | some n => if "latest".toList.isPrefixOf n.toList then some n else .none
  | .none => .none

/-- `f"latest-{self.checkpoint_key}{val:012}"` (hyperstate.py:134-136) -/
def ckptName (key : String) (val : Int) : String := String.ofList ("latest-".toList ++ key.toList ++ fmtPad 12 val)

/-! ## atomic effects on the directory -/

inductive Op (P : Type) where
  | put (name : String) (e : Ent P)
  | mv (src dst : String)
  | del (name : String)

def Op.run {P : Type} (d : Dir P) : Op P → Dir P
  | .put n e => dset d n e
  | .mv s t => match dget d s with
    | some e => dset (ddel d s) t e
    | .none => d
  | .del n => ddel d n

def runOps {P : Type} (d : Dir P) (ops : List (Op P)) : Dir P := ops.foldl Op.run d

/-- How the operating system carries out a step: the id drawn if the checkpoint has to be copied across file systems
(`none`: same file system, a single rename), and whether the old checkpoint is deleted by copying it away. -/
structure Move where
  copyId : Option String
  slowDelete : Bool

/-- `checkpoint` / `atomic_move` into `target` (hyperstate.py:184-195, 507-540). Writing the files happens in a temporary
directory elsewhere. -/
def checkpointOps {P : Type} (m : Move) (target : String) (p : P) : List (Op P) :=
  match m.copyId with
  | .none => [.put target (.full p)]
  | some id =>
    let tmp := target ++ "." ++ id ++ ".tmp"
    [.put tmp .broken, .put tmp (.full p), .mv tmp target]

/-- `shutil.move(last, tmpdir)` (hyperstate.py:139-141): a rename, or copy and `rmtree` -/
def removeOps {P : Type} (m : Move) (name : String) : List (Op P) :=
  if m.slowDelete then [.put name .broken, .del name] else [.del name]

/-- `step` with a checkpoint directory (hyperstate.py:124-142): the effects on the directory and the outcome, `none` when
`shutil.move` does not find the previous checkpoint (FileNotFoundError, `_last_checkpoint` not updated).
`val` is the state's checkpoint key. -/
def stepOps {P : Type} (m : Move) (key : String) (val : Int) (p : P) (d : Dir P) (last : Option String) :
    List (Op P) × Option String :=
  let target := ckptName key val
  let ops := if dhas d target then [] else checkpointOps m target p
  match last with
  | .none => (ops, some target)
  | some l =>
    if dhas (runOps d ops) l then (ops ++ removeOps m l, some target) else (ops, .none)

/-- directory and `_last_checkpoint` after `step` returned; `none` when it raised -/
def stepRun {P : Type} (m : Move) (key : String) (val : Int) (p : P) (d : Dir P) (last : Option String) :
    Option (Dir P × Option String) :=
  match stepOps m key val p d last with
  | (ops, some t) => some (runOps d ops, some t)
  | (_, .none) => .none

/-- directory after a crash when `n` effects of a step have been carried out -/
def stepCrash {P : Type} (m : Move) (key : String) (val : Int) (p : P) (d : Dir P) (last : Option String) (n : Nat) : Dir P :=
  runOps d ((stepOps m key val p d last).1.take n)

/-- what a StateManager opened on the directory restores (hyperstate.py:154-182): the contents of `_last_checkpoint`;
`none` also when the directory is not a complete checkpoint (the load would fail or be wrong) -/
def restored {P : Type} (d : Dir P) : Option P :=
  match openMgr d with
  | some n => match dget d n with
    | some (.full p) => some p
    | _ => .none
  | .none => .none

end HS
