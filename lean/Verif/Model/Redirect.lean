import Verif.Model.Checkpoint
/-!
# `StateManager.checkpoint_dir` assigned while the manager is in use

Model/Checkpoint.lean has one directory. Here there are any number, known by their paths, and `checkpoint_dir` is assigned at any
time. Simplification: different paths are different directories, and none lies inside another.
-/
namespace HS

/-- the contents of all directories; a directory that does not exist is empty (`mkdir(parents=True, exist_ok=True)`, hyperstate.py:116) -/
abbrev Fs (P : Type) := String → Dir P

def Fs.upd {P : Type} (fs : Fs P) (d : String) (x : Dir P) : Fs P := fun e => if e = d then x else fs e

/-- effects on the directories -/
def Fs.run {P : Type} (fs : Fs P) (ops : List (String × Op P)) : Fs P := ops.foldl (fun fs o => fs.upd o.1 (o.2.run (fs o.1))) fs

/-- `checkpoint_dir`, and directory and name of `_last_checkpoint` -/
structure RMgr where
  dir : Option String
  last : Option (String × String)
deriving DecidableEq

/-- the setter of `checkpoint_dir` (hyperstate.py:113-122): `_last_checkpoint` is only assigned when there is a checkpoint -/
def RMgr.assign {P : Type} (fs : Fs P) (m : RMgr) : Option String → RMgr
  | .none => { m with dir := .none }
  | some d => ⟨some d, match openMgr (fs d) with
    | some n => some (d, n)
    | .none => m.last⟩

/-- a new StateManager (hyperstate.py:81-85) -/
def RMgr.new {P : Type} (fs : Fs P) (d : Option String) : RMgr := RMgr.assign fs ⟨.none, .none⟩ d

/-- `step` (hyperstate.py:124-142): the effects, and the manager afterwards, `none` if `shutil.move` raises -/
def RMgr.stepOps {P : Type} (mv : Move) (key : String) (val : Int) (p : P) (fs : Fs P) (m : RMgr) : List (String × Op P) × Option RMgr :=
  match m.dir with
  | .none => ([], some m)
  | some d =>
    let target := ckptName key val
    let ops := (if dhas (fs d) target then [] else checkpointOps mv target p).map (d, ·)
    match m.last with
    | .none => (ops, some ⟨some d, some (d, target)⟩)
    | some (e, l) =>
      if dhas (fs.run ops e) l then (ops ++ (removeOps mv l).map (e, ·), some ⟨some d, some (d, target)⟩) else (ops, .none)

end HS
