import Verif.Model.Checkpoint
/-!
# Several processes that call `step` on the same checkpoint directory

For example the processes of a distributed training. Model/Checkpoint.lean has one process; here any number of them are interleaved
between any two effects on the directory.

Simplifications: the names of temporary copies, which contain a random UUID, are not used twice; the check of `os.rename` and the
renaming happen at once; `shutil.move` finds the old checkpoint or not, and if it has to copy it, everything that can be observed is
that the directory is incomplete from the beginning of the deletion on.
-/
namespace HS

/-- where a process is in `step` -/
inductive Pc (P : Type) where
  /-- not in `step` -/
  | idle
  /-- before `checkpoint_dir.exists()` (hyperstate.py:137); `val` is the checkpoint key, `p` are config and state -/
  | entered (val : Int) (p : P)
  /-- the files have been written to a temporary directory, before `os.rename(src, dst)` (hyperstate.py:195, 523) -/
  | dumped (val : Int) (p : P)
  /-- in `shutil.move(src, tmp_dst)` (hyperstate.py:534) -/
  | copying (val : Int) (p : P) (tmp : String)
  /-- before `os.rename(tmp_dst, dst)` (hyperstate.py:538) -/
  | copied (val : Int) (p : P) (tmp : String)
  /-- before `if self._last_checkpoint is not None` (hyperstate.py:139) -/
  | present (val : Int)
  /-- in `shutil.move(self._last_checkpoint, tmpdir)`, which deletes the old checkpoint file by file (hyperstate.py:141) -/
  | deleting (val : Int) (l : String)
deriving DecidableEq

/-- a process: `_last_checkpoint`, and where it is -/
structure Rank (P : Type) where
  last : Option String
  pc : Pc P
deriving DecidableEq

/-- what the operating system decides; `over`: a directory that is being deleted is empty already, so that it can be replaced by
`os.rename`; `clash`: deleting fails because others change the same directory -/
structure Os where
  move : Move
  over : Bool
  clash : Bool

/-- what a process does with its next effect -/
inductive Outcome where
  | running
  /-- `step` returns, for this checkpoint key -/
  | returned (val : Int)
  /-- `step` raises -/
  | raised
deriving DecidableEq

/-- `os.rename` of a directory onto `n`: possible if there is nothing, or an empty directory -/
def canRename {P : Type} (os : Os) (d : Dir P) (n : String) : Bool :=
  match dget d n with
  | .none => true
  | some .broken => os.over
  | some _ => false

/-- the next effect of a process (hyperstate.py:129-142, 184-195, 507-540): the directory and the process afterwards -/
def Rank.next {P : Type} (key : String) (os : Os) (d : Dir P) (r : Rank P) : Dir P × Rank P × Outcome :=
  match r.pc with
  | .idle => (d, r, .running)
  | .entered v p =>
    if dhas d (ckptName key v) then (d, ⟨r.last, .present v⟩, .running) else (d, ⟨r.last, .dumped v p⟩, .running)
  | .dumped v p => match os.move.copyId with
    | .none =>
      if canRename os d (ckptName key v) then (dset d (ckptName key v) (.full p), ⟨r.last, .present v⟩, .running)
      else (d, ⟨r.last, .idle⟩, .raised)
    | some id =>
      let tmp := ckptName key v ++ "." ++ id ++ ".tmp"
      (dset d tmp .broken, ⟨r.last, .copying v p tmp⟩, .running)
  | .copying v p tmp => (dset d tmp (.full p), ⟨r.last, .copied v p tmp⟩, .running)
  | .copied v p tmp =>
    if canRename os d (ckptName key v) then (dset (ddel d tmp) (ckptName key v) (.full p), ⟨r.last, .present v⟩, .running)
    else (d, ⟨r.last, .idle⟩, .raised)
  | .present v => match r.last with
    | .none => (d, ⟨some (ckptName key v), .idle⟩, .returned v)
    | some l =>
      if dhas d l then
        if os.move.slowDelete then (dset d l .broken, ⟨r.last, .deleting v l⟩, .running)
        else (ddel d l, ⟨some (ckptName key v), .idle⟩, .returned v)
      else (d, ⟨r.last, .idle⟩, .raised)
  | .deleting v l =>
    if dhas d l && !os.clash then (ddel d l, ⟨some (ckptName key v), .idle⟩, .returned v)
    else (d, ⟨r.last, .idle⟩, .raised)

/-- the directory and the processes -/
structure Ranks (P : Type) where
  dir : Dir P
  procs : Nat → Option (Rank P)

def Ranks.put {P : Type} (s : Ranks P) (i : Nat) (r : Option (Rank P)) : Nat → Option (Rank P) := fun j => if j = i then r else s.procs j

/-- what happens next -/
inductive REv (P : Type) where
  /-- a new StateManager on the directory (hyperstate.py:82-85, 113-122) -/
  | start (i : Nat)
  /-- process `i` calls `step` with this checkpoint key, config and state (hyperstate.py:124-136) -/
  | call (i : Nat) (val : Int) (p : P)
  /-- the next effect of process `i` -/
  | next (i : Nat) (os : Os)
  /-- process `i` ends -/
  | crash (i : Nat)

/-- the system afterwards, and what became of the call that was running -/
def Ranks.ev {P : Type} (key : String) (s : Ranks P) : REv P → Ranks P × Outcome
  | .start i => (⟨s.dir, s.put i (some ⟨openMgr s.dir, .idle⟩)⟩, .running)
  | .call i v p => match s.procs i with
    | some ⟨last, .idle⟩ => (⟨s.dir, s.put i (some ⟨last, .entered v p⟩)⟩, .running)
    | _ => (s, .running)
  | .next i os => match s.procs i with
    | some r =>
      let x := r.next key os s.dir
      (⟨x.1, s.put i (some x.2.1)⟩, x.2.2)
    | .none => (s, .running)
  | .crash i => (⟨s.dir, s.put i .none⟩, .running)

/-- a history: the outcomes, and the system at the end -/
def Ranks.run {P : Type} (key : String) : Ranks P → List (REv P) → List Outcome × Ranks P
  | s, [] => ([], s)
  | s, e :: es =>
    let x := s.ev key e
    let y := x.1.run key es
    (x.2 :: y.1, y.2)

end HS
