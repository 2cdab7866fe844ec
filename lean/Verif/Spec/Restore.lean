import Verif.Spec.Typing
import Verif.Model.Apply
/-!
# Specification: what a dump followed by a load gives back when there are schedules and `Serializable`s
-/
namespace HS

/-- what is registered for an attribute -/
def Reg.child : Option Reg → String → Option Reg
  | some (.node es), k => dget es k
  | _, _ => .none

def Reg.isSched : Option Reg → Bool
  | some (.sched _ _ _) => true
  | _ => false

/-- names of fields are identifiers -/
def IdOK (n : String) : Prop := n ≠ "" ∧ '.' ∉ n.toList ∧ '[' ∉ n.toList ∧ ']' ∉ n.toList

/-- conditions on a dataclass under which it can be dumped and loaded at all (those of `TyOK`, without its fields) -/
def ClassOK (fs : List Fld) (ver : Option VerInfo) : Prop :=
  (fs.map Fld.name).Nodup ∧ (∀ f ∈ fs, NameOK f.name ∧ IdOK f.name) ∧
    (ver.isSome = true → ∀ f ∈ fs, f.name ≠ "version") ∧ VerOK ver

mutual
/-- `Restored e t r path v v' bs es`: dumping `v : t` at `path`, where the schedules `r` are registered, and loading the
result gives `v'`, where a scheduled number holds the value of its schedule at 0 and a `Serializable` is not read yet;
`bs` are the blob files that are written, `es` the schedules and blobs the load finds. Schedules and `Serializable`s may sit
in fields of (optional) nested dataclasses. -/
def Restored (e : Ext) : PyTy → Option Reg → String → Val → Val → List (String × Val) → List Ev → Prop
  | .int, r, path, v, v', bs, es => Storable .int v ∧ bs = [] ∧
      ((r = .none ∧ v' = v ∧ es = []) ∨
       ∃ txt a f i, r = some (.sched txt true a) ∧ '@' ∈ txt.toList ∧ e.schedAt0 txt = .ok f ∧ f.toInt = .ok i ∧
        v' = .int i ∧ es = [.sched path txt true])
  | .float, r, path, v, v', bs, es => Storable .float v ∧ bs = [] ∧
      ((r = .none ∧ v' = v ∧ es = []) ∨
       ∃ txt a f, r = some (.sched txt false a) ∧ '@' ∈ txt.toList ∧ e.schedAt0 txt = .ok f ∧
        v' = .flt f ∧ es = [.sched path txt false])
  | .blob n, r, path, v, v', bs, es => r = .none ∧ ∃ x, v = .ser n x ∧ v' = .none ∧ bs = [(blobFile path, x)] ∧
      es = [.lazy path n (blobFile path) false]
  | .data n fs ver, r, path, v, v', bs, es => ClassOK fs ver ∧ Reg.isSched r = false ∧
      (∀ k, k ∉ fs.map Fld.name → Reg.child r k = .none) ∧
      ∃ kvs kvs', v = .inst n kvs ∧ v' = .inst n kvs' ∧ RestoredFs e fs r path kvs kvs' bs es
  | .union as, r, path, v, v', bs, es =>
      (r = .none ∧ TyOK e (.union as) ∧ Storable (.union as) v ∧ v' = v ∧ bs = [] ∧ es = []) ∨
      (isOptionalArgs as = true ∧ r = .none ∧ v = .none ∧ v' = .none ∧ bs = [] ∧ es = []) ∨
      (isOptionalArgs as = true ∧ RestoredHead e as r path v v' bs es)
  | t, r, _, v, v', bs, es => r = .none ∧ TyOK e t ∧ Storable t v ∧ v' = v ∧ bs = [] ∧ es = []
termination_by structural x => x
def RestoredHead (e : Ext) : List PyTy → Option Reg → String → Val → Val → List (String × Val) → List Ev → Prop
  | [], _, _, _, _, _, _ => False
  | t :: _, r, path, v, v', bs, es => Restored e t r path v v' bs es
termination_by structural x => x
def RestoredFs (e : Ext) : List Fld → Option Reg → String → List (String × Val) → List (String × Val) →
    List (String × Val) → List Ev → Prop
  | [], _, _, kvs, kvs', bs, es => kvs = [] ∧ kvs' = [] ∧ bs = [] ∧ es = []
  | f :: fs, r, path, kvs, kvs', bs, es => ∃ v v' bs1 es1 rest rest' bs2 es2,
      RestoredF e f r path v v' bs1 es1 ∧ RestoredFs e fs r path rest rest' bs2 es2 ∧
      kvs = (f.name, v) :: rest ∧ kvs' = (f.name, v') :: rest' ∧ bs = bs1 ++ bs2 ∧ es = es1 ++ es2
termination_by structural x => x
def RestoredF (e : Ext) : Fld → Option Reg → String → Val → Val → List (String × Val) → List Ev → Prop
  | .mk n t _, r, path, v, v', bs, es => Restored e t (Reg.child r n) (joinPath path n) v v' bs es
termination_by structural x => x
end

mutual
/-- `Fits e blobs t r v`: `v` is a value of `t` in which every scheduled field (according to `r`) is an int or float field of
a dataclass that is the config itself or nested in it through (optional) dataclass fields; likewise for `Serializable`s,
which occur only if `blobs`. Everything else is a value of a class that round trips (`TyOK`). -/
def Fits (e : Ext) (blobs : Bool) : PyTy → Option Reg → Val → Prop
  | .int, r, v => Storable .int v ∧
      (r = .none ∨ ∃ txt a f i, r = some (.sched txt true a) ∧ '@' ∈ txt.toList ∧ e.schedAt0 txt = .ok f ∧ f.toInt = .ok i)
  | .float, r, v => Storable .float v ∧
      (r = .none ∨ ∃ txt a f, r = some (.sched txt false a) ∧ '@' ∈ txt.toList ∧ e.schedAt0 txt = .ok f)
  | .blob n, r, v => blobs = true ∧ r = .none ∧ ∃ x, v = .ser n x
  | .data n fs ver, r, v => ClassOK fs ver ∧ Reg.isSched r = false ∧
      (∀ k, k ∉ fs.map Fld.name → Reg.child r k = .none) ∧ ∃ kvs, v = .inst n kvs ∧ FitsFs e blobs fs r kvs
  | .union as, r, v =>
      (r = .none ∧ TyOK e (.union as) ∧ Storable (.union as) v) ∨
      (isOptionalArgs as = true ∧ r = .none ∧ v = .none) ∨
      (isOptionalArgs as = true ∧ FitsHead e blobs as r v)
  | t, r, v => r = .none ∧ TyOK e t ∧ Storable t v
termination_by structural x => x
def FitsHead (e : Ext) (blobs : Bool) : List PyTy → Option Reg → Val → Prop
  | [], _, _ => False
  | t :: _, r, v => Fits e blobs t r v
termination_by structural x => x
def FitsFs (e : Ext) (blobs : Bool) : List Fld → Option Reg → List (String × Val) → Prop
  | [], _, kvs => kvs = []
  | f :: fs, r, kvs => ∃ v rest, kvs = (f.name, v) :: rest ∧ FitsF e blobs f r v ∧ FitsFs e blobs fs r rest
termination_by structural x => x
def FitsF (e : Ext) (blobs : Bool) : Fld → Option Reg → Val → Prop
  | .mk n t _, r, v => Fits e blobs t (Reg.child r n) v
termination_by structural x => x
end

/-- the schedule registered at a path of attribute names -/
def Reg.at : Option Reg → List String → Option (String × Bool)
  | some (.sched t i _), [] => some (t, i)
  | some (.node es), s :: ss => Reg.at (dget es s) ss
  | _, _ => .none

/-- the same schedules, for the same fields -/
def RegEqv (r r' : Option Reg) : Prop := ∀ segs, Reg.at r segs = Reg.at r' segs

/-- the value at a path of attribute names -/
def valAt : Val → List String → Option Val
  | v, [] => some v
  | .inst _ kvs, s :: ss => match dget kvs s with
    | some v => valAt v ss
    | .none => .none
  | _, _ :: _ => .none

/-- the field with this schedule, an `int` field if `isInt` and otherwise a `float` field, holds the value of the schedule,
truncated for an `int` field; `sv txt` is the value of the schedule with the text `txt` -/
def SchedIs (sv : String → Except Err Flt) (txt : String) (isInt : Bool) (x : Val) : Prop :=
  ∃ f, sv txt = .ok f ∧ ((isInt = false ∧ x = .flt f) ∨ (isInt = true ∧ ∃ n, f.toInt = .ok n ∧ x = .int n))

/-- the scheduled fields of `v` hold the values of their schedules -/
def Current (sv : String → Except Err Flt) (r : Option Reg) (v : Val) : Prop :=
  ∀ segs txt i, Reg.at r segs = some (txt, i) → ∃ x, SchedIs sv txt i x ∧ valAt v segs = some x

end HS
