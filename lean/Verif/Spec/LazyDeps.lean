import Verif.Model.Lazy
/-!
# The value of a lazy field whose `deserialize` uses other fields
-/
namespace HS

/-- the values of several fields -/
def evalAll (f : String → Option Val) : List String → Option (List Val)
  | [] => some []
  | k :: ks => match f k, evalAll f ks with
    | some v, some vs => some (v :: vs)
    | _, _ => .none

/-- The value of a field when nothing has been remembered: an attribute, or for an unread field what `deserialize` makes of its file
and of the values of the fields it uses, up to `n` fields deep. Unlike `Lazy.__getattribute__` this changes nothing. -/
def evalField (L : LEnv) (o : LObj) : Nat → String → Option Val
  | 0, k => match dget o.unloaded k with
    | .none => dget o.attrs k
    | some _ => .none
  | n + 1, k => match dget o.unloaded k with
    | .none => dget o.attrs k
    | some e => match L.disk e.file with
      | .none => .none
      | some p =>
        if e.pickle && !L.pickleOk then .none
        else match evalAll (evalField L o n) (L.deps e.cls) with
          | .none => .none
          | some vs => match L.deser e.cls p vs with
            | .ok v => some v
            | .error _ => .none

/-- the field stands for the value `v` -/
def FieldVal (L : LEnv) (o : LObj) (k : String) (v : Val) : Prop := ∃ n, evalField L o n k = some v

end HS
