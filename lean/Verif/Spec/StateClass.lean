import Verif.Spec.Restore
import Verif.Spec.SchedDoc
import Verif.Model.Manager
import Verif.Proofs.Lazy
/-!
# state classes, and the values of their fields
-/
namespace HS

/-- a `Serializable` class, or Optional of one -/
inductive SerTy : PyTy → String → Prop
  | ser (c : String) : SerTy (.blob c) c
  | opt {c : String} {ts : List PyTy} : isOptionalArgs (.blob c :: ts) = true → SerTy (.union (.blob c :: ts)) c

/-- The values for a field of the state: an object of the `Serializable` class whose `serialize()` gives a payload as described by
`pay` (or None if the field is Optional), or a value of a type that round trips. -/
inductive StVal (e : Ext) (pay : String → Val → Prop) : PyTy → Val → Prop
  | ser {t : PyTy} {c : String} {y : Val} : SerTy t c → pay c y → StVal e pay t (.ser c y)
  | none {c : String} {ts : List PyTy} : isOptionalArgs (.blob c :: ts) = true → StVal e pay (.union (.blob c :: ts)) .none
  | plain {t : PyTy} {v : Val} : TyOK e t → IdsOK t → Storable t v → StVal e pay t v

/-- Conditions on the state class `sn` with fields `fs`. -/
structure StClass (E : MgrEnv) (pay : String → Val → Prop) (sn : String) (fs : List Fld) (ver : Option VerInfo) : Prop where
  ty : E.stTy = .data sn fs ver
  ok : ClassOK fs ver
  /-- a class with Serializable fields inherits from Lazy (otherwise they are read as None, C50) -/
  lazy : ∀ f ∈ fs, ∀ c, SerTy f.ty c → E.stLazy = true
  /-- `deserialize` inverts `serialize` -/
  deser : ∀ f ∈ fs, ∀ c, SerTy f.ty c → ∀ y vs, pay c y → E.deser c y vs = .ok (.ser c y)
  /-- `deserialize` reads other fields of the state, not in a cycle -/
  deps : ∃ rank : String → Nat, (∀ f ∈ fs, ∀ c, SerTy f.ty c → ∀ d ∈ E.deps c, d ∈ fs.map Fld.name ∧ rank d < rank f.name) ∧
    ∀ f ∈ fs, rank f.name < E.depth
  /-- schedules depend on the fields that are not Serializable -/
  sv : ∀ a b, (∀ f ∈ fs, (∀ c, ¬ SerTy f.ty c) → dget a f.name = dget b f.name) → E.sv a = E.sv b

/-- every field has a value of its type -/
structure Vals (e : Ext) (pay : String → Val → Prop) (fs : List Fld) (saved : List (String × Val)) : Prop where
  names : dkeys saved = fs.map Fld.name
  vals : ∀ f ∈ fs, ∀ x, dget saved f.name = some x → StVal e pay f.ty x

/-- every field of the object has a value of its type, as an attribute or in a file that has not been read yet -/
def ObjOK (e : Ext) (pay : String → Val → Prop) (sn : String) (fs : List Fld) (disk : String → Option Val) (o : LObj) : Prop :=
  o.cls = sn ∧ ∃ saved, Vals e pay fs saved ∧ LInv disk saved o

/-- the state that is loaded from the files of a checkpoint, if it can be loaded -/
def FilesOK (E : MgrEnv) (pay : String → Val → Prop) (sn : String) (fs : List Fld) (f : Files) : Prop :=
  ∀ o, loadStateObj E f.state = .ok o → ObjOK E.w.ext pay sn fs (dget f.blobs) o

/-- the state of a manager that does not find a checkpoint: from the directory `init_path`, or from `initial_state` -/
def InitOK (E : MgrEnv) (pay : String → Val → Prop) (sn : String) (fs : List Fld) : Prop :=
  (∀ f, E.init = .dir f → FilesOK E pay sn fs f) ∧
  ((∀ f, E.init ≠ .dir f) → ∀ c cls kvs, E.initial c = .ok (cls, kvs) → cls = sn ∧
    ∃ saved, Vals E.w.ext pay fs saved ∧ ∀ k x, dget saved k = some x → dget kvs k = some x)

/-- values assigned to fields of the state have the type of the field -/
def MOp.Typed (e : Ext) (pay : String → Val → Prop) (fs : List Fld) : MOp → Prop
  | .setState k v => ∀ f ∈ fs, f.name = k → StVal e pay f.ty v
  | _ => True

end HS
