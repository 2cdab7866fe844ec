import Verif.Model.Serde
/-!
# Specification: values of a class, supported classes

`HasType weak t v`: the Python value `v` is a value of the annotation `t`.  With `weak = false` this is what a type
checker would accept; `weak = true` is what a load guarantees at least (see C04): tuples may be shorter, a Literal holds
a value `==` to a listed one, a blob that was not read yet is `None`.
-/
namespace HS

mutual
def HasType (weak : Bool) : PyTy → Val → Prop
  -- `bool` is a subclass of `int`
  | .int, v => (∃ i, v = .int i) ∨ (∃ b, v = .bool b)
  | .float, v => ∃ f, v = .flt f
  | .str, v => ∃ s, v = .str s
  | .bool, v => ∃ b, v = .bool b
  | .noneT, v => v = .none
  | .list a, v => ∃ xs, v = .list xs ∧ ∀ x ∈ xs, HasType weak a x
  | .tuple as, v => ∃ xs, v = .tup xs ∧ HasTypes weak as xs
  | .dict _ b, v => ∃ kvs, v = .dict kvs ∧ (weak = false → (dkeys kvs).Nodup ∧ WEAK_REF ∉ dkeys kvs) ∧
      ∀ kv ∈ kvs, HasType weak b kv.2
  | .union as, v => HasTypeAny weak as v
  | .data n fs _, v => ∃ kvs, v = .inst n kvs ∧ HasFields weak fs kvs
  | .enum c ms, v => ∃ n w, (n, w) ∈ ms ∧ v = .enm c n w
  | .literal vs, v => v ∈ vs ∨ (weak = true ∧ ∃ w ∈ vs, pyEq v w = true)
  | .blob n, v => (∃ r, v = .ser n r) ∨ (weak = true ∧ v = .none)
termination_by structural x => x
def HasTypes (weak : Bool) : List PyTy → List Val → Prop
  | [], xs => xs = []
  | t :: ts, xs => (weak = true ∧ xs = []) ∨ ∃ y ys, xs = y :: ys ∧ HasType weak t y ∧ HasTypes weak ts ys
termination_by structural x => x
def HasTypeAny (weak : Bool) : List PyTy → Val → Prop
  | [], _ => False
  | t :: ts, v => HasType weak t v ∨ HasTypeAny weak ts v
termination_by structural x => x
/-- the attributes are the fields in order, each of its type -/
def HasFields (weak : Bool) : List Fld → List (String × Val) → Prop
  | [], kvs => kvs = []
  | f :: fs, kvs => ∃ kv rest, kvs = kv :: rest ∧ HasField weak f kv ∧ HasFields weak fs rest
termination_by structural x => x
def HasField (weak : Bool) : Fld → String × Val → Prop
  | .mk n t _, kv => kv.1 = n ∧ HasType weak t kv.2
termination_by structural x => x
end

/-- field names are identifiers: not one of the reserved keys, and usable in a namedtuple -/
def NameOK (n : String) : Prop := n ≠ NAME_KEY ∧ n ≠ WEAK_REF ∧ ['_'].isPrefixOf n.toList = false

def isData : PyTy → Bool
  | .data _ _ _ => true
  | _ => false

/-- values allowed in a Literal (enum members are excluded) -/
def LitOK : Val → Prop
  | .none | .bool _ | .int _ | .str _ => True
  | _ => False

/-- the rule table of a class is consistent: keys are below the class's version (otherwise every load raises) -/
def VerOK (ver : Option VerInfo) : Prop := ∀ vi, ver = some vi → ∀ e ∈ vi.rules, e.1 < vi.version

mutual
/-- The classes for which dump/load is claimed to round trip. Excluded are: unions other than Optional and unions of
dataclasses with distinct names, enums whose members are not named like their values, non-string dict keys, Literals with
a value that is no Python expression, `Serializable`s (see C02, C08, C09, C50), and field names starting with `_`. -/
def TyOK (e : Ext) : PyTy → Prop
  | .int | .float | .str | .bool | .noneT => True
  | .list a => TyOK e a
  | .tuple as => TyOKs e as
  | .dict k b => k = .str ∧ TyOK e b
  | .union as => TyOKs e as ∧
      (isOptionalArgs as = true ∨ ((∀ a ∈ as, isData a = true) ∧ (as.map PyTy.pyName).Nodup))
  | .data _ fs ver => (fs.map Fld.name).Nodup ∧ (∀ f ∈ fs, NameOK f.name) ∧
      (ver.isSome = true → ∀ f ∈ fs, f.name ≠ "version") ∧ VerOK ver ∧ FldsOK e fs
  | .enum _ ms => (ms.map Prod.fst).Nodup ∧ ∀ m ∈ ms, m.2 = .str m.1
  | .literal vs => ∀ v ∈ vs, e.typeArgOk v = true ∧ LitOK v
  | .blob _ => False
termination_by structural x => x
def TyOKs (e : Ext) : List PyTy → Prop
  | [] => True
  | t :: ts => TyOK e t ∧ TyOKs e ts
termination_by structural x => x
def FldsOK (e : Ext) : List Fld → Prop
  | [] => True
  | f :: fs => FldOK e f ∧ FldsOK e fs
termination_by structural x => x
def FldOK (e : Ext) : Fld → Prop
  | .mk _ t _ => TyOK e t
termination_by structural x => x
end

mutual
/-- the class table agrees with the classes occurring in the type -/
def EnvOK (env : String → ClsInfo) : PyTy → Prop
  | .int | .float | .str | .bool | .noneT | .enum _ _ | .literal _ | .blob _ => True
  | .list a => EnvOK env a
  | .tuple as => EnvOKs env as
  | .dict _ b => EnvOK env b
  | .union as => EnvOKs env as
  | .data n fs ver => env n = ⟨ver.map VerInfo.version, fs.map (fun f => (f.name, f.dflt))⟩ ∧ EnvOKf env fs
termination_by structural x => x
def EnvOKs (env : String → ClsInfo) : List PyTy → Prop
  | [] => True
  | t :: ts => EnvOK env t ∧ EnvOKs env ts
termination_by structural x => x
def EnvOKf (env : String → ClsInfo) : List Fld → Prop
  | [] => True
  | f :: fs => EnvOKf1 env f ∧ EnvOKf env fs
termination_by structural x => x
def EnvOKf1 (env : String → ClsInfo) : Fld → Prop
  | .mk _ t _ => EnvOK env t
termination_by structural x => x
end

mutual
/-- no union other than Optional occurs in the type: documents can be read without the names of classes -/
def Untagged : PyTy → Prop
  | .int | .float | .str | .bool | .noneT | .enum _ _ | .literal _ | .blob _ => True
  | .list a => Untagged a
  | .tuple as => Untaggeds as
  | .dict _ b => Untagged b
  | .union as => isOptionalArgs as = true ∧ Untaggeds as
  | .data _ fs _ => Untaggedf fs
termination_by structural x => x
def Untaggeds : List PyTy → Prop
  | [] => True
  | t :: ts => Untagged t ∧ Untaggeds ts
termination_by structural x => x
def Untaggedf : List Fld → Prop
  | [] => True
  | f :: fs => Untaggedf1 f ∧ Untaggedf fs
termination_by structural x => x
def Untaggedf1 : Fld → Prop
  | .mk _ t _ => Untagged t
termination_by structural x => x
end

mutual
/-- no attribute of an object in this value is a dict with the key that marks objects created by upgrade rules; the keys of dicts
are distinct, as in every Python dict -/
def Firm : Val → Prop
  | .none | .bool _ | .int _ | .flt _ | .str _ | .enm _ _ _ | .ser _ _ => True
  | .list xs => FirmL xs
  | .tup xs => FirmL xs
  | .dict d => (dkeys d).Nodup ∧ FirmD d
  | .ntup _ d => FirmD d
  | .inst _ kvs => (∀ kv ∈ kvs, kv.2.isWeak = false) ∧ FirmD kvs
termination_by structural x => x
def FirmL : List Val → Prop
  | [] => True
  | x :: xs => Firm x ∧ FirmL xs
termination_by structural x => x
def FirmD : List (String × Val) → Prop
  | [] => True
  | x :: xs => FirmP x ∧ FirmD xs
termination_by structural x => x
def FirmP : String × Val → Prop
  | (_, v) => Firm v
termination_by structural x => x
end

/-- a value that can be stored in a field of type `t` and comes back from there (C01): what a load returns for such a field,
see C04; every value of the type in the strict sense (`strict_firm`) -/
def Storable (t : PyTy) (v : Val) : Prop := HasType true t v ∧ Firm v ∧ v.isWeak = false

theorem firmL_iff (xs : List Val) : FirmL xs ↔ ∀ x ∈ xs, Firm x := by
  induction xs with
  | nil => simp [FirmL]
  | cons x xs ih => simp [FirmL, ih]

theorem firmD_iff (d : List (String × Val)) : FirmD d ↔ ∀ kv ∈ d, Firm kv.2 := by
  induction d with
  | nil => simp [FirmD]
  | cons x xs ih => obtain ⟨k, v⟩ := x; simp [FirmD, FirmP, ih]

end HS
