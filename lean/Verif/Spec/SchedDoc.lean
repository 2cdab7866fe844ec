import Verif.Spec.Restore
/-!
# Specification: where a document holds schedules
-/
namespace HS

/-- the document a dataclass is read from: upgraded first if the class is versioned -/
def upgraded (allowMissing : Bool) : Option VerInfo → Val → Except Err Val
  | some vi, v => versionHook allowMissing vi v
  | .none, v => .ok v

/-- the entries of an object in a document -/
def docEntries : Val → List (String × Val)
  | .dict d => d
  | .ntup _ d => d
  | _ => []

def Val.isInst : Val → Bool
  | .inst _ _ => true
  | _ => false

/-- `SchedIn am t doc segs s b`: following the field names `segs` through (optional) dataclass fields of `t`, the document
`doc` holds the schedule `s` for an `int` (`b = true`) or `float` field. -/
inductive SchedIn (am : Bool) : PyTy → Val → List String → String → Bool → Prop
  | int {s : String} : '@' ∈ s.toList → SchedIn am .int (.str s) [] s true
  | float {s : String} : '@' ∈ s.toList → SchedIn am .float (.str s) [] s false
  | opt {t : PyTy} {ts : List PyTy} {doc : Val} {segs : List String} {s : String} {b : Bool} :
      isOptionalArgs (t :: ts) = true → SchedIn am t doc segs s b → SchedIn am (.union (t :: ts)) doc segs s b
  | field {c : String} {fs : List Fld} {ver : Option VerInfo} {doc doc' x : Val} {n : String} {t : PyTy} {d : Option Val}
      {segs : List String} {s : String} {b : Bool} :
      upgraded am ver doc = .ok doc' → (n, x) ∈ docEntries doc' → x.isWeak = false → .mk n t d ∈ fs →
      SchedIn am t x segs s b → SchedIn am (.data c fs ver) doc (n :: segs) s b

mutual
/-- the document holds no schedule for any `int` or `float` occurring in `t`, at whatever depth -/
def NoSched (am : Bool) : PyTy → Val → Prop
  | .int, v => ∀ s, v = .str s → '@' ∉ s.toList
  | .float, v => ∀ s, v = .str s → '@' ∉ s.toList
  | .list a, v => ∀ xs, v = .list xs → ∀ x ∈ xs, NoSched am a x
  | .tuple as, v => (∀ xs, v = .tup xs → NoScheds am as xs) ∧ ∀ n kvs, v = .ntup n kvs → NoScheds am as (kvs.map Prod.snd)
  | .dict _ b, v => ∀ kvs, v = .dict kvs → ∀ kv ∈ kvs, NoSched am b kv.2
  | .union as, v => NoSchedAny am as v
  | .data _ fs ver, v => ∀ v', upgraded am ver v = .ok v' → v'.isInst = false ∧ NoSchedFs am fs (docEntries v')
  | _, _ => True
termination_by structural x => x
def NoScheds (am : Bool) : List PyTy → List Val → Prop
  | [], _ => True
  | t :: ts, xs => (∀ y ys, xs = y :: ys → NoSched am t y ∧ NoScheds am ts ys)
termination_by structural x => x
def NoSchedAny (am : Bool) : List PyTy → Val → Prop
  | [], _ => True
  | t :: ts, v => NoSched am t v ∧ NoSchedAny am ts v
termination_by structural x => x
def NoSchedFs (am : Bool) : List Fld → List (String × Val) → Prop
  | [], _ => True
  | f :: fs, kvs => NoSchedF am f kvs ∧ NoSchedFs am fs kvs
termination_by structural x => x
def NoSchedF (am : Bool) : Fld → List (String × Val) → Prop
  | .mk n t _, kvs => ∀ x, (n, x) ∈ kvs → NoSched am t x
termination_by structural x => x
end

mutual
/-- `Shallow am n t doc`: all schedules in the document are for `int` or `float` fields reached through at most `n` (optional)
dataclass fields; there are none in lists, tuples, dicts and unions. The keys of the objects on the way are distinct (as in
every parsed document). -/
def Shallow (am : Bool) : PyTy → Nat → Val → Prop
  | .int, _, _ => True
  | .float, _, _ => True
  | .union as, n, v => (isOptionalArgs as = true ∧ ShallowHead am as n v) ∨ (isOptionalArgs as = false ∧ NoSchedAny am as v)
  | .data _ fs ver, n, v => ∀ v', upgraded am ver v = .ok v' → v'.isInst = false ∧ (dkeys (docEntries v')).Nodup ∧
      ShallowFs am fs n (docEntries v')
  | t, _, v => NoSched am t v
termination_by structural x => x
def ShallowHead (am : Bool) : List PyTy → Nat → Val → Prop
  | [], _, _ => True
  | t :: _, n, v => Shallow am t n v
termination_by structural x => x
def ShallowFs (am : Bool) : List Fld → Nat → List (String × Val) → Prop
  | [], _, _ => True
  | f :: fs, n, kvs => ShallowF am f n kvs ∧ ShallowFs am fs n kvs
termination_by structural x => x
def ShallowF (am : Bool) : Fld → Nat → List (String × Val) → Prop
  | .mk k t _, n, kvs => ∀ x, (k, x) ∈ kvs → x.isWeak = false →
      (n = 0 ∧ NoSched am t x) ∨ ∃ m, n = m + 1 ∧ Shallow am t m x
termination_by structural x => x
end

mutual
/-- field names are distinct identifiers, in the class and in the dataclasses nested in it through (optional) fields -/
def IdsOK : PyTy → Prop
  | .union as => IdsOKHead as
  | .data _ fs _ => (fs.map Fld.name).Nodup ∧ (∀ f ∈ fs, NameOK f.name ∧ IdOK f.name) ∧ IdsOKf fs
  | _ => True
termination_by structural x => x
def IdsOKHead : List PyTy → Prop
  | [] => True
  | t :: _ => IdsOK t
termination_by structural x => x
def IdsOKf : List Fld → Prop
  | [] => True
  | f :: fs => IdsOK1 f ∧ IdsOKf fs
termination_by structural x => x
def IdsOK1 : Fld → Prop
  | .mk _ t _ => IdsOK t
termination_by structural x => x
end

end HS
