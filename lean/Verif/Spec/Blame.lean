import Verif.Model.Serde
/-!
# Specification: places in a document, and values that a declared type refuses
-/
namespace HS

/-- one step into a document: a field of a dataclass, an element of a list or tuple, an entry of a Dict -/
inductive Hop where
  | field (k : String)
  | elem (i : Nat)
  | key (k : String)
deriving DecidableEq, Repr

/-- how a place is written: `model.layers[2].size`; the entry `k` of a Dict as `.k` -/
def Hop.onto (p : String) : Hop → String
  | .field k => if p = "" then k else p ++ "." ++ k
  | .elem i => p ++ "[" ++ i.repr ++ "]"
  | .key k => p ++ "." ++ k

/-- a place below the place written `p` -/
def showFrom (p : String) (q : List Hop) : String := q.foldl Hop.onto p

/-- the entries of a value that stands for a dataclass: an object, named or not, `()`, or an instance -/
inductive Entries (env : String → ClsInfo) : Val → List (String × Val) → Prop
  | dict (d : List (String × Val)) : Entries env (.dict d) d
  | ntup (n : String) (d : List (String × Val)) : Entries env (.ntup n d) d
  | unit : Entries env (.tup []) []
  | inst (n : String) (kvs bs d : List (String × Val)) :
      asdict { plainCfg with env := env } "" (.inst n kvs) = .ok (.dict d, bs) → Entries env (.inst n kvs) d

/-- `v` is no instance of the class `n` -/
def NotOf (n : String) : Val → Prop
  | .inst cls _ => cls ≠ n
  | _ => True

/-- In a document `v` for the type `t`, the value at place `q` is `v'`, declared as `t'`. For a versioned class the
document is the upgraded one. `P` is required of everything that stands before `v'` in the lists, tuples, objects on the
way. -/
inductive ReachP (c : DCfg) (P : PyTy → Val → Prop) : PyTy → Val → List Hop → PyTy → Val → Prop
  | here (t : PyTy) (v : Val) : ReachP c P t v [] t v
  | optional {a t' : PyTy} {v v' : Val} {q : List Hop} : v ≠ .none → ReachP c P a v q t' v' →
      ReachP c P (.union [a, .noneT]) v q t' v'
  | tagged {pre post : List PyTy} {a t' : PyTy} {d : List (String × Val)} {n v' : Val} {q : List Hop} :
      isOptionalArgs (pre ++ a :: post) = false → dget d NAME_KEY = some n → (∀ b ∈ pre, pyEq n (.str b.pyName) = false) →
      pyEq n (.str a.pyName) = true → ReachP c P a (.dict d) q t' v' →
      ReachP c P (.union (pre ++ a :: post)) (.dict d) q t' v'
  | elem {a t' : PyTy} {pre post : List Val} {x v' : Val} {q : List Hop} : (∀ y ∈ pre, P a y) → ReachP c P a x q t' v' →
      ReachP c P (.list a) (.list (pre ++ x :: post)) (.elem pre.length :: q) t' v'
  | member {as : List PyTy} {a t' : PyTy} {pre post : List Val} {x v' : Val} {q : List Hop} :
      as[pre.length]? = some a → (∀ (j : Nat) (y : Val) (b : PyTy), pre[j]? = some y → as[j]? = some b → P b y) →
      ReachP c P a x q t' v' → ReachP c P (.tuple as) (.tup (pre ++ x :: post)) (.elem pre.length :: q) t' v'
  | nmember {as : List PyTy} {a t' : PyTy} {n : String} {kvs : List (String × Val)} {pre post : List Val} {x v' : Val}
      {q : List Hop} : kvs.map Prod.snd = pre ++ x :: post → as[pre.length]? = some a →
      (∀ (j : Nat) (y : Val) (b : PyTy), pre[j]? = some y → as[j]? = some b → P b y) →
      ReachP c P a x q t' v' → ReachP c P (.tuple as) (.ntup n kvs) (.elem pre.length :: q) t' v'
  | item {a b t' : PyTy} {pre post : List (String × Val)} {k : String} {x v' : Val} {q : List Hop} :
      (∀ e ∈ pre, P b e.2) → ReachP c P b x q t' v' →
      ReachP c P (.dict a b) (.dict (pre ++ (k, x) :: post)) (.key k :: q) t' v'
  | field {n : String} {fs : List Fld} {t' : PyTy} {v x v' : Val} {pre post : List (String × Val)} {k : String} {f : Fld}
      {q : List Hop} : NotOf n v → Entries c.env v (pre ++ (k, x) :: post) → k ≠ NAME_KEY → x.isWeak = false →
      fs.find? (fun g => g.name == k) = some f →
      (∀ e ∈ pre, e.1 ≠ NAME_KEY → e.2.isWeak = false → ∀ g, fs.find? (fun g => g.name == e.1) = some g → P g.ty e.2) →
      ReachP c P f.ty x q t' v' → ReachP c P (.data n fs .none) v (.field k :: q) t' v'
  | upgraded {n : String} {fs : List Fld} {vi : VerInfo} {t' : PyTy} {v w v' : Val} {q : List Hop} :
      versionHook c.allowMissing vi v = .ok w → ReachP c P (.data n fs .none) w q t' v' →
      ReachP c P (.data n fs (some vi)) v q t' v'

/-- the value `v'`, declared as `t'`, stands at place `q` of the document `v` for `t` -/
abbrev StandsAt (c : DCfg) (t : PyTy) (v : Val) (q : List Hop) (t' : PyTy) (v' : Val) : Prop := ReachP c (fun _ _ => True) t v q t' v'

/-- `v` loads as `t` -/
def Loads (c : DCfg) (t : PyTy) (v : Val) : Prop := ∃ path r, fromDict c t false path v = .ok r

/-- a text with a number that is not whole -/
def NotWhole (e : Ext) (s : String) : Prop := ∃ q : Rat, e.parseFloat s = some (.fin q) ∧ q.den ≠ 1

/-- The values that are refused as they stand, whatever is inside them. For a union this is what the code does, which is not
whether the value is one of the declared types. -/
def Wrong (c : DCfg) : PyTy → Val → Prop
  | .int, .int _ | .int, .bool _ => False
  | .int, .flt f => ∃ q : Rat, f = .fin q ∧ q.den ≠ 1
  | .int, .str s => '@' ∉ s.toList ∧ NotWhole c.ext s
  | .int, _ => True
  | .float, .flt _ | .float, .int _ | .float, .bool _ | .float, .str _ => False
  | .float, _ => True
  | .str, .str _ | .str, .ntup _ [] => False
  | .str, _ => True
  | .bool, .bool _ => False
  | .bool, _ => True
  | .noneT, .none => False
  | .noneT, _ => True
  | .list _, .list _ => False
  | .list _, _ => True
  | .tuple _, .tup _ | .tuple _, .ntup _ _ => False
  | .tuple _, _ => True
  | .dict _ _, .dict _ => False
  | .dict _ _, _ => True
  | .literal vals, .ntup n [] => vals.all c.ext.typeArgOk = true ∧ pyMem (.str n) vals = false
  | .literal vals, v => vals.all c.ext.typeArgOk = true ∧ pyMem v vals = false
  | .blob cls, .ser cls' _ => c.file = false ∧ cls' ≠ cls
  | .blob _, _ => c.file = false
  | .union as, v => isOptionalArgs as = false ∧ match v with
    | .ntup _ [] => as.any PyTy.isStr = false
    | .int _ | .bool _ => as.any PyTy.isFloat = false
    | .flt f => as.any PyTy.isInt = false ∨ ∃ q : Rat, f = .fin q ∧ q.den ≠ 1
    | .str s => as.any PyTy.isFloat = false ∧ (as.any PyTy.isInt = false ∨ NotWhole c.ext s)
    | .dict d => as.any PyTy.hasArgs = false ∧ ∀ n, dget d NAME_KEY = some n → ∀ a ∈ as, pyEq n (.str a.pyName) = false
    | .list _ => as.any PyTy.hasArgs = false
    | _ => True
  | .data _ _ _, _ | .enum _ _, _ => False

/-- the document gives a value for the field `k` -/
def Given (d : List (String × Val)) (k : String) : Prop := ∃ x, (k, x) ∈ d ∧ k ≠ NAME_KEY ∧ x.isWeak = false

/-- a field without default whose type is not a dataclass -/
def Fld.owed : Fld → Bool
  | .mk _ (.data _ _ _) _ => false
  | .mk _ _ d => d.isNone

/-- To construct the class `n` at the place written `p` with no value for the fields `fs`, the class `cls` is
constructed at `p'`, with no value for the fields `gs`: it is the same, or the class of a field without default on the way. -/
inductive Opens : String → String → List Fld → String → String → List Fld → Prop
  | here (n p : String) (fs : List Fld) : Opens n p fs n p fs
  | inside {n p : String} {fs : List Fld} {k m : String} {gs : List Fld} {ver : Option VerInfo} {cls p' : String} {hs : List Fld} :
      Fld.mk k (.data m gs ver) .none ∈ fs → Opens m (Hop.onto p (.field k)) gs cls p' hs → Opens n p fs cls p' hs

/-- a value has to be given: there is no default, and if it is a dataclass, not for all of its fields either -/
inductive Needs : Fld → Prop
  | leaf {k : String} {t : PyTy} : (∀ n fs ver, t ≠ .data n fs ver) → Needs (.mk k t .none)
  | inside {k n : String} {gs : List Fld} {ver : Option VerInfo} {g : Fld} : g ∈ gs → Needs g → Needs (.mk k (.data n gs ver) .none)

end HS
