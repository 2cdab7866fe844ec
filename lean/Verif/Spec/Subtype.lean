import Verif.Model.Subtype
import Verif.Model.Serde
import Verif.Proofs.PyEq
/-!
# Specification: parts of a document, classes of schema types
-/
namespace HS

/-- `Inside x y`: the value `x` occurs in the document `y` -/
inductive Inside (x : Val) : Val → Prop
  | refl : Inside x x
  | list {xs y} : y ∈ xs → Inside x y → Inside x (.list xs)
  | tup {xs y} : y ∈ xs → Inside x y → Inside x (.tup xs)
  | ntup {n kvs k y} : (k, y) ∈ kvs → Inside x y → Inside x (.ntup n kvs)
  | dict {kvs k y} : (k, y) ∈ kvs → Inside x y → Inside x (.dict kvs)

/-- every int in the document can be converted to a float -/
def IntsFit (x : Val) : Prop := ∀ i, Inside (.int i) x → ∃ f, floatOfInt i = .ok f

/-- types without Optional, dataclass, union -/
inductive FlatS : STy → Prop
  | prim {s} : FlatS (.prim s)
  | list {t} : FlatS t → FlatS (.list t)
  | tuple {ts} : (∀ t ∈ ts, FlatS t) → FlatS (.tuple ts)
  | dict {k v} : FlatS v → FlatS (.dict k v)
  | enum {n vs} : (∀ k v, (k, v) ∈ vs → v.scalar = true) → FlatS (.enum n vs)
  | literal {vs} : FlatS (.literal vs)

mutual
/-- the values of every Literal in the type can be evaluated as type arguments (otherwise nothing loads, see C08) -/
def LitUsable (e : Ext) : STy → Prop
  | .list t => LitUsable e t
  | .tuple ts => LitUsableL e ts
  | .dict _ v => LitUsable e v
  | .option t => LitUsable e t
  | .literal vs => ∀ v ∈ vs, e.typeArgOk v = true
  | .struct _ fs _ => LitUsableF e fs
  | _ => True
termination_by structural x => x
def LitUsableF (e : Ext) : List (String × SFld) → Prop
  | [] => True
  | f :: fs => LitUsableP e f ∧ LitUsableF e fs
termination_by structural x => x
def LitUsableP (e : Ext) : String × SFld → Prop
  | (_, f) => LitUsableS e f
termination_by structural x => x
def LitUsableS (e : Ext) : SFld → Prop
  | .mk _ t _ _ _ => LitUsable e t
termination_by structural x => x
def LitUsableL (e : Ext) : List STy → Prop
  | [] => True
  | t :: ts => LitUsable e t ∧ LitUsableL e ts
termination_by structural x => x
end

/-- how a schema shows a value: an enum member by its value -/
def schemaVal : Val → Val
  | .enm _ _ w => w
  | v => v

/-- elements of a list, tuple or namedtuple -/
def Val.elems : Val → List Val
  | .list xs => xs
  | .tup xs => xs
  | .ntup _ kvs => kvs.map Prod.snd
  | _ => []

/-- entries of a dict, namedtuple or empty tuple -/
def Val.entries : Val → List (String × Val)
  | .dict d => d
  | .ntup _ kvs => kvs
  | _ => []

/-- `Kept x v w`: the values `v` and `w`, both loaded from the document `x`, agree on everything `x` contains: they are the same
(and no dataclass instance), or `==`, or members of enums with `==` values, or an int and a float converted from each other, or containers whose elements
agree, or dataclass instances whose attributes agree for every field set in the document -/
inductive Kept : Val → Val → Val → Prop
  | doc {x} : Kept x x x
  | refl {x v} : (∀ n kvs, v ≠ .inst n kvs) → Kept x v v
  | same {x v w} : (∀ n kvs, v ≠ .inst n kvs) → pyEq (schemaVal v) (schemaVal w) = true → Kept x v w
  | trunc {x i f} : f.toInt = .ok i → Kept x (.int i) (.flt f)
  | round {x i f} : floatOfInt i = .ok f → Kept x (.int i) (.flt f)
  | list {x ys zs} : ys.length = x.elems.length → zs.length = x.elems.length →
      (∀ (i : Nat) a b c, x.elems[i]? = some a → ys[i]? = some b → zs[i]? = some c → Kept a b c) → Kept x (.list ys) (.list zs)
  | tup {x ys zs} : ys.length = x.elems.length → zs.length = x.elems.length →
      (∀ (i : Nat) a b c, x.elems[i]? = some a → ys[i]? = some b → zs[i]? = some c → Kept a b c) → Kept x (.tup ys) (.tup zs)
  | dict {x ys zs} : dkeys ys = dkeys x.entries → dkeys zs = dkeys x.entries →
      (∀ (i : Nat) a b c, (x.entries.map Prod.snd)[i]? = some a → (ys.map Prod.snd)[i]? = some b → (zs.map Prod.snd)[i]? = some c → Kept a b c) →
      Kept x (.dict ys) (.dict zs)
  | inst {x n m ys zs} : (∀ k a, dget x.entries k = some a → k ≠ NAME_KEY → a.isWeak = false → dhas ys k = true ∧ dhas zs k = true) →
      (∀ k a b c, dget x.entries k = some a → k ≠ NAME_KEY → a.isWeak = false → dget ys k = some b → dget zs k = some c → Kept a b c) →
      Kept x (.inst n ys) (.inst m zs)

/-- the same schedule or blob at the same place; an int field may have become a float field -/
inductive EvLike : Ev → Ev → Prop
  | same {e} : EvLike e e
  | float {p s} : EvLike (.sched p s true) (.sched p s false)

/-- the schedules and blobs found in a document by two loads -/
def EvsLike : List Ev → List Ev → Prop
  | [], [] => True
  | e :: es, f :: fs => EvLike e f ∧ EvsLike es fs
  | _, _ => False

/-- schema types that are `==` to themselves: dict keys are distinct and no nan occurs -/
inductive SelfT : STy → Prop
  | prim {s} : SelfT (.prim s)
  | list {t} : SelfT t → SelfT (.list t)
  | tuple {ts} : (∀ t ∈ ts, SelfT t) → SelfT (.tuple ts)
  | dict {k v} : SelfT k → SelfT v → SelfT (.dict k v)
  | union {ts} : (∀ t ∈ ts, SelfT t) → SelfT (.union ts)
  | enum {n vs} : (vs.map Prod.fst).Nodup → (∀ k v, (k, v) ∈ vs → pyEq v v = true) → SelfT (.enum n vs)
  | literal {vs} : (∀ v ∈ vs, pyEq v v = true) → SelfT (.literal vs)
  | struct {n fs v} : (fs.map Prod.fst).Nodup → (∀ k f, (k, f) ∈ fs → SelfT f.type) →
      (∀ k f, (k, f) ∈ fs → pyEq f.dflt f.dflt = true) → SelfT (.struct n fs v)
  | option {t} : SelfT t → SelfT (.option t)
  | nothing : SelfT .nothing

end HS
