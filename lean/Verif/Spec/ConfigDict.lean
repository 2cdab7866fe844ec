import Verif.Model.Serde
/-!
# Specification: the nested dictionary for an object
-/
namespace HS

mutual
/-- `Mirror ver v w`: `w` is `v` with every object replaced by a dict of its attributes, in order, and every enum member by its
name; `ver` gives the version of a class, which comes first in its dicts -/
def Mirror (ver : String → Option Int) : Val → Val → Prop
  | .inst c kvs, w => ∃ d, MirrorD ver kvs d ∧
      w = .dict ((match ver c with | some n => [("version", .int n)] | .none => []) ++ d)
  | .dict kvs, w => ∃ d, MirrorD ver kvs d ∧ w = .dict d
  | .list xs, w => ∃ ys, MirrorL ver xs ys ∧ w = .list ys
  | .tup xs, w => ∃ ys, MirrorL ver xs ys ∧ w = .tup ys
  | .ntup _ kvs, w => ∃ d, MirrorD ver kvs d ∧ w = .tup (d.map Prod.snd)
  | .enm _ n _, w => w = .str n
  | .ser _ _, _ => False
  | v, w => w = v
termination_by structural x => x
def MirrorL (ver : String → Option Int) : List Val → List Val → Prop
  | [], ys => ys = []
  | x :: xs, ys => ∃ z zs, ys = z :: zs ∧ Mirror ver x z ∧ MirrorL ver xs zs
termination_by structural x => x
def MirrorD (ver : String → Option Int) : List (String × Val) → List (String × Val) → Prop
  | [], ys => ys = []
  | x :: xs, ys => ∃ z zs, ys = z :: zs ∧ MirrorP ver x z ∧ MirrorD ver xs zs
termination_by structural x => x
def MirrorP (ver : String → Option Int) : String × Val → String × Val → Prop
  | (k, v), z => z.1 = k ∧ Mirror ver v z.2
termination_by structural x => x
end

mutual
/-- attribute names of an object are distinct, and a class with a version has no field called `version` -/
def Tidy (ver : String → Option Int) : Val → Prop
  | .inst c kvs => (dkeys kvs).Nodup ∧ ((ver c).isSome = true → "version" ∉ dkeys kvs) ∧ TidyD ver kvs
  | .dict kvs => TidyD ver kvs
  | .list xs => TidyL ver xs
  | .tup xs => TidyL ver xs
  | .ntup _ kvs => TidyD ver kvs
  | _ => True
termination_by structural x => x
def TidyL (ver : String → Option Int) : List Val → Prop
  | [] => True
  | x :: xs => Tidy ver x ∧ TidyL ver xs
termination_by structural x => x
def TidyD (ver : String → Option Int) : List (String × Val) → Prop
  | [] => True
  | x :: xs => TidyP ver x ∧ TidyD ver xs
termination_by structural x => x
def TidyP (ver : String → Option Int) : String × Val → Prop
  | (_, v) => Tidy ver v
termination_by structural x => x
end

mutual
/-- plain Python data: no objects of classes, no enum members, no named tuples -/
def Basic : Val → Prop
  | .list xs => BasicL xs
  | .tup xs => BasicL xs
  | .dict kvs => BasicD kvs
  | .inst _ _ | .enm _ _ _ | .ntup _ _ | .ser _ _ => False
  | _ => True
termination_by structural x => x
def BasicL : List Val → Prop
  | [] => True
  | x :: xs => Basic x ∧ BasicL xs
termination_by structural x => x
def BasicD : List (String × Val) → Prop
  | [] => True
  | x :: xs => BasicP x ∧ BasicD xs
termination_by structural x => x
def BasicP : String × Val → Prop
  | (_, v) => Basic v
termination_by structural x => x
end

end HS
