import Verif.Model.Ty
/-!
# Specification: what a dotted path means for a class and for an object
-/
namespace HS

/-- `Optional[...[Optional[cls]]...]` -/
inductive Strips : PyTy → PyTy → Prop
  | refl (n fs ver) : Strips (.data n fs ver) (.data n fs ver)
  | opt {t u} : Strips t u → Strips (.optional t) u

/-- The path names a field of declared type `t`, going through nested (possibly optional) dataclasses. -/
inductive FieldAt : List Fld → List String → PyTy → Prop
  | here {fs : List Fld} {k : String} {f : Fld} : fs.find? (fun f => f.name == k) = some f → FieldAt fs [k] f.ty
  | there {fs : List Fld} {k k' : String} {ks : List String} {f : Fld} {n : String} {fs' : List Fld}
      {ver : Option VerInfo} {t : PyTy} : fs.find? (fun f => f.name == k) = some f → Strips f.ty (.data n fs' ver) →
      FieldAt fs' (k' :: ks) t → FieldAt fs (k :: k' :: ks) t

/-- As `FieldAt`, and no class on the way (below the first) is versioned. -/
inductive FieldAtU : List Fld → List String → PyTy → Prop
  | here {fs : List Fld} {k : String} {f : Fld} : fs.find? (fun f => f.name == k) = some f → FieldAtU fs [k] f.ty
  | there {fs : List Fld} {k k' : String} {ks : List String} {f : Fld} {n : String} {fs' : List Fld} {t : PyTy} :
      fs.find? (fun f => f.name == k) = some f → Strips f.ty (.data n fs' .none) →
      FieldAtU fs' (k' :: ks) t → FieldAtU fs (k :: k' :: ks) t

theorem FieldAtU.toFieldAt {fs : List Fld} {p : List String} {t : PyTy} (h : FieldAtU fs p t) : FieldAt fs p t := by
  induction h with
  | here h => exact .here h
  | there h1 h2 _ ih => exact .there h1 h2 ih

/-- `obj.a.b.c` -/
def Val.attr : Val → List String → Option Val
  | v, [] => some v
  | .inst _ kvs, k :: ks => (dget kvs k).bind (fun c => c.attr ks)
  | _, _ :: _ => .none

end HS
