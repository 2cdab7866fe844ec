import Verif.Model.Help
import Verif.Spec.Fields
/-!
# Specification: the fields of a class that lie in directly nested dataclasses
-/
namespace HS

/-- The path names the field `f`, going through directly nested dataclasses (not Optional ones). -/
inductive DirectAt : List Fld → List String → Fld → Prop
  | here {fs : List Fld} {f : Fld} : f ∈ fs → DirectAt fs [f.name] f
  | there {fs : List Fld} {f g : Fld} {n : String} {fs' : List Fld} {ver : Option VerInfo} {p : List String} :
      f ∈ fs → f.ty = .data n fs' ver → DirectAt fs' p g → DirectAt fs (f.name :: p) g

/-- In every dataclass of the tree the field names are distinct (Python guarantees it). -/
inductive DistinctNames : List Fld → Prop
  | mk {fs : List Fld} : (fs.map Fld.name).Nodup →
      (∀ (f : Fld) (n : String) (fs' : List Fld) (ver : Option VerInfo), f ∈ fs → f.ty = .data n fs' ver → DistinctNames fs') →
      DistinctNames fs

/-- the path under which an entry of the search is shown -/
def Found.fullPath (r : Found) : List String := r.path ++ [r.field.name]

end HS
