import Verif.Model.SchemaRewrite
import Verif.Spec.Doc
/-!
# Specification: documents that are valid for a schema
-/
namespace HS

/-- a field that a document may leave out: it has a default, or is a dataclass all of whose fields may be left out -/
inductive Omit : SFld → Prop
  | dflt {n t d doc} : Omit (.mk n t d true doc)
  | struct {n m fs v d h doc} : (∀ k f, dget fs k = some f → Omit f) → Omit (.mk n (.struct m fs v) d h doc)

/-- keys with a meaning of their own: the mark of weak objects (rewrite_rule.py:12-18), the class name (serde.py:259) -/
def Reserved (k : String) : Prop := k = WEAK_REF ∨ k = NAME_KEY

/-- a path of ordinary names -/
def Clean (p : List String) : Prop := ∀ k ∈ p, ¬ Reserved k

mutual
/-- `Valid leaf s v`: the document `v` is valid for the schema `s`. A dataclass is a dict that only has entries for fields (and reserved ones),
each valid for the type of the field, and entries for all fields that cannot be left out; a dict marked weak (see
rewrite_rule.py:224-227) may leave out anything and counts as left out itself. An Optional is None or valid. What is valid
for other types is given by `leaf`. -/
def Valid (leaf : STy → Val → Prop) : STy → Val → Prop
  | .struct _ fs _, v => ∃ d, v = .dict d ∧ (dkeys d).Nodup ∧
      (∀ k x, dget d k = some x → Reserved k ∨ ValidAt leaf fs k x) ∧
      (dhas d WEAK_REF = false → ∀ k f, dget fs k = some f → (∃ x, dget d k = some x ∧ x.isWeak = false) ∨ Omit f)
  | .option t, v => v = .none ∨ Valid leaf t v
  | .prim s, v => leaf (.prim s) v
  | .list t, v => leaf (.list t) v
  | .tuple ts, v => leaf (.tuple ts) v
  | .dict k t, v => leaf (.dict k t) v
  | .union ts, v => leaf (.union ts) v
  | .enum n vs, v => leaf (.enum n vs) v
  | .literal vs, v => leaf (.literal vs) v
  | .nothing, v => leaf .nothing v
termination_by structural x => x
/-- `v` is valid for the field `k` -/
def ValidAt (leaf : STy → Val → Prop) : List (String × SFld) → String → Val → Prop
  | [], _, _ => False
  | f :: fs, k, v => (f.1 = k ∧ ValidP leaf f v) ∨ (f.1 ≠ k ∧ ValidAt leaf fs k v)
termination_by structural x => x
def ValidP (leaf : STy → Val → Prop) : String × SFld → Val → Prop
  | (_, f), v => ValidS leaf f v
termination_by structural x => x
def ValidS (leaf : STy → Val → Prop) : SFld → Val → Prop
  | .mk _ t _ _ _, v => Valid leaf t v
termination_by structural x => x
end

/-- the path runs through dataclasses and Optional ones (not through lists), as far as it exists -/
inductive StructPath : STy → List String → Prop
  | last {n fs v k} : StructPath (.struct n fs v) [k]
  | absent {n fs v k k' ks} : dget fs k = none → StructPath (.struct n fs v) (k :: k' :: ks)
  | under {n fs v k k' ks f} : dget fs k = some f → StructPath f.type.stripOption (k' :: ks) → StructPath (.struct n fs v) (k :: k' :: ks)

/-- ... and there is no field at its end -/
inductive NewPath : STy → List String → Prop
  | last {n fs v k} : dget fs k = none → NewPath (.struct n fs v) [k]
  | absent {n fs v k k' ks} : dget fs k = none → NewPath (.struct n fs v) (k :: k' :: ks)
  | under {n fs v k k' ks f} : dget fs k = some f → NewPath f.type.stripOption (k' :: ks) → NewPath (.struct n fs v) (k :: k' :: ks)

/-- A value can be put at the path: every dataclass on the way is present in the document (or None), or all of its other fields may be
left out, or it is new. -/
inductive Room : STy → Val → List String → Prop
  | last {s v k} : Room s v [k]
  | none {s p} : Room s .none p
  | fresh {n fs v d k k' ks} : dget fs k = none → Room (.struct n fs v) d (k :: k' :: ks)
  | step {n fs v d k k' ks f m gs w} : dget fs k = some f → f.type.stripOption = .struct m gs w →
      (∀ x, dget d k = some x → x.isWeak = true → ∀ k f, dget gs k = some f → Omit f) →
      (dget d k = .none → ∀ k f, dget gs k = some f → Omit f) →
      Room (.struct m gs w) ((dget d k).getD (.dict [])) (k' :: ks) → Room (.struct n fs v) (.dict d) (k :: k' :: ks)

/-- `SField s p f`: the field of the schema at the path, through dataclasses and Optional ones -/
inductive SField : STy → List String → SFld → Prop
  | here {n fs v k f} : dget fs k = some f → SField (.struct n fs v) [k] f
  | under {n fs v k k' ks g f} : dget fs k = some g → SField g.type.stripOption (k' :: ks) f → SField (.struct n fs v) (k :: k' :: ks) f

/-- all objects on the way to the path are there, and not marked weak -/
def Parents (x : Val) (p : List String) : Prop := ∀ q, q <+: p → q ≠ p → ∃ z, x.at? q = some z ∧ z.isWeak = false

end HS
