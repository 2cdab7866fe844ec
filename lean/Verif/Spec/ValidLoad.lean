import Verif.Spec.Valid
import Verif.Spec.Compat
import Verif.Model.Serde
/-!
# Specification: rules that act alike on a schema and a document
-/
namespace HS

/-- a value that loads with (a class of) this schema type -/
def LoadsAs (c : DCfg) (t : STy) (v : Val) : Prop := ∃ ty, materialize ty = .ok t ∧ ∀ path, ∃ r, fromDict c ty false path v = .ok r

/-- schemas to which rules have been applied: as `GoodS`, but dataclasses may carry a version;
no field has the reserved name -/
inductive MidS : STy → Prop
  | struct {n fs v} : fs ≠ [] → NAME_KEY ∉ fs.map Prod.fst → (∀ k f, (k, f) ∈ fs → MidS f.type) → MidS (.struct n fs v)
  | option {t} : MidS t → MidS (.option t)
  | leaf {t} : t.isStruct = false → (∀ u, t ≠ .option u) → GoodS true t → MidS t

/-- The conditions under which a rule acts alike on the schema and the document: the path exists, and goes through dataclasses and Optional
ones; what is moved or put back has a place to go to (see the constructors). -/
inductive Agree (leaf : STy → Val → Prop) : Rule → STy → Val → Prop
  | delete {S p doc} : StructPath S p → Clean p → Agree leaf (.delete p) S doc
  /-- the new path is free once the field is gone; a document with the field has room for it there, a document without it was
  allowed to leave it out -/
  | rename {S S1 f old new doc} : SField S old f → Clean old → Clean new → (Rule.delete old).applySchema S = .ok S1 → NewPath S1 new →
      (∀ y, doc.at? old = some y → (y.isWeak = false ∨ Omit f) ∧ ∀ doc1, (Rule.delete old).apply doc = .ok doc1 → Room S1 doc1 new) →
      (doc.at? old = none → Omit f) → Agree leaf (.rename old new) S doc
  /-- the function maps values valid for the old type to values valid for the new one -/
  | mapValue {S f p fn r doc} : SField S p f → Clean p → (∀ y, doc.at? p = some y → Parents doc p) →
      (∀ S' f', (Rule.mapValue p fn r).applySchema S = .ok S' → SField S' p f' → ∀ y, Valid leaf f.type y →
        ∃ z, fn y = .ok z ∧ Valid leaf f'.type z ∧ z.isWeak = false) → Agree leaf (.mapValue p fn r) S doc
  /-- the field has a default, and the old one is valid -/
  | changeDefault {S n t d h p old new doc} : SField S p (.mk n t d true h) → Clean p → (∀ y, doc.at? p = some y → Parents doc p) →
      Valid leaf t old → Agree leaf (.changeDefault p old new) S doc
  /-- the default is valid for the type of the field -/
  | addDefault {S f p d doc} : SField S p f → Clean p → Valid leaf f.type d → Agree leaf (.addDefault p d) S doc
  /-- the document passes the check -/
  | checkValue {S f p allowed doc} : SField S p f → Clean p → (Omit f → f.hasDefault = true) →
      (∀ y, pyMem y allowed = true → leaf (.literal allowed) y) → (∃ doc', (Rule.checkValue p allowed).apply doc = .ok doc') →
      Agree leaf (.checkValue p allowed) S doc

/-- ... for a list of rules, each on what the rules before it leave -/
inductive AgreeL (leaf : STy → Val → Prop) : List Rule → STy → Val → Prop
  | nil {S doc} : AgreeL leaf [] S doc
  | cons {r rs S doc} : Agree leaf r S doc → (∀ S' doc', r.applySchema S = .ok S' → r.apply doc = .ok doc' → AgreeL leaf rs S' doc') →
      AgreeL leaf (r :: rs) S doc

/-- rules for fields of the main class, with conditions on the schema only -/
inductive TopRule (leaf : STy → Val → Prop) : Rule → STy → Prop
  | delete {n fs v k} : ¬ Reserved k → TopRule leaf (.delete [k]) (.struct n fs v)
  | rename {n fs v a b f} : dget fs a = some f → ¬ Reserved a → ¬ Reserved b → (b = a ∨ dget fs b = none) →
      TopRule leaf (.rename [a] [b]) (.struct n fs v)
  | mapValue {n fs v k f fn r} : dget fs k = some f → ¬ Reserved k →
      (∀ S' f', (Rule.mapValue [k] fn r).applySchema (.struct n fs v) = .ok S' → SField S' [k] f' → ∀ y, Valid leaf f.type y →
        ∃ z, fn y = .ok z ∧ Valid leaf f'.type z ∧ z.isWeak = false) → TopRule leaf (.mapValue [k] fn r) (.struct n fs v)
  | changeDefault {n fs v k m t d h old new} : dget fs k = some (.mk m t d true h) → ¬ Reserved k → Valid leaf t old → old.isWeak = false →
      TopRule leaf (.changeDefault [k] old new) (.struct n fs v)
  | addDefault {n fs v k f d} : dget fs k = some f → ¬ Reserved k → Valid leaf f.type d → d.isWeak = false →
      TopRule leaf (.addDefault [k] d) (.struct n fs v)

inductive TopRules (leaf : STy → Val → Prop) : List Rule → STy → Prop
  | nil {S} : TopRules leaf [] S
  | cons {r rs S} : TopRule leaf r S → (∀ S', r.applySchema S = .ok S' → TopRules leaf rs S') → TopRules leaf (r :: rs) S

/-- neither the document nor its entries are marked weak (documents as people write them) -/
def Unmarked (doc : Val) : Prop := doc.isWeak = false ∧ ∀ k x, doc.at? [k] = some x → x.isWeak = false

end HS
