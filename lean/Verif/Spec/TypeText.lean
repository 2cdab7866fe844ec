import Verif.Model.TypeText
/-!
# Specification: types that can be told from their text
-/
namespace HS

/-- the characters that separate the parts of a written type -/
def NoSep (w : List Char) : Prop := ∀ c ∈ w, c ≠ '[' ∧ c ≠ ']' ∧ c ≠ ',' ∧ c ≠ '|' ∧ c ≠ '(' ∧ c ≠ ':' ∧ c ≠ '}' ∧ c ≠ ' ' ∧ c ≠ '\n'

/-- how a number or a quoted string begins -/
def ValStart (c : Char) : Bool := c.isDigit || c == '-' || c == '\'' || c == '"'

/-- the names of types and constants that a class should not have -/
def reservedNames : List String := ["int", "str", "bool", "float", "Nothing", "True", "False", "None"]

/-- what is asked of `repr` for the values `P`: no separators inside, different values are written differently, and a value begins with a
digit, a minus sign or a quote, unless it is True, False or None -/
structure ReprOK (rv : Val → String) (P : Val → Prop) : Prop where
  clean : ∀ v, P v → NoSep (rv v).toList
  inj : ∀ v w, P v → P w → rv v = rv w → v = w
  start : ∀ v, P v → rv v ∈ ["True", "False", "None"] ∨ ∃ c cs, (rv v).toList = c :: cs ∧ ValStart c = true

/-- a class name: not empty, no separators, not like a value, and not the name of something else -/
def ClassName (n : String) : Prop :=
  NoSep n.toList ∧ n ∉ reservedNames ∧ ∃ c cs, n.toList = c :: cs ∧ ValStart c = false

mutual
/-- types whose texts can be told apart: values of Literals and enums are among `P`, classes have proper names, and no dataclass is
directly inside a Tuple -/
inductive Readable (P : Val → Prop) : STy → Prop
  | prim {s : String} : s ∈ ["int", "str", "bool", "float"] → Readable P (.prim s)
  | list {t : STy} : Readable P t → Readable P (.list t)
  | tuple {ts : List STy} : ReadableL P ts → (∀ t ∈ ts, t.isStruct = false) → Readable P (.tuple ts)
  | dict {k v : STy} : Readable P k → Readable P v → Readable P (.dict k v)
  | union {ts : List STy} : ReadableL P ts → Readable P (.union ts)
  | enum {n : String} {vs : List (String × Val)} : P (.str n) → (∀ kv ∈ vs, P (.str kv.1) ∧ P kv.2) → Readable P (.enum n vs)
  | literal {vs : List Val} : vs ≠ [] → (∀ v ∈ vs, P v) → Readable P (.literal vs)
  | struct {n : String} {fs : List (String × SFld)} {v : Option Int} : ClassName n → Readable P (.struct n fs v)
  | option {t : STy} : Readable P t → Readable P (.option t)
  | nothing : Readable P .nothing
inductive ReadableL (P : Val → Prop) : List STy → Prop
  | nil : ReadableL P []
  | cons {t : STy} {ts : List STy} : Readable P t → ReadableL P ts → ReadableL P (t :: ts)
end

mutual
/-- the same type, where a dataclass is only its name, and the order of the values of a Literal does not count -/
inductive SameTy : STy → STy → Prop
  | prim (s : String) : SameTy (.prim s) (.prim s)
  | list {t u : STy} : SameTy t u → SameTy (.list t) (.list u)
  | tuple {ts us : List STy} : SameTyL ts us → SameTy (.tuple ts) (.tuple us)
  | dict {k v k' v' : STy} : SameTy k k' → SameTy v v' → SameTy (.dict k v) (.dict k' v')
  | union {ts us : List STy} : SameTyL ts us → SameTy (.union ts) (.union us)
  | enum (n : String) (vs : List (String × Val)) : SameTy (.enum n vs) (.enum n vs)
  | literal {vs ws : List Val} : vs.Perm ws → SameTy (.literal vs) (.literal ws)
  | struct (n : String) (fs gs : List (String × SFld)) (v w : Option Int) : SameTy (.struct n fs v) (.struct n gs w)
  | option {t u : STy} : SameTy t u → SameTy (.option t) (.option u)
  | nothing : SameTy .nothing .nothing
inductive SameTyL : List STy → List STy → Prop
  | nil : SameTyL [] []
  | cons {t u : STy} {ts us : List STy} : SameTy t u → SameTyL ts us → SameTyL (t :: ts) (u :: us)
end

end HS
