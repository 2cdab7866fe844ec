/-!
# `blob` (lazy.py:144-148)

The class statement `class Blob(mixin, clz): pass`. Classes are names with a method resolution order (`__mro__`) and attributes. What
Python does for a class statement with two bases is modelled here: the C3 merge of the orders of the bases. Simplifications: both
bases have compatible metaclasses and layouts, and no `__init_subclass__` or `mro` of their own.
-/
namespace HS

/-- the classes of a program: `mro c` is `c.__mro__`, `own c name` the attribute in `c.__dict__`. TRUSTED: Python's data model. -/
structure Classes (α : Type) where
  mro : String → List String
  own : String → String → Option α

/-- the next class of a C3 merge: the first head that is in no tail -/
def c3next (ls : List (List String)) : Option String :=
  (ls.filterMap List.head?).find? (fun c => ls.all (fun l => !l.tail.contains c))

/-- take a class away from the front of the lists -/
def c3drop (c : String) (l : List String) : List String := if l.head? = some c then l.tail else l

/-- C3 merge; `none` is a TypeError ("Cannot create a consistent method resolution order"). Each round takes away at least one entry,
so their number is enough as a bound for the rounds (`c3merge_rounds`). -/
def c3merge : Nat → List (List String) → Option (List String)
  | 0, ls => if ls.all List.isEmpty then some [] else .none
  | fuel + 1, ls =>
    if ls.all List.isEmpty then some []
    else match c3next ls with
      | .none => .none
      | some c => (c3merge fuel (ls.map (c3drop c))).map (c :: ·)

/-- `blob(clz, mixin).__mro__` (lazy.py:144-148): `class Blob(mixin, clz)`. Simplification: `Blob` stands for the new class, of which no
other class is a subclass. -/
def Classes.blobMro {α : Type} (P : Classes α) (clz mixin : String) : Option (List String) :=
  (c3merge ((P.mro mixin).length + (P.mro clz).length + 2) [P.mro mixin, P.mro clz, [mixin, clz]]).map ("Blob" :: ·)

/-- `getattr` on a class or on an instance without that attribute of its own: the first class of the order that defines the name -/
def Classes.lookup {α : Type} (P : Classes α) (order : List String) (name : String) : Option α := order.findSome? (fun c => P.own c name)

end HS
