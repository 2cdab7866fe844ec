import Verif.Model.Schema
/-!
# `hyperstate/schema/types.py`: `==` and `is_subtype` on schema types

Simplification: values of Literals are hashable (they are arguments of `typing.Literal`), so that `set(allowed_values)` does
not raise.
-/
namespace HS

/-- `set(a) == set(b)` -/
def setEq (a b : List Val) : Bool := a.all (pyMem · b) && b.all (pyMem · a)

/-- `==` of two dicts of values -/
def dictEq (a b : List (String × Val)) : Bool := pyEq (.dict a) (.dict b)

mutual
/-- `==` on types: generated by `@dataclass(eq=True)` (schema/types.py:30-232), for `Literal` schema/types.py:171-174.
Objects of different classes are unequal; lists are compared element by element, dicts as maps. -/
def styEq : STy → STy → Bool
  | .prim s, o => match o with | .prim s' => s == s' | _ => false
  | .list t, o => match o with | .list u => styEq t u | _ => false
  | .tuple ts, o => match o with | .tuple us => styEqL ts us | _ => false
  | .dict k v, o => match o with | .dict k' v' => styEq k k' && styEq v v' | _ => false
  | .union ts, o => match o with | .union us => styEqL ts us | _ => false
  | .enum n vs, o => match o with | .enum n' vs' => n == n' && dictEq vs vs' | _ => false
  | .literal vs, o => match o with | .literal ws => setEq vs ws | _ => false
  | .struct n fs v, o => match o with
    | .struct n' fs' v' => n == n' && (fs.length == fs'.length && styEqD fs fs') && v == v'
    | _ => false
  | .option t, o => match o with | .option u => styEq t u | _ => false
  | .nothing, o => match o with | .nothing => true | _ => false
termination_by structural x => x
def styEqL : List STy → List STy → Bool
  | [], us => match us with | [] => true | _ => false
  | t :: ts, us => match us with | u :: us => styEq t u && styEqL ts us | [] => false
termination_by structural x => x
/-- every entry of the first dict is matched in the second -/
def styEqD : List (String × SFld) → List (String × SFld) → Bool
  | [], _ => true
  | f :: fs, gs => styEqP f gs && styEqD fs gs
termination_by structural x => x
def styEqP : String × SFld → List (String × SFld) → Bool
  | (k, f), gs => match dget gs k with | some g => sfldEq f g | .none => false
termination_by structural x => x
/-- `==` on fields (schema/types.py:121-127) -/
def sfldEq : SFld → SFld → Bool
  | .mk n t d h doc, g => n == g.name && styEq t g.type && pyEq d g.dflt && h == g.hasDefault && doc == g.doc
termination_by structural x => x
end

def Val.isStr : Val → Bool | .str _ => true | _ => false
/-- `isinstance(v, int)`; `bool` is a subclass of `int` -/
def Val.isInt : Val → Bool | .int _ => true | .bool _ => true | _ => false

theorem sizeOf_dget {gs : List (String × SFld)} {k : String} {g : SFld} (h : dget gs k = some g) : sizeOf g.type < sizeOf gs := by
  induction gs with
  | nil => exact (nomatch h)
  | cons e gs ih =>
    obtain ⟨k', f⟩ := e
    simp only [dget] at h
    split at h
    · cases h
      cases g
      simp only [SFld.type, List.cons.sizeOf_spec, Prod.mk.sizeOf_spec, SFld.mk.sizeOf_spec]
      omega
    · have := ih h
      simp only [List.cons.sizeOf_spec]
      omega

theorem sizeOf_sfld (f : SFld) : sizeOf f.type < sizeOf f := by
  cases f
  simp only [SFld.type, SFld.mk.sizeOf_spec]
  omega

mutual
/-- `a.is_subtype(b)` (schema/types.py:37-46, 56-61, 71-80, 91-100, 110-118, 135-143, 150-166, 203-212, 222-223, 228-229).
The alternatives of each method are sorted by the class of `other`: `isinstance(other, Option) and
self.is_subtype(other.type)` comes last everywhere and is the only alternative that applies to an `Option`. -/
def isSubtype : STy → STy → Bool
  | .prim s, .prim s' => s' == s || (s == "int" && s' == "float")
  | .prim s, .option u => isSubtype (.prim s) u
  | .prim _, _ => false
  | .list t, .list u => styEq (.list t) (.list u) || isSubtype t u
  | .list t, .option u => isSubtype (.list t) u
  | .list _, _ => false
  | .tuple ts, .tuple us => styEq (.tuple ts) (.tuple us) || (subZip ts us && ts.length == us.length)
  | .tuple ts, .option u => isSubtype (.tuple ts) u
  | .tuple _, _ => false
  | .dict k v, .dict k' v' => styEq (.dict k v) (.dict k' v') || (styEq k k' && isSubtype v v')
  | .dict k v, .option u => isSubtype (.dict k v) u
  | .dict _ _, _ => false
  | .union ts, .union us => styEq (.union ts) (.union us) || subAll ts (.union us)
  | .union ts, .option u => isSubtype (.union ts) u
  | .union _, _ => false
  | .enum n vs, .enum n' vs' =>
    n' == n && vs.all (fun kv => match dget vs' kv.1 with | some v' => pyEq v' kv.2 | .none => false)
  | .enum n vs, .option u => isSubtype (.enum n vs) u
  | .enum _ _, _ => false
  | .literal vs, .literal ws => vs.all (pyMem · ws)
  | .literal vs, .prim p => (p == "str" && vs.all Val.isStr) || (p == "int" && vs.all Val.isInt)
  | .literal vs, .option u => isSubtype (.literal vs) u
  | .literal _, _ => false
  -- the fields are compared the other way round
  | .struct _ fs _, .struct _ gs _ => subFields fs gs
  | .struct n fs v, .option u => isSubtype (.struct n fs v) u
  | .struct _ _ _, _ => false
  -- the argument is compared the other way round
  | .option t, .option u => isSubtype u t
  | .option _, _ => false
  | .nothing, _ => true
termination_by a b => sizeOf a + sizeOf b
/-- `all(t.is_subtype(o) for t, o in zip(self.inner, other.inner))` (schema/types.py:76) -/
def subZip : List STy → List STy → Bool
  | t :: ts, u :: us => isSubtype t u && subZip ts us
  | _, _ => true
termination_by a b => sizeOf a + sizeOf b
/-- `all(t.is_subtype(other) for t in self.types)` (schema/types.py:115) -/
def subAll : List STy → STy → Bool
  | [], _ => true
  | t :: ts, u => isSubtype t u && subAll ts u
termination_by a b => sizeOf a + sizeOf b
/-- `all(k in other.fields and other.fields[k].type.is_subtype(self.fields[k].type) for k in self.fields)`
(schema/types.py:206-210) -/
def subFields : List (String × SFld) → List (String × SFld) → Bool
  | [], _ => true
  | (k, f) :: fs, gs =>
    (match _h : dget gs k with
      | some g => isSubtype g.type f.type
      | .none => false) && subFields fs gs
termination_by a b => sizeOf a + sizeOf b
decreasing_by
  all_goals simp_wf
  all_goals first
    | omega
    | (have h1 := sizeOf_dget _h
       have h2 := sizeOf_sfld f
       omega)
end

end HS
