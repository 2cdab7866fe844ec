import Verif.Model.Help
import Verif.Model.Report
/-!
# `hyperstate/schema/help.py` as text, and the descriptions of fields (`schema/types.py:_find_all_field_docs`)

What `help` prints is modelled as the list of the strings given to `print`, without colours. How Python writes types and values
(`str` of a schema type, `repr` of a default) is a parameter; so is what the docstring parser finds in a docstring.
-/
namespace HS

/-- a class as `_find_all_field_docs` sees it: the parameters in its docstring, with their descriptions, and its base classes -/
inductive DocCls where
  | mk (params : List (String × Option String)) (bases : List DocCls)

/-- `dict.update` -/
def dupdate {α : Type} (d e : List (String × α)) : List (String × α) := e.foldl (fun d kv => dset d kv.1 kv.2) d

/-- the dict comprehension (types.py:351-353) -/
def ownDocs (params : List (String × Option String)) : List (String × String) :=
  dupdate [] (params.filterMap fun p => p.2.map fun d => (p.1, d))

mutual
/-- `_find_all_field_docs` (types.py:349-357) -/
def findAllFieldDocs : DocCls → List (String × String)
  | .mk ps bs => findBaseDocs bs (ownDocs ps)
termination_by structural x => x
/-- the loop over the base classes (types.py:355-356) -/
def findBaseDocs : List DocCls → List (String × String) → List (String × String)
  | [], d => d
  | b :: bs, d => findBaseDocs bs (dupdate d (findAllFieldDocs b))
termination_by structural x => x
end

mutual
/-- `field_docs.get(name)` for the fields of every class in a schema (types.py:256, 275). Simplification: the descriptions of a
class are found by the name of the class. -/
def STy.withDocs (docs : String → List (String × String)) : STy → STy
  | .prim s => .prim s
  | .list t => .list (t.withDocs docs)
  | .tuple ts => .tuple (withDocsL docs ts)
  | .dict k v => .dict (k.withDocs docs) (v.withDocs docs)
  | .union ts => .union (withDocsL docs ts)
  | .enum n vs => .enum n vs
  | .literal vs => .literal vs
  | .struct n fs v => .struct n (withDocsF docs (docs n) fs) v
  | .option t => .option (t.withDocs docs)
  | .nothing => .nothing
termination_by structural x => x
def withDocsL (docs : String → List (String × String)) : List STy → List STy
  | [] => []
  | t :: ts => t.withDocs docs :: withDocsL docs ts
termination_by structural x => x
def withDocsF (docs : String → List (String × String)) (own : List (String × String)) : List (String × SFld) → List (String × SFld)
  | [] => []
  | f :: fs => withDocsP docs own f :: withDocsF docs own fs
termination_by structural x => x
def withDocsP (docs : String → List (String × String)) (own : List (String × String)) : String × SFld → String × SFld
  | (k, f) => (k, withDocsS docs own f)
termination_by structural x => x
def withDocsS (docs : String → List (String × String)) (own : List (String × String)) : SFld → SFld
  | .mk n t d h _ => .mk n (t.withDocs docs) d h (dget own n)
termination_by structural x => x
end

/-- how Python writes schema types and default values -/
structure Texts where
  /-- `str(type)` -/
  type : STy → String
  /-- `repr(default)` -/
  value : Val → String

/-- `" " * n` -/
def blanks (n : Nat) : String := String.ofList (List.replicate n ' ')

/-- the docstring at the end of a line (help.py:57-62, 83-88) -/
def withComment (line : String) : Option String → String
  | .none => line
  | some doc => line ++ blanks (40 - line.toList.length) ++ "  # " ++ doc

/-- `if f.default is not None` (help.py:53-56, 80-81) -/
def defaultText (tx : Texts) : Val → String
  | .none => ""
  | d => " = " ++ tx.value d

/-- one line of `print_schema` (help.py:69-89) -/
def schemaLine (tx : Texts) (depth : Nat) : SFld → String
  | .mk n t d _ doc =>
    let line := blanks (2 * depth) ++ n ++ ": " ++ tx.type t
    match t.unwrap with
    | .struct _ _ _ => line
    | _ => withComment (line ++ defaultText tx d) doc

mutual
/-- `print_schema` with `recurse=True` (help.py:67-89) -/
def textT (tx : Texts) (depth : Nat) : STy → List String
  | .struct _ fs _ => textF tx depth fs
  | .list t => textT tx depth t
  | .option t => textT tx depth t
  | _ => []
termination_by structural x => x
def textF (tx : Texts) (depth : Nat) : List (String × SFld) → List String
  | [] => []
  | f :: fs => textP tx depth f ++ textF tx depth fs
termination_by structural x => x
def textP (tx : Texts) (depth : Nat) : String × SFld → List String
  | (_, f) => textS tx depth f
termination_by structural x => x
def textS (tx : Texts) (depth : Nat) : SFld → List String
  | .mk n t d h doc => schemaLine tx depth (.mk n t d h doc) :: textT tx (depth + 1) t
termination_by structural x => x
end

/-- what is printed for one of the ranked fields (help.py:32-64) -/
def foundText (tx : Texts) (r : Found) : List String :=
  match r.field with
  | .mk n t d _ doc =>
    let line := pyJoin "." (r.path ++ [n]) ++ ": " ++ tx.type t
    match t.unwrap with
    | .struct _ fs _ =>
      if 1 ≤ r.sim then line :: fs.map (fun f => schemaLine tx 1 f.2)
      else [withComment line doc]
    | _ => [withComment (line ++ defaultText tx d) doc]

/-- `help` (help.py:9-64): the strings that are printed -/
def helpText (lower : Char → String) (tx : Texts) (docs : String → List (String × String)) (ty : PyTy) (query : String) :
    Except Err (List String) := do
  match (← materialize ty).withDocs docs with
  | .struct _ fs _ =>
    if query.toList.length = 0 then return textF tx 0 fs
    else return (helpShown query (← helpF lower query [] fs)).flatMap (foundText tx)
  | _ => throw .assertionError

/-- what appears on the terminal: `print` ends each string with a newline -/
def printed (lines : List String) : String := String.join (lines.map (· ++ "\n"))

end HS
