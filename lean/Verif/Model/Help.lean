import Verif.Model.Names
import Verif.Model.SchemaRewrite
/-!
# `hyperstate/schema/help.py`

What is printed is modelled as the list of fields shown; the text of the lines is in `Model/HelpText.lean`.
Similarities are rational numbers (see `Model/Names.lean`).
-/
namespace HS

/-- an entry of `find_fields`: path of the containing struct, similarity, field -/
structure Found where
  path : List String
  sim : Rat
  field : SFld

mutual
/-- `find_fields` (help.py:92-100): the part for nested structs -/
def helpT (lower : Char → String) (query : String) (path : List String) : STy → Except Err (List Found)
  | .struct _ fs _ => helpF lower query path fs
  | _ => .ok []
termination_by structural x => x
/-- `find_fields` (help.py:92-100): the loop over the fields of a struct -/
def helpF (lower : Char → String) (query : String) (path : List String) : List (String × SFld) → Except Err (List Found)
  | [] => .ok []
  | f :: fs => do
    let r ← helpP lower query path f
    let rs ← helpF lower query path fs
    return r ++ rs
termination_by structural x => x
def helpP (lower : Char → String) (query : String) (path : List String) : String × SFld → Except Err (List Found)
  | (_, f) => helpS lower query path f
termination_by structural x => x
def helpS (lower : Char → String) (query : String) (path : List String) : SFld → Except Err (List Found)
  | .mk n t d h doc => do
    let s ← nameSimilarity lower n query
    let rs ← helpT lower query (path ++ [n]) t
    return ⟨path, s, .mk n t d h doc⟩ :: rs
termination_by structural x => x
end

/-- insert before the first entry that is not more similar -/
def insertFound (r : Found) : List Found → List Found
  | [] => [r]
  | r' :: rs => if r'.sim ≤ r.sim then r :: r' :: rs else r' :: insertFound r rs

/-- `sorted(fields, key=lambda x: x[1], reverse=True)` (help.py:16), stable -/
def helpSorted (rs : List Found) : List Found := rs.foldr insertFound []

/-- the condition for stopping (help.py:20-30) -/
def helpStops (query : String) (best last : Rat) (i : Nat) (r : Found) : Bool :=
  decide (r.sim ≤ last) && !isInfixC query.toList r.field.name.toList && decide (r.sim < 1) &&
    (decide (3 < i) || decide (r.sim < 4 / 10) || decide (1 ≤ best) || decide (2 / 10 < best - r.sim))

/-- the loop over the ranked fields (help.py:19-64): those that are printed -/
def helpLoop (query : String) (best : Rat) : Nat → Rat → List Found → List Found
  | _, _, [] => []
  | i, last, r :: rs => if helpStops query best last i r then [] else r :: helpLoop query best (i + 1) r.sim rs

/-- the fields that `help` prints for a ranking (help.py:16-64) -/
def helpShown (query : String) (rs : List Found) : List Found :=
  let rs := helpSorted rs
  helpLoop query (match rs with | r :: _ => r.sim | [] => 0) 0 (-1) rs

/-- a line of `print_schema`: indentation, name, and the default if one is shown -/
structure PLine where
  depth : Nat
  name : String
  dflt : Option Val

/-- `f.default is not None` (help.py:80); fields that contain a struct are printed without default (help.py:71-77) -/
def shownDefault (t : STy) (d : Val) : Option Val :=
  match t.unwrap with
  | .struct _ _ _ => .none
  | _ => match d with
    | .none => .none
    | d => some d

mutual
/-- `print_schema` (help.py:67-89): lists and options are unwrapped -/
def printT (depth : Nat) : STy → List PLine
  | .struct _ fs _ => printF depth fs
  | .list t => printT depth t
  | .option t => printT depth t
  | _ => []
termination_by structural x => x
def printF (depth : Nat) : List (String × SFld) → List PLine
  | [] => []
  | f :: fs => printP depth f ++ printF depth fs
termination_by structural x => x
def printP (depth : Nat) : String × SFld → List PLine
  | (_, f) => printS depth f
termination_by structural x => x
def printS (depth : Nat) : SFld → List PLine
  | .mk n t d _ _ => ⟨depth, n, shownDefault t d⟩ :: printT (depth + 1) t
termination_by structural x => x
end

/-- what `help(config_clz, query)` prints (help.py:9-64) -/
inductive HelpOut where
  | schema (lines : List PLine)
  | fields (shown : List Found)

/-- `help` (help.py:9-64) -/
def helpCmd (lower : Char → String) (ty : PyTy) (query : String) : Except Err HelpOut := do
  match ← materialize ty with
  | .struct _ fs _ =>
    if query.toList.length = 0 then return .schema (printF 0 fs)
    else return .fields (helpShown query (← helpF lower query [] fs))
  | _ => throw .assertionError

end HS
