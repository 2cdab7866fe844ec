import Verif.Model.Py
/-!
# `hyperstate/schema/schema_checker.py`: `levenshtein`, `name_similarity`

Distances are multiples of 1/4 in the source (costs 0, 0.25 and 1.0, exact in floating point); here they are counted in
quarters, as natural numbers. Similarities are rational numbers instead of floats: for names of fewer than 2^20 characters the
floats are ordered in the same way, also relative to the threshold 0.1, since `1 - a / b` is a monotone function of the
quotient and different quotients are much further apart than rounding errors.
`str.lower` of one character is a parameter (any function).
-/
namespace HS

/-- cost of replacing a character, in quarters (schema_checker.py:365-369) -/
def substCost (lower : Char → String) (c1 c2 : Char) : Nat :=
  if c1 = c2 then 0 else if lower c1 = lower c2 then 1 else 4

/-- inner loop (schema_checker.py:359-371): the entries of `current_row` after the first; `prev` is `previous_row[j:]`,
`last` is `current_row[j]` -/
def levCells (lower : Char → String) (c1 : Char) : List Char → List Nat → Nat → List Nat
  | c2 :: s2, p0 :: p1 :: ps, last =>
    let x := min (min (p1 + 4) (last + 4)) (p0 + substCost lower c1 c2)
    x :: levCells lower c1 s2 (p1 :: ps) x
  | _, _, _ => []

/-- outer loop (schema_checker.py:358-372) from row `i` on -/
def levRows (lower : Char → String) (s2 : List Char) : List Char → Nat → List Nat → List Nat
  | [], _, prev => prev
  | c1 :: s1, i, prev => levRows lower s2 s1 (i + 1) (4 * (i + 1) :: levCells lower c1 s2 prev (4 * (i + 1)))

/-- `levenshtein` when `len(s1) >= len(s2)` (schema_checker.py:353-374), in quarters -/
def levLong (lower : Char → String) (s1 s2 : List Char) : Nat :=
  if s2.length = 0 then 4 * s1.length
  else (levRows lower s2 s1 0 ((List.range (s2.length + 1)).map (4 * ·))).getLastD 0

/-- `levenshtein` (schema_checker.py:349-374), in quarters -/
def levenshtein (lower : Char → String) (s1 s2 : List Char) : Nat :=
  if s1.length < s2.length then levLong lower s2 s1 else levLong lower s1 s2

/-- `s.replace("_", "")` -/
def dropUnderscores (s : String) : String := String.ofList (s.toList.filter (· ≠ '_'))

/-- `"".join([word[0:1] for word in s.split("_")])` -/
def initials (s : String) : String := String.ofList ((splitC '_' s.toList).flatMap (List.take 1))

/-- `name_similarity` (schema_checker.py:335-346) -/
def nameSimilarity (lower : Char → String) (f1 f2 : String) : Except Err Rat :=
  if f1 = f2 then .ok (11 / 10)
  else if dropUnderscores f1 = dropUnderscores f2 then .ok 1
  else if f1 = initials f2 ∨ f2 = initials f1 then .ok 1
  else
    let m := max f1.toList.length f2.toList.length
    if m = 0 then .error .zeroDivision
    else .ok (1 - ((levenshtein lower f1.toList f2.toList : Nat) : Rat) / 4 / ((m : Nat) : Rat))

end HS
