/-!
# Specification: edit scripts between names
-/
namespace HS

/-- `Edit lower s t n`: `s` can be turned into `t`, going through both from left to right, by keeping characters (free),
changing the case of a character (1 quarter), replacing, deleting or inserting a character (4 quarters) with total cost `n`. -/
inductive Edit (lower : Char → String) : List Char → List Char → Nat → Prop
  | nil : Edit lower [] [] 0
  | keep {s t n} (c : Char) : Edit lower s t n → Edit lower (c :: s) (c :: t) n
  | recase {s t n} (c d : Char) : lower c = lower d → Edit lower s t n → Edit lower (c :: s) (d :: t) (n + 1)
  | replace {s t n} (c d : Char) : Edit lower s t n → Edit lower (c :: s) (d :: t) (n + 4)
  | delete {s t n} (c : Char) : Edit lower s t n → Edit lower (c :: s) t (n + 4)
  | insert {s t n} (d : Char) : Edit lower s t n → Edit lower s (d :: t) (n + 4)

end HS
