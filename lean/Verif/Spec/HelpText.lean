import Verif.Model.HelpText
/-!
# Specification: reading the output of `help`
-/
namespace HS

/-- the lines on the terminal -/
def outLines (out : String) : List String := (pySplit '\n' out).dropLast

/-- a line of the listing: two blanks per level, then the name up to the colon -/
def readLine (line : String) : Nat × String :=
  ((line.toList.takeWhile (· = ' ')).length / 2, String.ofList ((line.toList.dropWhile (· = ' ')).takeWhile (· ≠ ':')))

/-- reading an indented listing: a line belongs to the last line before it that is indented less; the full path of each line -/
def readListing : List String → List String → List (List String × String)
  | _, [] => []
  | st, l :: ls => (st.take (readLine l).1 ++ [(readLine l).2], l) :: readListing (st.take (readLine l).1 ++ [(readLine l).2]) ls

/-- names as Python has them: no blanks, colons, dots or line ends -/
def Ident (s : String) : Prop := ' ' ∉ s.toList ∧ ':' ∉ s.toList ∧ '.' ∉ s.toList ∧ '\n' ∉ s.toList

/-- the text is one line -/
def OneLine (s : String) : Prop := '\n' ∉ s.toList

/-- `Declares ty p n g`: `g` is the field at a path, through dataclasses and lists and Optionals of them, and `n` the class that has it -/
inductive Declares : PyTy → List String → String → Fld → Prop
  | here {n : String} {fs : List Fld} {ver : Option VerInfo} {f : Fld} : f ∈ fs → Declares (.data n fs ver) [f.name] n f
  | there {n m : String} {fs : List Fld} {ver : Option VerInfo} {f g : Fld} {p : List String} :
      f ∈ fs → Declares f.ty p m g → Declares (.data n fs ver) (f.name :: p) m g
  | list {t : PyTy} {p : List String} {n : String} {g : Fld} : Declares t p n g → Declares (.list t) p n g
  | opt {t : PyTy} {p : List String} {n : String} {g : Fld} : Declares t p n g → Declares (.union [t, .noneT]) p n g

/-- `Stem tx head t d stem`: the part of a line before the description: what is at the left, the type and the default unless it is None -/
def Stem (tx : Texts) (left : String) (t : STy) (d : Val) (stem : String) : Prop :=
  (d = .none ∧ stem = left ++ ": " ++ tx.type t) ∨ (d ≠ .none ∧ stem = left ++ ": " ++ tx.type t ++ " = " ++ tx.value d)

/-- a line with a description: after a `#`, which is in column 43 or, if the line is longer, two blanks after it -/
def Described (stem : String) (doc : Option String) (line : String) : Prop :=
  (doc = none ∧ line = stem) ∨
  ∃ d k, doc = some d ∧ line = stem ++ String.ofList (List.replicate k ' ') ++ "  # " ++ d ∧
    stem.toList.length + k = max 40 stem.toList.length

/-- the part of a line before the first colon -/
def beforeColon (line : String) : String := String.ofList (line.toList.takeWhile (· ≠ ':'))

/-- the line is not indented -/
def Flush (line : String) : Bool := line.toList.head? != some ' '

/-- the classes whose descriptions are looked up, each with the way it is reached: the class itself and its ancestors -/
inductive Ancestor : DocCls → DocCls → Prop
  | self {c : DocCls} : Ancestor c c
  | base {ps : List (String × Option String)} {bs : List DocCls} {b c : DocCls} : b ∈ bs → Ancestor b c → Ancestor (.mk ps bs) c

/-- the docstring of the class describes the field (the last description counts) -/
def Describes : DocCls → String → String → Prop
  | .mk ps _, k, d => ∃ pre post, ps = pre ++ (k, some d) :: post ∧ ∀ d', (k, some d') ∉ post

end HS
