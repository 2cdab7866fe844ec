import Verif.Spec.TypeText
import Verif.Props.HelpText
import Verif.Props.ReportText
/-!
# C86: what the text of a type tells
-/
namespace HS

/-- the rest of a line after a type: nothing, or a comma, a closing bracket or a blank -/
def Stops (r : List Char) : Prop := ∀ c, r.head? = some c → c = ',' ∨ c = ']' ∨ c = ' '

def Delim (c : Char) : Bool := c == '[' || c == ']' || c == ',' || c == ' '

/-- the part of the text up to the first bracket or comma -/
def STy.word (rv : Val → String) : STy → List Char
  | .prim s => s.toList
  | .list _ => ['L', 'i', 's', 't']
  | .tuple _ => ['T', 'u', 'p', 'l', 'e']
  | .dict _ _ => ['D', 'i', 'c', 't']
  | .union _ => ['U', 'n', 'i', 'o', 'n']
  | .enum n _ => ['E', 'n', 'u', 'm', '(', 'n', 'a', 'm', 'e', '='] ++ (rv (.str n)).toList
  | .literal vs => (literalRepr rv vs).toList
  | .struct n _ _ => n.toList
  | .option _ => ['O', 'p', 't', 'i', 'o', 'n', 'a', 'l']
  | .nothing => ['N', 'o', 't', 'h', 'i', 'n', 'g']

/-- the rest of the text -/
def STy.rest (rv : Val → String) : STy → List Char
  | .list t => '[' :: ((t.text rv).toList ++ [']'])
  | .tuple ts => '[' :: '[' :: ((pyJoin ", " (reprL rv ts)).toList ++ [']', ']'])
  | .dict k v => '[' :: ((k.text rv).toList ++ ',' :: ' ' :: ((v.text rv).toList ++ [']']))
  | .union ts => '[' :: ((pyJoin ", " (textL rv ts)).toList ++ [']'])
  | .enum _ vs => ',' :: ([' ', 'v', 'a', 'r', 'i', 'a', 'n', 't', 's', '=', '{'] ++ ((pyJoin ", " (vs.map fun kv => rv (.str kv.1) ++ ": " ++ rv kv.2)).toList ++ ['}', ')']))
  | .option t => '[' :: ((t.text rv).toList ++ [']'])
  | _ => []

theorem text_split (rv : Val → String) (t : STy) : (t.text rv).toList = t.word rv ++ t.rest rv := by
  cases t with
  | enum n vs =>
    have h1 : "Enum(name=".toList = ['E', 'n', 'u', 'm', '(', 'n', 'a', 'm', 'e', '='] := by decide +kernel
    have h2 : ", variants={".toList = ',' :: [' ', 'v', 'a', 'r', 'i', 'a', 'n', 't', 's', '=', '{'] := by decide +kernel
    have h3 : "})".toList = ['}', ')'] := by decide +kernel
    simp only [STy.text, STy.word, STy.rest, enumRepr, String.toList_append, h1, h2, h3, List.append_assoc, List.cons_append]
  | prim s => simp only [STy.text, STy.word, STy.rest, List.append_nil]
  | literal vs => simp only [STy.text, STy.word, STy.rest, List.append_nil]
  | struct n fs v => simp only [STy.text, STy.word, STy.rest, List.append_nil]
  | nothing => simp only [STy.text, STy.word, STy.rest, List.append_nil]; decide +kernel
  | list t => simp [STy.text, STy.word, STy.rest, String.toList_append]
  | tuple ts => simp [STy.text, STy.word, STy.rest, String.toList_append]
  | dict k v => simp [STy.text, STy.word, STy.rest, String.toList_append]
  | union ts => simp [STy.text, STy.word, STy.rest, String.toList_append]
  | option t => simp [STy.text, STy.word, STy.rest, String.toList_append]

theorem pyJoin_pipe : ∀ ws : List String, (pyJoin "|" ws).toList = joinC '|' (ws.map String.toList)
  | [] => by simp [pyJoin, joinC]
  | [a] => by simp [pyJoin, joinC]
  | a :: b :: as => by
    have := pyJoin_pipe (b :: as)
    simp only [pyJoin, String.toList_append, this, joinC, List.map_cons, List.flatMap_cons]
    simp

/-- the kind of a type from its text, if it has no brackets -/
def wordKind (w : List Char) : String :=
  if '(' ∈ w then "enum"
  else if '|' ∈ w ∨ String.ofList w ∈ ["True", "False", "None"] ∨ w.head?.any ValStart = true then "literal"
  else if String.ofList w ∈ ["int", "str", "bool", "float"] then "prim"
  else if String.ofList w = "Nothing" then "nothing"
  else "struct"

/-- the kind of a type from its text -/
def readKind (w : List Char) (r : List Char) : String := if r.head? = some '[' then String.ofList w else wordKind w

theorem wordKind_prim : ∀ s ∈ ["int", "str", "bool", "float"], wordKind s.toList = "prim" := by decide +kernel

theorem wordKind_nothing : wordKind ['N', 'o', 't', 'h', 'i', 'n', 'g'] = "nothing" := by decide +kernel

def STy.code : STy → String
  | .prim _ => "prim" | .list _ => "List" | .tuple _ => "Tuple" | .dict _ _ => "Dict" | .union _ => "Union" | .enum _ _ => "enum"
  | .literal _ => "literal" | .struct _ _ _ => "struct" | .option _ => "Optional" | .nothing => "nothing"

theorem insertStr_perm (a : String) : ∀ bs : List String, (insertStr a bs).Perm (a :: bs)
  | [] => .refl _
  | b :: bs => by
    simp only [insertStr]
    split
    · exact .refl _
    · exact ((insertStr_perm a bs).cons b).trans (.swap a b bs)

theorem sortStr_perm : ∀ as : List String, (sortStr as).Perm as
  | [] => .refl _
  | a :: as => (insertStr_perm a _).trans ((sortStr_perm as).cons a)

theorem insertStr_sorted (a : String) : ∀ {bs : List String}, bs.Pairwise (· ≤ ·) → (insertStr a bs).Pairwise (· ≤ ·)
  | [], _ => by simp [insertStr]
  | b :: bs, h => by
    simp only [insertStr]
    rw [List.pairwise_cons] at h
    split
    · rename_i hab
      refine List.pairwise_cons.2 ⟨?_, List.pairwise_cons.2 h⟩
      intro c hc
      rcases List.mem_cons.1 hc with rfl | hc
      · exact hab
      · exact String.le_trans hab (h.1 c hc)
    · rename_i hab
      refine List.pairwise_cons.2 ⟨?_, insertStr_sorted a h.2⟩
      intro c hc
      rcases List.mem_cons.1 ((insertStr_perm a bs).mem_iff.1 hc) with rfl | hc
      · exact (String.le_total c b).resolve_left hab
      · exact h.1 c hc

theorem sortStr_sorted : ∀ as : List String, (sortStr as).Pairwise (· ≤ ·)
  | [] => .nil
  | a :: as => insertStr_sorted a (sortStr_sorted as)

theorem sorted_mem {rv : Val → String} {vs : List Val} {w : String}
    (h : w ∈ sortStr (vs.map rv)) : ∃ v ∈ vs, rv v = w := by
  rw [(sortStr_perm _).mem_iff] at h
  exact List.mem_map.1 h

theorem joinC_mem {c x : Char} : ∀ {ws : List (List Char)}, x ∈ joinC c ws → x = c ∨ ∃ w ∈ ws, x ∈ w := by
  intro ws h
  cases ws with
  | nil => simp [joinC] at h
  | cons w ws =>
    simp only [joinC, List.mem_append, List.mem_flatMap] at h
    rcases h with h | ⟨v, hv, h⟩
    · exact .inr ⟨w, by simp, h⟩
    · rcases List.mem_cons.1 h with h | h
      · exact .inl h
      · exact .inr ⟨v, by simp [hv], h⟩

section
variable {rv : Val → String} {P : Val → Prop} (hr : ReprOK rv P)
include hr

theorem literalRepr_mem {vs : List Val} (hv : ∀ v ∈ vs, P v) {c : Char} (hc : c ∈ (literalRepr rv vs).toList) :
    c = '|' ∨ (c ≠ '[' ∧ c ≠ ']' ∧ c ≠ ',' ∧ c ≠ '|' ∧ c ≠ '(' ∧ c ≠ ':' ∧ c ≠ '}' ∧ c ≠ ' ' ∧ c ≠ '\n') := by
  rw [literalRepr, pyJoin_pipe] at hc
  rcases joinC_mem hc with h | ⟨w, hw, h⟩
  · exact .inl h
  · obtain ⟨s, hs, rfl⟩ := List.mem_map.1 hw
    obtain ⟨v, hv', rfl⟩ := sorted_mem hs
    exact .inr (hr.clean v (hv v hv') c h)

theorem word_delim {t : STy} (h : Readable P t) : ∀ c ∈ t.word rv, Delim c = false := by
  intro c hc
  cases h with
  | prim hs =>
    simp only [List.mem_cons, List.not_mem_nil, or_false] at hs
    rcases hs with rfl | rfl | rfl | rfl <;> (revert c; simp only [STy.word]; decide +kernel)
  | list _ => revert c; simp only [STy.word]; decide +kernel
  | tuple _ _ => revert c; simp only [STy.word]; decide +kernel
  | dict _ _ => revert c; simp only [STy.word]; decide +kernel
  | union _ => revert c; simp only [STy.word]; decide +kernel
  | option _ => revert c; simp only [STy.word]; decide +kernel
  | nothing => revert c; simp only [STy.word]; decide +kernel
  | enum hn hvs =>
    simp only [STy.word, List.mem_append] at hc
    rcases hc with hc | hc
    · revert c; decide +kernel
    · have := hr.clean _ hn c hc; simp [Delim, this]
  | literal hne hvs =>
    simp only [STy.word] at hc
    rcases literalRepr_mem hr hvs hc with rfl | h
    · rfl
    · simp [Delim, h]
  | struct hn =>
    have := hn.1 c hc; simp [Delim, this]

theorem word_kind {t : STy} (h : Readable P t) {r : List Char} (hs : Stops r) : readKind (t.word rv) (t.rest rv ++ r) = t.code := by
  have hr0 : r.head? ≠ some '[' := fun e => by rcases hs _ e with h | h | h <;> exact absurd h (by decide)
  cases h with
  | prim hs' =>
    simp only [readKind, STy.rest, STy.word, STy.code, List.nil_append, hr0, if_false]
    exact wordKind_prim _ hs'
  | list _ => simp only [readKind, STy.rest, STy.word, STy.code, List.cons_append, List.head?_cons, if_true]
  | tuple _ _ => simp only [readKind, STy.rest, STy.word, STy.code, List.cons_append, List.head?_cons, if_true]
  | dict _ _ => simp only [readKind, STy.rest, STy.word, STy.code, List.cons_append, List.head?_cons, if_true]
  | union _ => simp only [readKind, STy.rest, STy.word, STy.code, List.cons_append, List.head?_cons, if_true]
  | option _ => simp only [readKind, STy.rest, STy.word, STy.code, List.cons_append, List.head?_cons, if_true]
  | nothing =>
    simp only [readKind, STy.rest, STy.word, STy.code, List.nil_append, hr0, if_false]; exact wordKind_nothing
  | enum hn hvs =>
    have : (',' : Char) ≠ '[' := by decide
    simp [readKind, wordKind, STy.rest, STy.word, STy.code]
  | @literal vs hne hvs =>
    have hp : '(' ∉ (literalRepr rv vs).toList := fun hm => by
      rcases literalRepr_mem hr hvs hm with h | h
      · exact absurd h (by decide)
      · exact h.2.2.2.2.1 rfl
    have hlit : '|' ∈ (literalRepr rv vs).toList ∨ String.ofList (literalRepr rv vs).toList ∈ ["True", "False", "None"] ∨
        (literalRepr rv vs).toList.head?.any ValStart = true := by
      have hlen : (sortStr (vs.map rv)).length = vs.length := by simpa using (sortStr_perm (vs.map rv)).length_eq
      rw [literalRepr]
      match hw : sortStr (vs.map rv) with
      | [] => rw [hw] at hlen; exact absurd (List.length_eq_zero_iff.1 hlen.symm) hne
      | [w] =>
        obtain ⟨v, hv, rfl⟩ := sorted_mem (rv := rv) (vs := vs) (w := w) (by simp [hw])
        simp only [pyJoin, String.ofList_toList]
        rcases hr.start v (hvs v hv) with h | ⟨c, cs, h, h'⟩
        · exact .inr (.inl h)
        · exact .inr (.inr (by simp [h, h']))
      | a :: b :: as =>
        left
        simp [pyJoin, String.toList_append]
    simp only [readKind, wordKind, STy.rest, STy.word, STy.code, List.nil_append, hr0, if_false, hp, hlit, if_true]
  | @struct n fs v hn =>
    obtain ⟨hc, hres, c, cs, hcs, hst⟩ := hn
    have h1 : '(' ∉ n.toList := fun hm => (hc _ hm).2.2.2.2.1 rfl
    have h2 : '|' ∉ n.toList := fun hm => (hc _ hm).2.2.2.1 rfl
    simp only [reservedNames, List.mem_cons, List.not_mem_nil, or_false, not_or] at hres
    have h3 : ¬ ('|' ∈ n.toList ∨ String.ofList n.toList ∈ ["True", "False", "None"] ∨
        n.toList.head?.any ValStart = true) := by
      rintro (h | h | h)
      · exact h2 h
      · simp [String.ofList_toList, hres] at h
      · simp [hcs, hst] at h
    have h4 : String.ofList n.toList ∉ ["int", "str", "bool", "float"] := by simp [String.ofList_toList, hres]
    have h5 : String.ofList n.toList ≠ "Nothing" := by simp [String.ofList_toList, hres]
    simp only [readKind, wordKind, STy.rest, STy.word, STy.code, List.nil_append, hr0, if_false, h1, h3, h4, h5]

omit hr in
theorem rest_delim {t : STy} {r : List Char} (hs : Stops r) : ∀ c, (t.rest rv ++ r).head? = some c → Delim c = true := by
  intro c hc
  have : ∀ c, r.head? = some c → Delim c = true := fun c h => by rcases hs c h with rfl | rfl | rfl <;> rfl
  cases t <;> simp only [STy.rest, List.cons_append, List.nil_append, List.head?_cons, Option.some.injEq] at hc <;>
    first | exact this c hc | (subst hc; rfl)

end

theorem split_at {p : Char → Bool} : ∀ {a b r r' : List Char}, (∀ c ∈ a, p c = false) → (∀ c ∈ b, p c = false) →
    (∀ c, r.head? = some c → p c = true) → (∀ c, r'.head? = some c → p c = true) → a ++ r = b ++ r' → a = b ∧ r = r'
  | [], [], _, _, _, _, _, _, h => ⟨rfl, h⟩
  | [], b :: bs, r, r', _, hb, hr, _, h => by
    simp only [List.nil_append, List.cons_append] at h
    have := hr b (by simp [h])
    rw [hb b (by simp)] at this
    exact (nomatch this)
  | a :: as, [], r, r', ha, _, _, hr', h => by
    simp only [List.nil_append, List.cons_append] at h
    have := hr' a (by simp [← h])
    rw [ha a (by simp)] at this
    exact (nomatch this)
  | a :: as, b :: bs, r, r', ha, hb, hr, hr', h => by
    simp only [List.cons_append, List.cons.injEq] at h
    obtain ⟨h1, h2⟩ := split_at (fun c hc => ha c (by simp [hc])) (fun c hc => hb c (by simp [hc])) hr hr' h.2
    exact ⟨by rw [h.1, h1], h2⟩

theorem repr_text {rv : Val → String} {t : STy} (h : t.isStruct = false) : t.repr rv = t.text rv := by
  cases t <;> simp only [STy.isStruct, Bool.true_eq_false] at h <;> simp only [STy.repr, STy.text]

theorem reprL_textL {rv : Val → String} : ∀ {ts : List STy}, (∀ t ∈ ts, t.isStruct = false) → reprL rv ts = textL rv ts
  | [], _ => by simp only [reprL, textL]
  | t :: ts, h => by
    have ih : reprL rv ts = textL rv ts := reprL_textL (fun u hu => h u (List.mem_cons_of_mem _ hu))
    simp only [reprL, textL, repr_text (h t (by simp)), ih]

/-- the elements after the first -/
def tailT (rv : Val → String) : List STy → List Char
  | [] => []
  | t :: ts => ',' :: ' ' :: ((t.text rv).toList ++ tailT rv ts)

theorem join_tail (rv : Val → String) : ∀ (t : STy) (ts : List STy),
    (pyJoin ", " (textL rv (t :: ts))).toList = (t.text rv).toList ++ tailT rv ts
  | t, [] => by simp [textL, pyJoin, tailT]
  | t, u :: us => by
    have := join_tail rv u us
    simp only [textL] at this
    simp [textL, pyJoin, tailT, String.toList_append, this]

theorem stops_nil : Stops [] := by intro c h; exact (nomatch h)
theorem stops_comma (r : List Char) : Stops (',' :: r) := by intro c h; simp at h; exact .inl h.symm
theorem stops_close (r : List Char) : Stops (']' :: r) := by intro c h; simp at h; exact .inr (.inl h.symm)
theorem stops_tail (rv : Val → String) (ts : List STy) (r : List Char) : Stops (tailT rv ts ++ ']' :: r) := by
  cases ts with
  | nil => exact stops_close r
  | cons t ts => simp only [tailT, List.cons_append]; exact stops_comma _

theorem literalRepr_perm (rv : Val → String) {vs ws : List Val} (h : vs.Perm ws) : literalRepr rv vs = literalRepr rv ws := by
  have : sortStr (vs.map rv) = sortStr (ws.map rv) := by
    refine List.Perm.eq_of_pairwise (le := fun a b => a ≤ b) ?_ (sortStr_sorted _) (sortStr_sorted _)
      ((sortStr_perm _).trans ((h.map rv).trans (sortStr_perm _).symm))
    intro a b _ _ h1 h2
    exact String.le_antisymm h1 h2
  rw [literalRepr, literalRepr, this]

mutual
theorem same_text {rv : Val → String} {P : Val → Prop} {s t : STy} (h : SameTy s t) (h1 : Readable P s) (h2 : Readable P t) :
    s.text rv = t.text rv := by
  cases h with
  | prim s => rfl
  | list h => cases h1 with | list a => cases h2 with | list b => simp only [STy.text, same_text h a b]
  | option h => cases h1 with | option a => cases h2 with | option b => simp only [STy.text, same_text h a b]
  | dict h h' =>
    cases h1 with | dict a b => cases h2 with | dict a' b' => simp only [STy.text, same_text h a a', same_text h' b b']
  | union h => cases h1 with | union a => cases h2 with | union a' => simp only [STy.text, same_textL h a a']
  | tuple h =>
    cases h1 with | tuple a b => cases h2 with | tuple a' b' =>
    simp only [STy.text, reprL_textL b, reprL_textL b', same_textL h a a']
  | enum n vs => rfl
  | literal h => simp only [STy.text, literalRepr_perm rv h]
  | struct => simp only [STy.text]
  | nothing => rfl
theorem same_textL {rv : Val → String} {P : Val → Prop} {ts us : List STy} (h : SameTyL ts us) (h1 : ReadableL P ts) (h2 : ReadableL P us) :
    textL rv ts = textL rv us := by
  cases h with
  | nil => rfl
  | cons h h' => cases h1 with | cons a b => cases h2 with | cons a' b' => simp only [textL, same_text h a a', same_textL h' b b']
end

section
variable {rv : Val → String} {P : Val → Prop} (hr : ReprOK rv P)
include hr

theorem text_head {t : STy} (h : Readable P t) (r : List Char) : ∃ c cs, (t.text rv).toList ++ r = c :: cs ∧ Delim c = false := by
  have hne : t.word rv ≠ [] := by
    cases h with
    | prim hs =>
      simp only [List.mem_cons, List.not_mem_nil, or_false] at hs
      rcases hs with rfl | rfl | rfl | rfl <;> simp [STy.word]
    | literal hne hvs =>
      intro e
      have := word_kind hr (.literal hne hvs) stops_nil
      rw [e] at this
      simp only [STy.rest, STy.code, List.append_nil] at this
      exact absurd this (by decide +kernel)
    | struct hn =>
      obtain ⟨_, _, c, cs, hcs, _⟩ := hn
      simp [STy.word, hcs]
    | _ => simp [STy.word]
  cases hw : t.word rv with
  | nil => exact absurd hw hne
  | cons c cs =>
    refine ⟨c, cs ++ t.rest rv ++ r, by rw [text_split, hw]; simp, ?_⟩
    exact word_delim hr h c (by simp [hw])

theorem text_parts {s t : STy} (h1 : Readable P s) (h2 : Readable P t) {r r' : List Char} (hs : Stops r) (hs' : Stops r')
    (h : (s.text rv).toList ++ r = (t.text rv).toList ++ r') : s.word rv = t.word rv ∧ s.rest rv ++ r = t.rest rv ++ r' ∧ s.code = t.code := by
  rw [text_split, text_split, List.append_assoc, List.append_assoc] at h
  obtain ⟨a, b⟩ := split_at (word_delim hr h1) (word_delim hr h2) (rest_delim hs) (rest_delim hs') h
  refine ⟨a, b, ?_⟩
  rw [← word_kind hr h1 hs, ← word_kind hr h2 hs', a, b]

theorem literal_inj {vs ws : List Val} (hn : vs ≠ []) (hv : ∀ v ∈ vs, P v) (hn' : ws ≠ []) (hw : ∀ v ∈ ws, P v)
    (h : literalRepr rv vs = literalRepr rv ws) : vs.Perm ws := by
  have key : ∀ {vs : List Val}, vs ≠ [] → (∀ v ∈ vs, P v) → splitC '|' (literalRepr rv vs).toList =
      (sortStr (vs.map rv)).map String.toList := by
    intro vs hn hv
    rw [literalRepr, pyJoin_pipe]
    apply splitC_joinC
    · intro e
      have := congrArg List.length e
      rw [List.length_map, (sortStr_perm (vs.map rv)).length_eq, List.length_map] at this
      exact hn (List.length_eq_zero_iff.1 this)
    · intro w hw hm
      obtain ⟨s, hs, rfl⟩ := List.mem_map.1 hw
      obtain ⟨v, hv', rfl⟩ := sorted_mem hs
      exact (hr.clean v (hv v hv') _ hm).2.2.2.1 rfl
  have h1 := key hn hv
  rw [h, key hn' hw] at h1
  have h2 := (List.map_inj_right (fun a b e => String.toList_injective e)).1 h1
  have h3 : (vs.map rv).Perm (ws.map rv) :=
    (sortStr_perm (vs.map rv)).symm.trans (h2 ▸ sortStr_perm (ws.map rv))
  clear h h1 h2 hn hn' key
  induction vs generalizing ws with
  | nil =>
    have := h3.length_eq
    cases ws with
    | nil => exact .refl _
    | cons _ _ => simp at this
  | cons v vs ih =>
    have hm : rv v ∈ ws.map rv := h3.subset (by simp)
    obtain ⟨w, hw1, hw2⟩ := List.mem_map.1 hm
    have hvw := hr.inj w v (hw w hw1) (hv v (by simp)) hw2
    subst hvw
    obtain ⟨l1, l2, rfl⟩ := List.append_of_mem hw1
    have h4 : (rv w :: vs.map rv).Perm (rv w :: (l1 ++ l2).map rv) := by
      have : ((l1 ++ w :: l2).map rv).Perm (rv w :: (l1 ++ l2).map rv) := by
        simp only [List.map_append, List.map_cons]
        exact List.perm_middle
      exact h3.trans this
    have := ih (ws := l1 ++ l2) (fun u hu => hv u (by simp [hu]))
      (fun u hu => hw u (by rcases List.mem_append.1 hu with h | h <;> simp [h])) ((List.perm_cons _).1 h4)
    exact (this.cons w).trans List.perm_middle.symm

/-- the items of an enum -/
def itemsT (rv : Val → String) : List (String × Val) → List Char
  | [] => []
  | kv :: vs => ',' :: ' ' :: ((rv (.str kv.1)).toList ++ ':' :: ' ' :: ((rv kv.2).toList ++ itemsT rv vs))

omit hr in
theorem join_items : ∀ (kv : String × Val) (vs : List (String × Val)),
    (pyJoin ", " ((kv :: vs).map fun kv => rv (.str kv.1) ++ ": " ++ rv kv.2)).toList =
      (rv (.str kv.1)).toList ++ ':' :: ' ' :: ((rv kv.2).toList ++ itemsT rv vs)
  | kv, [] => by simp [pyJoin, itemsT, String.toList_append]
  | kv, u :: us => by
    have := join_items u us
    simp only [List.map_cons] at this
    simp [pyJoin, itemsT, String.toList_append, this]

def ItemEnd (r : List Char) : Prop := ∀ c, r.head? = some c → (c == ',' || c == '}') = true

omit hr in
theorem itemEnd_items (vs : List (String × Val)) (r : List Char) : ItemEnd (itemsT rv vs ++ '}' :: r) := by
  cases vs with
  | nil => intro c h; simp [itemsT] at h; simp [← h]
  | cons v vs => intro c h; simp [itemsT] at h; simp [← h]

theorem item_read {k k' : String} {v v' : Val} {r r' : List Char} (h1 : P (.str k)) (h2 : P v) (h1' : P (.str k')) (h2' : P v')
    (hs : ItemEnd r) (hs' : ItemEnd r') (h : (rv (.str k)).toList ++ ':' :: ' ' :: ((rv v).toList ++ r) =
      (rv (.str k')).toList ++ ':' :: ' ' :: ((rv v').toList ++ r')) : k = k' ∧ v = v' ∧ r = r' := by
  obtain ⟨a, b⟩ := split_at (p := (· == ':')) (fun c hc => by simpa using (hr.clean _ h1 c hc).2.2.2.2.2.1)
    (fun c hc => by simpa using (hr.clean _ h1' c hc).2.2.2.2.2.1) (by simp) (by simp) h
  simp only [List.cons.injEq, true_and] at b
  obtain ⟨a', b'⟩ := split_at (p := fun c => c == ',' || c == '}')
    (fun c hc => by have := hr.clean _ h2 c hc; simp [this])
    (fun c hc => by have := hr.clean _ h2' c hc; simp [this]) hs hs' b
  have e := hr.inj _ _ h1 h1' (String.toList_injective a)
  cases e
  exact ⟨rfl, hr.inj _ _ h2 h2' (String.toList_injective a'), b'⟩

theorem items_read : ∀ {vs ws : List (String × Val)} {r r' : List Char}, (∀ kv ∈ vs, P (.str kv.1) ∧ P kv.2) →
    (∀ kv ∈ ws, P (.str kv.1) ∧ P kv.2) → itemsT rv vs ++ '}' :: r = itemsT rv ws ++ '}' :: r' → vs = ws ∧ r = r'
  | [], [], r, r', _, _, h => by simpa [itemsT] using h
  | [], w :: ws, r, r', _, _, h => by simp [itemsT] at h
  | v :: vs, [], r, r', _, _, h => by simp [itemsT] at h
  | (k, v) :: vs, (k', v') :: ws, r, r', hv, hw, h => by
    simp only [itemsT, List.cons_append, List.append_assoc, List.cons.injEq, true_and] at h
    obtain ⟨rfl, rfl, h'⟩ := item_read hr (hv (k, v) (by simp)).1 (hv (k, v) (by simp)).2 (hw (k', v') (by simp)).1 (hw (k', v') (by simp)).2
      (itemEnd_items _ _) (itemEnd_items _ _) h
    obtain ⟨rfl, rfl⟩ := items_read (fun kv hm => hv kv (by simp [hm])) (fun kv hm => hw kv (by simp [hm])) h'
    exact ⟨rfl, rfl⟩

theorem enum_items {vs ws : List (String × Val)} {r r' : List Char} (hv : ∀ kv ∈ vs, P (.str kv.1) ∧ P kv.2)
    (hw : ∀ kv ∈ ws, P (.str kv.1) ∧ P kv.2)
    (h : (pyJoin ", " (vs.map fun kv => rv (.str kv.1) ++ ": " ++ rv kv.2)).toList ++ '}' :: r =
      (pyJoin ", " (ws.map fun kv => rv (.str kv.1) ++ ": " ++ rv kv.2)).toList ++ '}' :: r') : vs = ws ∧ r = r' := by
  have nostart : ∀ (kv : String × Val) (x r r' : List Char), P (.str kv.1) → '}' :: r = (rv (.str kv.1)).toList ++ ':' :: x → False := by
    intro kv x r _ hp e
    cases hk : (rv (.str kv.1)).toList with
    | nil => rw [hk] at e; simp at e
    | cons c cs =>
      rw [hk] at e
      simp only [List.cons_append, List.cons.injEq] at e
      exact (hr.clean _ hp c (by simp [hk])).2.2.2.2.2.2.1 e.1.symm
  match vs, ws with
  | [], [] => simpa [pyJoin] using h
  | [], w :: ws =>
    rw [join_items] at h
    simp only [List.map_nil, pyJoin, List.append_assoc, List.cons_append] at h
    exact (nostart w _ r r' (hw _ (by simp)).1 (by simpa using h)).elim
  | v :: vs, [] =>
    rw [join_items] at h
    simp only [List.map_nil, pyJoin, List.append_assoc, List.cons_append] at h
    exact (nostart v _ r' r (hv _ (by simp)).1 (by simpa using h.symm)).elim
  | (k, v) :: vs, (k', v') :: ws =>
    rw [join_items, join_items] at h
    simp only [List.append_assoc, List.cons_append] at h
    obtain ⟨rfl, rfl, h'⟩ := item_read hr (hv (k, v) (by simp)).1 (hv (k, v) (by simp)).2 (hw (k', v') (by simp)).1 (hw (k', v') (by simp)).2
      (itemEnd_items _ _) (itemEnd_items _ _) h
    obtain ⟨rfl, rfl⟩ := items_read hr (fun kv hm => hv kv (by simp [hm])) (fun kv hm => hw kv (by simp [hm])) h'
    exact ⟨rfl, rfl⟩

mutual
theorem text_read : ∀ (s t : STy) (r r' : List Char), Readable P s → Readable P t → Stops r → Stops r' →
    (s.text rv).toList ++ r = (t.text rv).toList ++ r' → SameTy s t ∧ r = r'
  | .prim a, t, r, r', h1, h2, hs, hs', h => by
    obtain ⟨p1, p2, p3⟩ := text_parts hr h1 h2 hs hs' h
    cases t <;> first | (exfalso; revert p3; simp [STy.code]; done) | skip
    simp only [STy.word] at p1
    cases String.toList_injective p1
    exact ⟨.prim a, by simpa [STy.rest] using p2⟩
  | .nothing, t, r, r', h1, h2, hs, hs', h => by
    obtain ⟨p1, p2, p3⟩ := text_parts hr h1 h2 hs hs' h
    cases t <;> first | (exfalso; revert p3; simp [STy.code]; done) | skip
    exact ⟨.nothing, by simpa [STy.rest] using p2⟩
  | .struct n fs v, t, r, r', h1, h2, hs, hs', h => by
    obtain ⟨p1, p2, p3⟩ := text_parts hr h1 h2 hs hs' h
    cases t <;> first | (exfalso; revert p3; simp [STy.code]; done) | skip
    simp only [STy.word] at p1
    cases String.toList_injective p1
    exact ⟨.struct .., by simpa [STy.rest] using p2⟩
  | .literal vs, t, r, r', h1, h2, hs, hs', h => by
    obtain ⟨p1, p2, p3⟩ := text_parts hr h1 h2 hs hs' h
    cases t <;> first | (exfalso; revert p3; simp [STy.code]; done) | skip
    cases h1 with | literal a b =>
    cases h2 with | literal a' b' =>
    simp only [STy.word] at p1
    exact ⟨.literal (literal_inj hr a b a' b' (String.toList_injective p1)), by simpa [STy.rest] using p2⟩
  | .enum n vs, t, r, r', h1, h2, hs, hs', h => by
    obtain ⟨p1, p2, p3⟩ := text_parts hr h1 h2 hs hs' h
    cases t <;> first | (exfalso; revert p3; simp [STy.code]; done) | skip
    cases h1 with | enum a b =>
    cases h2 with | enum a' b' =>
    simp only [STy.word, List.append_cancel_left_eq] at p1
    cases hr.inj _ _ a a' (String.toList_injective p1)
    simp only [STy.rest, List.cons_append, List.append_assoc, List.nil_append, List.cons.injEq, true_and] at p2
    obtain ⟨rfl, e⟩ := enum_items hr b b' p2
    simp only [List.cons.injEq, true_and] at e
    exact ⟨.enum .., e⟩
  | .list s, t, r, r', h1, h2, hs, hs', h => by
    obtain ⟨p1, p2, p3⟩ := text_parts hr h1 h2 hs hs' h
    cases t <;> first | (exfalso; revert p3; simp [STy.code]; done) | skip
    cases h1 with | list a =>
    cases h2 with | list a' =>
    simp only [STy.rest, List.cons_append, List.append_assoc, List.nil_append, List.cons.injEq, true_and] at p2
    obtain ⟨q, e⟩ := text_read s _ _ _ a a' (stops_close _) (stops_close _) p2
    simp only [List.cons.injEq, true_and] at e
    exact ⟨.list q, e⟩
  | .option s, t, r, r', h1, h2, hs, hs', h => by
    obtain ⟨p1, p2, p3⟩ := text_parts hr h1 h2 hs hs' h
    cases t <;> first | (exfalso; revert p3; simp [STy.code]; done) | skip
    cases h1 with | option a =>
    cases h2 with | option a' =>
    simp only [STy.rest, List.cons_append, List.append_assoc, List.nil_append, List.cons.injEq, true_and] at p2
    obtain ⟨q, e⟩ := text_read s _ _ _ a a' (stops_close _) (stops_close _) p2
    simp only [List.cons.injEq, true_and] at e
    exact ⟨.option q, e⟩
  | .dict k v, t, r, r', h1, h2, hs, hs', h => by
    obtain ⟨p1, p2, p3⟩ := text_parts hr h1 h2 hs hs' h
    cases t <;> first | (exfalso; revert p3; simp [STy.code]; done) | skip
    cases h1 with | dict a b =>
    cases h2 with | dict a' b' =>
    simp only [STy.rest, List.cons_append, List.append_assoc, List.nil_append, List.cons.injEq, true_and] at p2
    obtain ⟨q, e⟩ := text_read k _ _ _ a a' (stops_comma _) (stops_comma _) p2
    simp only [List.cons.injEq, true_and] at e
    obtain ⟨q', e'⟩ := text_read v _ _ _ b b' (stops_close _) (stops_close _) e
    simp only [List.cons.injEq, true_and] at e'
    exact ⟨.dict q q', e'⟩
  | .union ts, t, r, r', h1, h2, hs, hs', h => by
    obtain ⟨p1, p2, p3⟩ := text_parts hr h1 h2 hs hs' h
    cases t <;> first | (exfalso; revert p3; simp [STy.code]; done) | skip
    cases h1 with | union a =>
    cases h2 with | union a' =>
    simp only [STy.rest, List.cons_append, List.append_assoc, List.nil_append, List.cons.injEq, true_and] at p2
    obtain ⟨q, e⟩ := join_read ts _ _ _ a a' p2
    exact ⟨.union q, e⟩
  | .tuple ts, t, r, r', h1, h2, hs, hs', h => by
    obtain ⟨p1, p2, p3⟩ := text_parts hr h1 h2 hs hs' h
    cases t <;> first | (exfalso; revert p3; simp [STy.code]; done) | skip
    cases h1 with | tuple a b =>
    cases h2 with | tuple a' b' =>
    simp only [STy.rest, List.cons_append, List.append_assoc, List.nil_append, List.cons.injEq, true_and, reprL_textL b, reprL_textL b'] at p2
    obtain ⟨q, e⟩ := join_read ts _ _ _ a a' p2
    simp only [List.cons.injEq, true_and] at e
    exact ⟨.tuple q, e⟩
termination_by structural s => s
theorem tail_read : ∀ (ts us : List STy) (r r' : List Char), ReadableL P ts → ReadableL P us →
    tailT rv ts ++ ']' :: r = tailT rv us ++ ']' :: r' → SameTyL ts us ∧ r = r'
  | [], us, r, r', h1, h2, h => by
    cases us with
    | nil => simp only [tailT, List.nil_append, List.cons.injEq, true_and] at h; exact ⟨.nil, h⟩
    | cons u us => simp [tailT] at h
  | t :: ts, us, r, r', h1, h2, h => by
    cases us with
    | nil => simp [tailT] at h
    | cons u us =>
      cases h1 with | cons a b =>
      cases h2 with | cons a' b' =>
      simp only [tailT, List.cons_append, List.append_assoc, List.cons.injEq, true_and] at h
      obtain ⟨q, e⟩ := text_read t _ _ _ a a' (stops_tail rv _ _) (stops_tail rv _ _) h
      obtain ⟨q', e'⟩ := tail_read ts _ _ _ b b' e
      exact ⟨.cons q q', e'⟩
termination_by structural ts => ts
theorem join_read : ∀ (ts us : List STy) (r r' : List Char), ReadableL P ts → ReadableL P us →
    (pyJoin ", " (textL rv ts)).toList ++ ']' :: r = (pyJoin ", " (textL rv us)).toList ++ ']' :: r' → SameTyL ts us ∧ r = r'
  | [], us, r, r', h1, h2, h => by
    cases us with
    | nil => simp only [textL, pyJoin] at h; exact ⟨.nil, by simpa using h⟩
    | cons u us =>
      cases h2 with | cons a' b' =>
      rw [join_tail, List.append_assoc] at h
      obtain ⟨c, cs, e1, e2⟩ := text_head hr a' (tailT rv us ++ ']' :: r')
      rw [e1] at h
      simp [textL, pyJoin] at h
      rw [← h.1] at e2
      exact (nomatch e2)
  | t :: ts, us, r, r', h1, h2, h => by
    cases h1 with | cons a b =>
    rw [join_tail, List.append_assoc] at h
    cases us with
    | nil =>
      obtain ⟨c, cs, e1, e2⟩ := text_head hr a (tailT rv ts ++ ']' :: r)
      rw [e1] at h
      simp [textL, pyJoin] at h
      rw [h.1] at e2
      exact (nomatch e2)
    | cons u us =>
      cases h2 with | cons a' b' =>
      rw [join_tail, List.append_assoc] at h
      obtain ⟨q, e⟩ := text_read t _ _ _ a a' (stops_tail rv _ _) (stops_tail rv _ _) h
      obtain ⟨q', e'⟩ := tail_read ts _ _ _ b b' e
      exact ⟨.cons q q', e'⟩
termination_by structural ts => ts
end

/-- C86: the text of a type determines the type, and the other way round, where a dataclass counts as its name and the order in which a
Literal lists its values does not matter. For all types in which values and class names are as usual. Missing: dataclasses directly inside a
Tuple. -/
theorem C86_text_partial (s t : STy) (h1 : Readable P s) (h2 : Readable P t) : s.text rv = t.text rv ↔ SameTy s t := by
  constructor
  · intro h
    exact (text_read hr s t [] [] h1 h2 stops_nil stops_nil (by rw [h])).1
  · intro h
    exact same_text h h1 h2

end

/-! ## the report -/

theorem SameTy.kind {s t : STy} (h : SameTy s t) : s.kind = t.kind := by cases h <;> rfl

theorem typeChanged_differ {lower : Char → String} {old new : STy} {cs : List Change} (ho : WFS old) (hn : WFS new)
    (h : checkSchemas lower old new = .ok cs) {p : List String} {a b : STy} (hc : .typeChanged p a b ∈ cs) : ¬ SameTy a b := by
  simp only [checkSchemas, bind, Except.bind, pure, Except.pure] at h
  split at h
  · exact (nomatch h)
  rename_i cs0 h0
  cases h
  have hx := fun c => C28_exact old new cs0 ho hn h0 c
  have no1 : ∀ x y : Change, (fieldRenameCfg lower).isAdded x = true → (fieldRenameCfg lower).isRemoved y = true →
      Change.typeChanged p a b ≠ (fieldRenameCfg lower).renamed x y := by
    intro x y h1 h2
    cases x <;> simp only [fieldRenameCfg, Bool.false_eq_true] at h1
    cases y <;> simp only [fieldRenameCfg, Bool.false_eq_true] at h2
    simp [fieldRenameCfg]
  have no2 : ∀ x y : Change, (enumRenameCfg lower).isAdded x = true → (enumRenameCfg lower).isRemoved y = true →
      Change.typeChanged p a b ≠ (enumRenameCfg lower).renamed x y := by
    intro x y h1 h2
    cases x <;> simp only [enumRenameCfg, Bool.false_eq_true] at h1
    cases y <;> simp only [enumRenameCfg, Bool.false_eq_true] at h2
    simp only [enumRenameCfg]
    split <;> simp
  rcases C29_origin _ _ _ hc with hc | ⟨x, _, y, _, h1, h2, h3, -⟩
  · rcases C29_origin _ _ _ hc with hc | ⟨x, _, y, _, h1, h2, h3, -⟩
    · obtain ⟨q, o, n, _, hl⟩ := (hx _).1 hc
      cases hl with
      | kind hk => exact fun hs => hk hs.kind
      | prim hk => intro hs; cases hs; exact hk rfl
    · exact absurd h3 (no1 x y h1 h2)
  · exact absurd h3 (no2 x y h1 h2)

/-- C86: a line of the report about a changed type shows two different texts, so that the change can be seen. Missing: types that cannot be
told from their text (see `Readable`). -/
theorem C86_changed_partial (lower : Char → String) (rv : Val → String) (P : Val → Prop) (hr : ReprOK rv P) (old : STy) (ty : PyTy)
    (o n : STy) (cs : List Change) (r : Report)
    (h : checkSchemaCmd lower (pyShow rv) old ty = .ok r) (hc : schemaChecker lower old ty = .ok (o, n, cs)) (ho : WFS o) (hd : DistinctTy ty)
    (p : List String) (a b : STy) (hm : .typeChanged p a b ∈ cs) (ha : Readable P a) (hb : Readable P b) :
    ∃ sev A B, (⟨sev, "type changed from " ++ A ++ " to " ++ B, pyJoin "." p⟩ : Line) ∈ r.lines ∧ A = a.text rv ∧ B = b.text rv ∧ A ≠ B := by
  obtain ⟨_, o', n', cs', h1, rfl⟩ := checkSchemaCmd_ok h
  rw [hc] at h1
  cases h1
  have hmat := (schemaChecker_ok hc).2.1
  have hk : checkSchemas lower o n = .ok cs := by
    simp only [schemaChecker, bind, Except.bind, pure, Except.pure] at hc
    split at hc
    · exact (nomatch hc)
    split at hc
    · split at hc
      · exact (nomatch hc)
      split at hc
      · exact (nomatch hc)
      rename_i h2
      cases hc
      exact h2
    · exact (nomatch hc)
  have hls : (printReport (pyShow rv) o n cs).lines = cs.map (Change.line (pyShow rv)) := by simp only [printReport]; split <;> rfl
  refine ⟨(Change.typeChanged p a b).severity, _, _, ?_, rfl, rfl, ?_⟩
  · rw [hls]
    exact List.mem_map.2 ⟨_, hm, rfl⟩
  · intro e
    exact typeChanged_differ ho (wfs_materialize ty n hd hmat) hk hm ((C86_text_partial hr a b ha hb).1 e)

/-! ## the listing -/

mutual
theorem text_withDocs {rv : Val → String} {P : Val → Prop} (docs : String → List (String × String)) : ∀ {s : STy}, Readable P s →
    (s.withDocs docs).text rv = s.text rv
  | .prim _, _ => by simp only [STy.withDocs]
  | .nothing, _ => by simp only [STy.withDocs]
  | .enum _ _, _ => by simp only [STy.withDocs]
  | .literal _, _ => by simp only [STy.withDocs]
  | .struct _ _ _, _ => by simp only [STy.withDocs, STy.text]
  | .list t, h => by cases h with | list a => simp only [STy.withDocs, STy.text, text_withDocs docs a]
  | .option t, h => by cases h with | option a => simp only [STy.withDocs, STy.text, text_withDocs docs a]
  | .dict k v, h => by cases h with | dict a b => simp only [STy.withDocs, STy.text, text_withDocs docs a, text_withDocs docs b]
  | .union ts, h => by cases h with | union a => simp only [STy.withDocs, STy.text, textL_withDocs docs a]
  | .tuple ts, h => by
    cases h with | tuple a b =>
    have : ∀ t ∈ withDocsL docs ts, t.isStruct = false := by
      clear a
      induction ts with
      | nil => simp [withDocsL]
      | cons t ts ih =>
        intro u hu
        simp only [withDocsL] at hu
        rcases List.mem_cons.1 hu with rfl | hu
        · have := b t (by simp)
          cases t <;> simp only [STy.isStruct, Bool.true_eq_false] at this <;> simp only [STy.withDocs, STy.isStruct]
        · exact ih (fun t ht => b t (by simp [ht])) u hu
    simp only [STy.withDocs, STy.text, reprL_textL b, reprL_textL this, textL_withDocs docs a]
termination_by structural s => s
theorem textL_withDocs {rv : Val → String} {P : Val → Prop} (docs : String → List (String × String)) : ∀ {ts : List STy}, ReadableL P ts →
    textL rv (withDocsL docs ts) = textL rv ts
  | [], _ => by simp only [withDocsL]
  | t :: ts, h => by cases h with | cons a b => simp only [withDocsL, textL, text_withDocs docs a, textL_withDocs docs b]
termination_by structural ts => ts
end

theorem oneLine_word {rv : Val → String} {P : Val → Prop} (hr : ReprOK rv P) {w : Val} (h : P w) : OneLine (rv w) := fun hm =>
  (hr.clean w h _ hm).2.2.2.2.2.2.2.2 rfl

theorem oneLine_join {ws : List String} (h : ∀ w ∈ ws, OneLine w) : OneLine (pyJoin ", " ws) := by
  induction ws with
  | nil => simp [pyJoin, OneLine]
  | cons w ws ih =>
    cases ws with
    | nil => simpa [pyJoin] using h w (by simp)
    | cons v vs =>
      simp only [pyJoin]
      exact oneLine_append (oneLine_append (h w (by simp)) (by simp [OneLine])) (ih (fun u hu => h u (by simp [hu])))

mutual
theorem oneLine_text {rv : Val → String} {P : Val → Prop} (hr : ReprOK rv P) : ∀ {s : STy}, Readable P s → OneLine (s.text rv)
  | .prim s, h => by
    cases h with | prim h =>
    simp only [List.mem_cons, List.not_mem_nil, or_false] at h
    rcases h with rfl | rfl | rfl | rfl <;> simp [OneLine, STy.text]
  | .nothing, _ => by simp [OneLine, STy.text]
  | .enum n vs, h => by
    cases h with | enum a b =>
    simp only [STy.text, enumRepr]
    refine oneLine_append (oneLine_append (oneLine_append (oneLine_append (by simp [OneLine]) (oneLine_word hr a)) (by simp [OneLine])) ?_)
      (by simp [OneLine])
    apply oneLine_join
    intro w hw
    obtain ⟨kv, hkv, rfl⟩ := List.mem_map.1 hw
    exact oneLine_append (oneLine_append (oneLine_word hr (b kv hkv).1) (by simp [OneLine])) (oneLine_word hr (b kv hkv).2)
  | .literal vs, h => by
    cases h with | literal a b =>
    intro hm
    simp only [STy.text] at hm
    rcases literalRepr_mem hr b hm with h | h
    · exact absurd h (by decide)
    · exact h.2.2.2.2.2.2.2.2 rfl
  | .struct n _ _, h => by
    cases h with | struct a =>
    intro hm
    simp only [STy.text] at hm
    exact (a.1 _ hm).2.2.2.2.2.2.2.2 rfl
  | .list t, h => by
    cases h with | list a =>
    simp only [STy.text]; exact oneLine_append (oneLine_append (by simp [OneLine]) (oneLine_text hr a)) (by simp [OneLine])
  | .option t, h => by
    cases h with | option a =>
    simp only [STy.text]; exact oneLine_append (oneLine_append (by simp [OneLine]) (oneLine_text hr a)) (by simp [OneLine])
  | .dict k v, h => by
    cases h with | dict a b =>
    simp only [STy.text]
    exact oneLine_append (oneLine_append (oneLine_append (oneLine_append (by simp [OneLine]) (oneLine_text hr a)) (by simp [OneLine]))
      (oneLine_text hr b)) (by simp [OneLine])
  | .union ts, h => by
    cases h with | union a =>
    simp only [STy.text]
    exact oneLine_append (oneLine_append (by simp [OneLine]) (oneLine_join (oneLine_textL hr a))) (by simp [OneLine])
  | .tuple ts, h => by
    cases h with | tuple a b =>
    simp only [STy.text, reprL_textL b]
    exact oneLine_append (oneLine_append (by simp [OneLine]) (oneLine_join (oneLine_textL hr a))) (by simp [OneLine])
termination_by structural s => s
theorem oneLine_textL {rv : Val → String} {P : Val → Prop} (hr : ReprOK rv P) : ∀ {ts : List STy}, ReadableL P ts → ∀ w ∈ textL rv ts, OneLine w
  | [], _ => by simp [textL]
  | t :: ts, h => by
    cases h with | cons a b =>
    intro w hw
    simp only [textL] at hw
    rcases List.mem_cons.1 hw with rfl | hw
    · exact oneLine_text hr a
    · exact oneLine_textL hr b w hw
termination_by structural ts => ts
end

/-- classes whose listing can be read: distinct field names that are identifiers, types that can be told from their text, defaults and
descriptions of one line -/
structure Listable (rv : Val → String) (P : Val → Prop) (docs : String → List (String × String)) (ty : PyTy) : Prop where
  distinct : DistinctTy ty
  ident : ∀ p m g, Declares ty p m g → Ident g.name
  types : ∀ p m g s, Declares ty p m g → materialize g.ty = .ok s → Readable P s
  values : ∀ p m g, Declares ty p m g → OneLine (rv (schemaDefault g.dflt).1)
  docs : ∀ m k d, dget (docs m) k = some d → OneLine d

theorem Listable.oneLine {rv : Val → String} {P : Val → Prop} (hr : ReprOK rv P) {docs : String → List (String × String)} {ty : PyTy}
    (h : Listable rv P docs ty) : (pyTexts rv).OneLineOn docs ty := by
  intro p m g s h1 h2
  have := h.types p m g s h1 h2
  refine ⟨?_, h.values p m g h1⟩
  show OneLine ((s.withDocs docs).text rv)
  rw [text_withDocs docs this]
  exact oneLine_text hr this

theorem listed_form {rv : Val → String} {P : Val → Prop} {docs : String → List (String × String)} {left : String} {n : String} {g : Fld}
    {line : String} {s : STy} (hl : ListedAs (pyTexts rv) docs left n g line) (hm : materialize g.ty = .ok s) (hs : Readable P s) :
    ∃ tl, line.toList = left.toList ++ ':' :: ' ' :: ((s.text rv).toList ++ tl) ∧ Stops tl := by
  obtain ⟨s', h1, h2, h3⟩ := hl
  rw [hm] at h1
  cases h1
  have ht : (pyTexts rv).type (s.withDocs docs) = s.text rv := text_withDocs docs hs
  rw [ht] at h2
  by_cases hn : Nests g.ty
  · exact ⟨[], by rw [h2 hn]; simp [String.toList_append], stops_nil⟩
  · obtain ⟨stem, k1, k2⟩ := h3 hn
    have hstem : ∃ tl, stem.toList = left.toList ++ ':' :: ' ' :: ((s.text rv).toList ++ tl) ∧ Stops tl := by
      rcases k1 with ⟨_, e⟩ | ⟨_, e⟩
      · rw [ht] at e
        exact ⟨[], by rw [e]; simp [String.toList_append], stops_nil⟩
      · rw [ht] at e
        refine ⟨' ' :: '=' :: ' ' :: ((pyTexts rv).value (schemaDefault g.dflt).1).toList, by rw [e]; simp [String.toList_append], ?_⟩
        intro c hc
        simp at hc
        exact .inr (.inr hc.symm)
    obtain ⟨tl, e, hst⟩ := hstem
    rcases k2 with ⟨_, rfl⟩ | ⟨d, k, _, rfl, _⟩
    · exact ⟨tl, e, hst⟩
    · refine ⟨tl ++ (List.replicate k ' ' ++ (' ' :: ' ' :: '#' :: ' ' :: d.toList)), by simp [String.toList_append, e], ?_⟩
      intro c hc
      cases tl with
      | nil =>
        right; right
        cases k with
        | zero => simp at hc; exact hc.symm
        | succ k => simp [List.replicate_succ] at hc; exact hc.symm
      | cons x xs => simp at hc; exact hst c (by simp [hc])

/-- C86: two classes for which `help` prints the same have the same fields of the same types: every field of the one, at any depth, is a field of
the other under the same path, with a type that differs at most in what is not shown (`SameTy`). Missing: classes whose listing cannot be read
(`Listable`); what is in the dataclasses inside a Tuple, Dict or Union is not shown (`C86_union_false`). -/
theorem C86_help_partial (lower lower' : Char → String) (rv : Val → String) (P : Val → Prop) (hr : ReprOK rv P)
    (docs docs' : String → List (String × String)) (n n' : String) (fs fs' : List Fld) (ver ver' : Option VerInfo)
    (h : Listable rv P docs (.data n fs ver)) (h' : Listable rv P docs' (.data n' fs' ver')) (ls ls' : List String)
    (hl : helpText lower (pyTexts rv) docs (.data n fs ver) "" = .ok ls)
    (hl' : helpText lower' (pyTexts rv) docs' (.data n' fs' ver') "" = .ok ls') (he : printed ls = printed ls')
    (p : List String) (m : String) (g : Fld) (hg : Declares (.data n fs ver) p m g) :
    ∃ m' g' s s', Declares (.data n' fs' ver') p m' g' ∧ materialize g.ty = .ok s ∧ materialize g'.ty = .ok s' ∧ SameTy s s' := by
  have mat : ∀ {lower : Char → String} {docs : String → List (String × String)} {n : String} {fs : List Fld} {ver : Option VerInfo}
      {ls : List String}, helpText lower (pyTexts rv) docs (.data n fs ver) "" = .ok ls → ∃ F, materializeF fs = .ok F := by
    intro lower docs n fs ver ls h
    simp only [helpText, materialize, bind, Except.bind, pure, Except.pure] at h
    cases hF : materializeF fs with
    | ok F => exact ⟨F, rfl⟩
    | error e => rw [hF] at h; exact (nomatch h)
  obtain ⟨F, hF⟩ := mat hl
  obtain ⟨F', hF'⟩ := mat hl'
  obtain ⟨ls1, k1, _, k2, _, _⟩ := C85_listing_partial lower (pyTexts rv) docs n fs ver F hF h.distinct h.ident (h.oneLine hr) h.docs
  obtain ⟨ls2, k1', _, _, k3', _⟩ := C85_listing_partial lower' (pyTexts rv) docs' n' fs' ver' F' hF' h'.distinct h'.ident (h'.oneLine hr) h'.docs
  rw [hl] at k1
  rw [hl'] at k1'
  cases k1
  cases k1'
  obtain ⟨l, hm1, hm2⟩ := k2 p m g hg
  rw [he] at hm1
  obtain ⟨m', g', hg', hm2'⟩ := k3' p l hm1
  obtain ⟨s, hs, _⟩ := id hm2
  obtain ⟨s', hs', _⟩ := id hm2'
  have r1 := h.types p m g s hg hs
  have r2 := h'.types p m' g' s' hg' hs'
  obtain ⟨tl, e1, st1⟩ := listed_form hm2 hs r1
  obtain ⟨tl', e2, st2⟩ := listed_form hm2' hs' r2
  have noc : ∀ {g : Fld}, Ident g.name → ∀ c ∈ (String.ofList (List.replicate (2 * (p.length - 1)) ' ') ++ g.name).toList, (c == ':') = false := by
    intro g hid c hc
    simp only [String.toList_append, String.toList_ofList, List.mem_append, List.mem_replicate] at hc
    rcases hc with ⟨_, rfl⟩ | hc
    · rfl
    · simp only [beq_eq_false_iff_ne, ne_eq]
      rintro rfl
      exact hid.2.1 hc
  obtain ⟨_, e3⟩ := split_at (p := (· == ':')) (noc (h.ident p m g hg)) (noc (h'.ident p m' g' hg')) (by simp) (by simp) (e1.symm.trans e2)
  simp only [List.cons.injEq, true_and] at e3
  exact ⟨m', g', s, s', hg', hs, hs', (text_read hr s s' tl tl' r1 r2 st1 st2 e3).1⟩

/-! ## cases -/

namespace ExText

/-- `repr` of strings without special characters, of booleans and None -/
def rv : Val → String
  | .str s => "'" ++ s ++ "'"
  | .bool true => "True"
  | .bool false => "False"
  | .none => "None"
  | _ => "?"

/-- the values in the types -/
def P (v : Val) : Prop := (∃ s, v = .str s ∧ NoSep s.toList) ∨ v = .bool true ∨ v = .bool false ∨ v = .none

theorem rv_str (s : String) : (rv (.str s)).toList = '\'' :: (s.toList ++ ['\'']) := by simp [rv, String.toList_append]

theorem reprOK : ReprOK rv P := by
  refine ⟨?_, ?_, ?_⟩
  · rintro v (⟨s, rfl, h⟩ | rfl | rfl | rfl)
    · intro c hc
      rw [rv_str] at hc
      simp only [List.mem_cons, List.mem_append, List.not_mem_nil, or_false] at hc
      rcases hc with rfl | hc | rfl
      · decide
      · exact h c hc
      · decide
    · unfold NoSep; decide +kernel
    · unfold NoSep; decide +kernel
    · unfold NoSep; decide +kernel
  · have q : ∀ s, rv (.str s) ≠ "True" ∧ rv (.str s) ≠ "False" ∧ rv (.str s) ≠ "None" := by
      intro s
      refine ⟨?_, ?_, ?_⟩ <;>
        (intro e; have := congrArg String.toList e; rw [rv_str] at this; simp at this)
    rintro v w (⟨s, rfl, -⟩ | rfl | rfl | rfl) (⟨t, rfl, -⟩ | rfl | rfl | rfl) h
    · have := congrArg String.toList h
      rw [rv_str, rv_str] at this
      simp only [List.cons.injEq, true_and, List.append_cancel_right_eq] at this
      rw [String.toList_injective this]
    · exact absurd h (q s).1
    · exact absurd h (q s).2.1
    · exact absurd h (q s).2.2
    · exact absurd h.symm (q t).1
    · rfl
    · simp [rv] at h
    · simp [rv] at h
    · exact absurd h.symm (q t).2.1
    · simp [rv] at h
    · rfl
    · simp [rv] at h
    · exact absurd h.symm (q t).2.2
    · simp [rv] at h
    · simp [rv] at h
    · rfl
  · rintro v (⟨s, rfl, h⟩ | rfl | rfl | rfl)
    · exact .inr ⟨_, _, rv_str s, by decide⟩
    · left; simp [rv]
    · left; simp [rv]
    · left; simp [rv]

/-- `Dict[str, Optional[Tuple[Literal["b", "a"], List[Opt]]]]` -/
def ty : STy := .dict (.prim "str") (.option (.tuple [.literal [.str "b", .str "a"], .list (.struct "Opt" [] .none)]))

example : ty.text rv = "Dict[str, Optional[Tuple[['a'|'b', List[Opt]]]]]" := by decide +kernel

example : STy.text rv (.enum "Color" [("RED", .str "red"), ("BLUE", .str "blue")]) =
    "Enum(name='Color', variants={'RED': 'red', 'BLUE': 'blue'})" := by decide +kernel

theorem pStr (s : String) (h : NoSep s.toList) : P (.str s) := .inl ⟨s, rfl, h⟩

/-- The hypotheses of C86_text_partial are met by it. -/
theorem readable : Readable P ty := by
  refine .dict (.prim (by simp)) (.option (.tuple (.cons (.literal (by simp) ?_) (.cons (.list (.struct ?_)) .nil)) ?_))
  · intro v hv
    simp only [List.mem_cons, List.not_mem_nil, or_false] at hv
    rcases hv with rfl | rfl
    · exact pStr _ (by unfold NoSep; decide +kernel)
    · exact pStr _ (by unfold NoSep; decide +kernel)
  · exact ⟨by unfold NoSep; decide +kernel, by decide +kernel, 'O', ['p', 't'], by decide +kernel, by decide⟩
  · simp [STy.isStruct]

/-- so its text is that of no other type -/
example (t : STy) (h : Readable P t) (e : t.text rv = "Dict[str, Optional[Tuple[['a'|'b', List[Opt]]]]]") : SameTy t ty :=
  (C86_text_partial reprOK t ty h readable).1 (by rw [e]; decide +kernel)

/-- a class with a field `x: Optional[str]` -/
def fs : List Fld := [.mk "x" (.union [.str, .noneT]) (some .none)]

theorem listable : Listable rv P (fun _ => []) (.data "C" fs .none) := by
  have only : ∀ p m g, Declares (.data "C" fs .none) p m g → g = .mk "x" (.union [.str, .noneT]) (some .none) := by
    intro p m g h
    cases h with
    | here hf => simpa [fs] using hf
    | there hf hi =>
      simp only [fs, List.mem_cons, List.not_mem_nil, or_false] at hf
      subst hf
      cases hi with | opt h => exact (nomatch h)
  refine ⟨by simp [DistinctTy, DistinctTyF, DistinctTyF1, DistinctTyHd, fs, Fld.name], ?_, ?_, ?_, by simp [dget]⟩
  · intro p m g h
    rw [only p m g h]
    simp [Ident, Fld.name]
  · intro p m g s h hm
    rw [only p m g h] at hm
    cases hm
    exact .option (.prim (by simp))
  · intro p m g h
    rw [only p m g h]
    simp [OneLine, rv, schemaDefault, Fld.dflt]

/-- The hypotheses of C86_help_partial are met, and it shows what a class with this listing must have. -/
example (n : String) (fs' : List Fld) (h : Listable rv P (fun _ => []) (.data n fs' .none))
    (hl : helpText Ex.lc (pyTexts rv) (fun _ => []) (.data n fs' .none) "" = .ok ["x: Optional[str]"]) :
    ∃ m g s, Declares (.data n fs' .none) ["x"] m g ∧ materialize g.ty = .ok s ∧ SameTy (.option (.prim "str")) s := by
  have h0 : helpText Ex.lc (pyTexts rv) (fun _ => []) (.data "C" fs .none) "" = .ok ["x: Optional[str]"] := by
    obtain ⟨r, h1, h2⟩ := ExRep.ok_of (e := helpText Ex.lc (pyTexts rv) (fun _ => []) (.data "C" fs .none) "")
      (fun r => decide (r = ["x: Optional[str]"])) (by decide +kernel)
    rw [h1, of_decide_eq_true h2]
  obtain ⟨m, g, s, s', a, b, c, d⟩ := C86_help_partial Ex.lc Ex.lc rv P reprOK _ _ _ _ _ _ _ _ listable h _ _ h0 hl rfl
    ["x"] "C" (.mk "x" (.union [.str, .noneT]) (some .none)) (.here (f := .mk "x" (.union [.str, .noneT]) (some .none)) (by simp [fs]))
  cases b
  exact ⟨m, g, s', a, c, d⟩

/-- `opt: Union[A, B]` where `A` has a field `lr` of a given type -/
def tagged (t : PyTy) : PyTy :=
  .data "C" [.mk "opt" (.union [.data "A" [.mk "lr" t .none] .none, .data "B" [.mk "n" .int .none] .none]) .none] .none

end ExText

/-- C86 is false without the restriction to what is shown: the listing does not show the fields of the classes in a union. The two classes print the
same, though one accepts `lr: "x"` and the other does not. -/
theorem C86_union_false : ∃ (c c' : PyTy) (d x : Val),
    (∀ (lower : Char → String) (tx : Texts) (docs : String → List (String × String)), tx.type = STy.text tx.value →
      helpText lower tx docs c "" = helpText lower tx docs c' "") ∧
    ∀ (w : World) (am file : Bool), fromDict (w.dcfg am file) c false "" d = .ok (x, []) ∧
      ∃ e, fromDict (w.dcfg am file) c' false "" d = .error e := by
  refine ⟨ExText.tagged .str, ExText.tagged (.list .int), .dict [("opt", .dict [(NAME_KEY, .str "A"), ("lr", .str "x")])],
    .inst "C" [("opt", .inst "A" [("lr", .str "x")])], ?_, ?_⟩
  · intro lower tx docs h
    simp only [helpText, ExText.tagged, materialize, materializeF, materializeF1, materializeL, isOptionalArgs, PyTy.isNoneT, Bool.false_eq_true, if_false, bind, Except.bind, pure,
      Except.pure, STy.withDocs, withDocsF, withDocsP, withDocsS, withDocsL, textF, textP, textS, textT, schemaLine, h, STy.text, STy.unwrap, textL]
    rfl
  · intro w am file
    exact ⟨rfl, _, rfl⟩

end HS
