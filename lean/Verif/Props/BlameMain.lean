import Verif.Props.Blame
/-!
# C87 and C88: what the message of a failed load says

`fromDictM` (Model/Blame.lean) is `from_dict` with its messages; `fromDict` is the same without (`drop_fromDict`).
-/
namespace HS

/-- the place that a message about one value gives -/
def Msg.place : Msg → Option String
  | .notA p _ _ | .notInt p _ | .notOneOf p _ _ | .notLiteral p _ _ => some p
  | _ => .none

/-- A value that is refused where it stands: no document with this value at this place loads, whatever the rest of it is. -/
theorem C87_stays (c : DCfg) {t t' : PyTy} {doc v' : Val} {q : List Hop} (h : StandsAt c t doc q t' v') (hw : Wrong c t' v')
    (ig : Bool) (base : String) : ∃ e, fromDict c t ig base doc = .error e :=
  reach_refused c _ h (fun ig p => wrong_refused c t' v' hw ig p) ig base

/-- If the message of a failed load gives the place of a value, then there is a value at this place (in the upgraded
document); everything before it, in the lists and objects around it, loads; the message prints this value and its
declared type; the type refuses this value; and no other document with this value at this place loads. -/
theorem C87_blamed (c : DCfg) (order : List Fld → List Fld) (ho : IsOrder order) (t : PyTy) (ig : Bool) (doc : Val)
    (e : Err) (m : Msg) (p : String) (h : fromDictM c order t ig "" doc = .error (e, m)) (hp : m.place = some p) :
    ∃ q t' v', showFrom "" q = p ∧ ReachP c (Loads c) t doc q t' v' ∧ Told c p t' v' m ∧ Wrong c t' v' ∧
      ∀ doc' ig', StandsAt c t doc' q t' v' → ∃ e', fromDict c t ig' "" doc' = .error e' := by
  have hs : m.says ≠ false := by cases m <;> simp [Msg.place, Msg.says] at hp ⊢
  obtain ⟨q, t', v', h1, h2⟩ := blames c order ho t ig "" doc e m h hs
  have hq : showFrom "" q = p ∧ Wrong c t' v' := by
    cases m <;> simp only [Msg.place, Option.some.injEq, reduceCtorEq] at hp <;> subst hp <;> simp only [Told] at h2
    · exact ⟨h2.1.symm, h2.2.2.2⟩
    · exact ⟨h2.1.symm, h2.2.2.2⟩
    · exact ⟨h2.1.symm, h2.2.2.2⟩
    · exact ⟨h2.1.symm, h2.2.2.2⟩
  exact ⟨q, t', v', hq.1, h1, hq.1 ▸ h2, hq.2, fun doc' ig' hd => C87_stays c hd hq.2 ig' ""⟩

/-- The other messages about the document: an entry that no field has the name of, and a value that is no object where a
dataclass is declared. Everything before it loads; the message gives the class, but not the place. -/
theorem C87_class (c : DCfg) (order : List Fld → List Fld) (ho : IsOrder order) (t : PyTy) (ig : Bool) (doc : Val) (e : Err)
    (cls : String) :
    (∀ k, fromDictM c order t ig "" doc = .error (e, .noAttr cls k) → ∃ q fs d v', ReachP c (Loads c) t doc q (.data cls fs .none) v' ∧
      Entries c.env v' d ∧ Given d k ∧ ∀ f ∈ fs, f.name ≠ k) ∧
    (∀ v, fromDictM c order t ig "" doc = .error (e, .notObj v cls) → ∃ q fs, ReachP c (Loads c) t doc q (.data cls fs .none) v ∧
      ∀ d, ¬ Entries c.env v d) := by
  constructor
  · intro k h
    obtain ⟨q, t', v', h1, fs, d, rfl, _, h2, h3, h4⟩ := blames c order ho t ig "" doc e _ h (by simp [Msg.says])
    exact ⟨q, fs, d, v', h1, h2, h3, h4⟩
  · intro v h
    obtain ⟨q, t', v', h1, fs, rfl, _, rfl, h4⟩ := blames c order ho t ig "" doc e _ h (by simp [Msg.says])
    exact ⟨q, fs, h1, h4⟩

/-! ## the text of a place -/

/-- a name that can be told from the dots and brackets around it -/
def Hop.clean : Hop → Prop
  | .field k | .key k => k ≠ "" ∧ ∀ ch ∈ k.toList, ch ≠ '.' ∧ ch ≠ '['
  | .elem _ => True

/-- an entry of a Dict read like a field -/
def Hop.plain : Hop → Hop
  | .key k => .field k
  | s => s

def Hop.chars : Hop → List Char
  | .field k | .key k => '.' :: k.toList
  | .elem i => '[' :: (Nat.toDigits 10 i ++ [']'])

/-- the first step of a place -/
def Hop.firstChars : Hop → List Char
  | .field k => k.toList
  | s => s.chars

def tailChars (q : List Hop) : List Char := q.flatMap Hop.chars

theorem onto_ne (p : String) (s : Hop) (hs : s.clean) : Hop.onto p s ≠ "" := by
  intro h
  have h := congrArg String.toList h
  cases s with
  | field k =>
    simp only [Hop.onto] at h
    split at h
    · exact hs.1 (String.toList_inj.mp h)
    · simp at h
  | elem i => simp [Hop.onto] at h
  | key k => simp [Hop.onto] at h

theorem onto_chars (p : String) (s : Hop) (hp : p ≠ "") : (Hop.onto p s).toList = p.toList ++ s.chars := by
  cases s with
  | field k => simp [Hop.onto, hp, Hop.chars, String.toList_append]
  | elem i => simp [Hop.onto, Hop.chars, String.toList_append, Nat.toList_repr]
  | key k => simp [Hop.onto, Hop.chars, String.toList_append]

theorem showFrom_chars : (q : List Hop) → (p : String) → p ≠ "" → (∀ s ∈ q, s.clean) →
    (showFrom p q).toList = p.toList ++ tailChars q
  | [], p, _, _ => by simp [showFrom, tailChars]
  | s :: q, p, hp, hc => by
    have h := showFrom_chars q (Hop.onto p s) (onto_ne p s (hc s (by simp))) (fun s' hs => hc s' (by simp [hs]))
    show (showFrom (Hop.onto p s) q).toList = _
    rw [h, onto_chars p s hp]
    simp [tailChars, List.append_assoc]

/-- the rest begins with a dot or a bracket -/
def SepStart (r : List Char) : Prop := r = [] ∨ ∃ x r', r = x :: r' ∧ (x = '.' ∨ x = '[')

theorem tail_sep : (q : List Hop) → SepStart (tailChars q)
  | [] => .inl rfl
  | s :: q => .inr (by cases s <;> exact ⟨_, _, rfl, by simp⟩)

theorem sep_split : (a b r1 r2 : List Char) → (∀ ch ∈ a, ch ≠ '.' ∧ ch ≠ '[') → (∀ ch ∈ b, ch ≠ '.' ∧ ch ≠ '[') → SepStart r1 →
    SepStart r2 → a ++ r1 = b ++ r2 → a = b ∧ r1 = r2
  | [], [], _, _, _, _, _, _, h => ⟨rfl, h⟩
  | [], y :: b, r1, r2, _, hb, h1, _, h => by
    rcases h1 with rfl | ⟨x, r', rfl, hx⟩
    · cases h
    · simp only [List.nil_append, List.cons_append, List.cons.injEq] at h
      obtain ⟨rfl, _⟩ := h
      have := hb x (by simp)
      rcases hx with rfl | rfl <;> simp at this
  | y :: a, [], r1, r2, ha, _, _, h2, h => by
    rcases h2 with rfl | ⟨x, r', rfl, hx⟩
    · cases h
    · simp only [List.nil_append, List.cons_append, List.cons.injEq] at h
      obtain ⟨rfl, _⟩ := h
      have := ha y (by simp)
      rcases hx with rfl | rfl <;> simp at this
  | x :: a, y :: b, r1, r2, ha, hb, h1, h2, h => by
    simp only [List.cons_append, List.cons.injEq] at h
    obtain ⟨rfl, h⟩ := h
    obtain ⟨rfl, hr⟩ := sep_split a b r1 r2 (fun ch hc => ha ch (by simp [hc])) (fun ch hc => hb ch (by simp [hc])) h1 h2 h
    exact ⟨rfl, hr⟩

theorem bracket_split : (a b r1 r2 : List Char) → (∀ ch ∈ a, ch ≠ ']') → (∀ ch ∈ b, ch ≠ ']') →
    a ++ ']' :: r1 = b ++ ']' :: r2 → a = b ∧ r1 = r2
  | [], [], _, _, _, _, h => by simpa using h
  | [], y :: b, _, _, _, hb, h => by
    simp only [List.nil_append, List.cons_append, List.cons.injEq] at h
    exact absurd h.1.symm (hb y (by simp))
  | y :: a, [], _, _, ha, _, h => by
    simp only [List.nil_append, List.cons_append, List.cons.injEq] at h
    exact absurd h.1 (ha y (by simp))
  | x :: a, y :: b, r1, r2, ha, hb, h => by
    simp only [List.cons_append, List.cons.injEq] at h
    obtain ⟨rfl, h⟩ := h
    obtain ⟨rfl, hr⟩ := bracket_split a b r1 r2 (fun ch hc => ha ch (by simp [hc])) (fun ch hc => hb ch (by simp [hc])) h
    exact ⟨rfl, hr⟩

theorem digits_no_bracket (i : Nat) : ∀ ch ∈ Nat.toDigits 10 i, ch ≠ ']' := by
  intro ch hc he
  have := Nat.isDigit_of_mem_toDigits (by decide) (by decide) hc
  subst he
  revert this
  decide

theorem digits_inj {i j : Nat} (h : Nat.toDigits 10 i = Nat.toDigits 10 j) : i = j := by
  rw [← Nat.ofDigitChars_ten_toDigits (n := i), h, Nat.ofDigitChars_ten_toDigits]

theorem tail_inj : (q1 q2 : List Hop) → (∀ s ∈ q1, s.clean) → (∀ s ∈ q2, s.clean) → tailChars q1 = tailChars q2 →
    q1.map Hop.plain = q2.map Hop.plain
  | [], [], _, _, _ => rfl
  | [], s :: q, _, _, h => by cases s <;> simp [tailChars, Hop.chars] at h
  | s :: q, [], _, _, h => by cases s <;> simp [tailChars, Hop.chars] at h
  | s1 :: q1, s2 :: q2, h1, h2, h => by
    have c1 := h1 s1 (by simp)
    have c2 := h2 s2 (by simp)
    have ih := tail_inj q1 q2 (fun s hs => h1 s (by simp [hs])) (fun s hs => h2 s (by simp [hs]))
    have word : ∀ k1 k2 : String, (∀ ch ∈ k1.toList, ch ≠ '.' ∧ ch ≠ '[') → (∀ ch ∈ k2.toList, ch ≠ '.' ∧ ch ≠ '[') →
        k1.toList ++ tailChars q1 = k2.toList ++ tailChars q2 → k1 = k2 ∧ q1.map Hop.plain = q2.map Hop.plain := by
      intro k1 k2 a1 a2 hk
      obtain ⟨hk, hr⟩ := sep_split _ _ _ _ a1 a2 (tail_sep q1) (tail_sep q2) hk
      exact ⟨String.toList_inj.mp hk, ih hr⟩
    have h : s1.chars ++ tailChars q1 = s2.chars ++ tailChars q2 := h
    simp only [List.map_cons]
    cases s1 with
    | elem i =>
      cases s2 with
      | elem j =>
        simp only [Hop.chars, List.cons_append, List.append_assoc, List.nil_append, List.cons.injEq, true_and] at h
        obtain ⟨hd, hr⟩ := bracket_split _ _ _ _ (digits_no_bracket i) (digits_no_bracket j) h
        rw [digits_inj hd, ih hr]
      | field k => simp [Hop.chars] at h
      | key k => simp [Hop.chars] at h
    | field k1 =>
      cases s2 with
      | elem j => simp [Hop.chars] at h
      | field k2 | key k2 =>
        simp only [Hop.chars, List.cons_append, List.cons.injEq, true_and] at h
        obtain ⟨rfl, hq⟩ := word k1 k2 c1.2 c2.2 h
        simp only [Hop.plain, hq]
    | key k1 =>
      cases s2 with
      | elem j => simp [Hop.chars] at h
      | field k2 | key k2 =>
        simp only [Hop.chars, List.cons_append, List.cons.injEq, true_and] at h
        obtain ⟨rfl, hq⟩ := word k1 k2 c1.2 c2.2 h
        simp only [Hop.plain, hq]

/-- The text gives the place: two places with the same text have the same steps (with an entry `k` of a Dict read like a
field `k`), as long as no name on the way is empty or has a dot or an opening bracket. -/
theorem C87_text (q1 q2 : List Hop) (h1 : ∀ s ∈ q1, s.clean) (h2 : ∀ s ∈ q2, s.clean) (h : showFrom "" q1 = showFrom "" q2) :
    q1.map Hop.plain = q2.map Hop.plain := by
  -- the text with a dot in front
  have key : ∀ q : List Hop, (∀ s ∈ q, s.clean) → q ≠ [] → ∀ s q', q = s :: q' → (showFrom "" q).toList =
      s.firstChars ++ tailChars q' := by
    rintro q hc - s q' rfl
    have hs := hc s (by simp)
    show (showFrom (Hop.onto "" s) q').toList = _
    rw [showFrom_chars q' _ (onto_ne "" s hs) (fun s' hs' => hc s' (by simp [hs']))]
    congr 1
    cases s with
    | field k => simp [Hop.onto, Hop.firstChars]
    | elem i => simp [Hop.onto, Hop.firstChars, Hop.chars, String.toList_append, Nat.toList_repr]
    | key k => simp [Hop.onto, Hop.firstChars, Hop.chars, String.toList_append]
  have hl := congrArg String.toList h
  have first : ∀ (s : Hop), s.clean → ∃ x r, s.firstChars = x :: r ∧
      (∀ k, s = .field k → x ≠ '.' ∧ x ≠ '[') := by
    intro s hs
    cases s with
    | field k =>
      cases hk : k.toList with
      | nil => exact absurd (String.toList_inj.mp hk) hs.1
      | cons x r => exact ⟨x, r, hk, fun _ _ => hs.2 x (by rw [hk]; simp)⟩
    | elem i => exact ⟨_, _, rfl, by simp⟩
    | key k => exact ⟨_, _, rfl, by simp⟩
  cases q1 with
  | nil =>
    cases q2 with
    | nil => rfl
    | cons s q =>
      rw [key _ h2 (by simp) s q rfl] at hl
      obtain ⟨x, r, hx, _⟩ := first s (h2 s (by simp))
      rw [hx] at hl
      simp [showFrom] at hl
  | cons s1 q1 =>
    cases q2 with
    | nil =>
      rw [key _ h1 (by simp) s1 q1 rfl] at hl
      obtain ⟨x, r, hx, _⟩ := first s1 (h1 s1 (by simp))
      rw [hx] at hl
      simp [showFrom] at hl
    | cons s2 q2 =>
      rw [key _ h1 (by simp) s1 q1 rfl, key _ h2 (by simp) s2 q2 rfl] at hl
      have mixed : ∀ (k : String) (s : Hop) (a b : List Char), (Hop.field k).clean → (∀ k', s ≠ .field k') →
          k.toList ++ a = s.chars ++ b → False := by
        intro k s a b hk hs he
        cases hkl : k.toList with
        | nil => exact hk.1 (String.toList_inj.mp hkl)
        | cons x r =>
          have := hk.2 x (by rw [hkl]; simp)
          rw [hkl] at he
          cases s with
          | field k' => exact hs k' rfl
          | elem i => simp only [Hop.chars, List.cons_append, List.cons.injEq] at he; exact this.2 he.1
          | key k' => simp only [Hop.chars, List.cons_append, List.cons.injEq] at he; exact this.1 he.1
      have hc1 := h1 s1 (by simp)
      have hc2 := h2 s2 (by simp)
      have tl : (∀ k, s1 ≠ .field k) → (∀ k, s2 ≠ .field k) → s1.chars ++ tailChars q1 = s2.chars ++ tailChars q2 →
          (s1 :: q1).map Hop.plain = (s2 :: q2).map Hop.plain :=
        fun _ _ he => tail_inj (s1 :: q1) (s2 :: q2) h1 h2 he
      cases s1 with
      | field k1 =>
        cases s2 with
        | field k2 =>
          obtain ⟨hk, hr⟩ := sep_split _ _ _ _ hc1.2 hc2.2 (tail_sep q1) (tail_sep q2) hl
          have := tail_inj q1 q2 (fun s hs => h1 s (by simp [hs])) (fun s hs => h2 s (by simp [hs])) hr
          simp only [List.map_cons, this, String.toList_inj.mp hk]
        | elem j => exact (mixed k1 (.elem j) _ _ hc1 (by simp) hl).elim
        | key k2 => exact (mixed k1 (.key k2) _ _ hc1 (by simp) hl).elim
      | elem i =>
        cases s2 with
        | field k2 => exact (mixed k2 (.elem i) _ _ hc2 (by simp) hl.symm).elim
        | elem j => exact tl (by simp) (by simp) hl
        | key k2 => exact tl (by simp) (by simp) hl
      | key k1 =>
        cases s2 with
        | field k2 => exact (mixed k2 (.key k1) _ _ hc2 (by simp) hl.symm).elim
        | elem j => exact tl (by simp) (by simp) hl
        | key k2 => exact tl (by simp) (by simp) hl

/-! ## missing values -/

theorem needs_make {f : Fld} (h : Needs f) : ∀ path, makeField path f ≠ .fine := by
  induction h with
  | leaf ht =>
    intro path hf
    simp only [makeField] at hf
    rw [(makeTy_leaf _ _).mpr ht] at hf
    cases hf
  | inside hg _ ih =>
    intro path hf
    simp only [makeField, makeTy] at hf
    split at hf
    · cases hf
    · rename_i hm
      exact ih _ ((makeFields_fine _ _).mp hm _ hg)
    · cases hf

/-- A value that has to be given: no document loads in which an object of this class, at any place, gives none. -/
theorem C88_needed (c : DCfg) {t : PyTy} {doc v' : Val} {q : List Hop} {n : String} {fs : List Fld} {d : List (String × Val)} {f : Fld}
    (h : StandsAt c t doc q (.data n fs .none) v') (hv : NotOf n v') (hd : Entries c.env v' d) (hf : f ∈ fs) (hn : Needs f)
    (hg : ¬ Given d f.name) (ig : Bool) (base : String) : ∃ e, fromDict c t ig base doc = .error e := by
  refine reach_refused c _ h (fun ig p => ?_) ig base
  have hr := (entries_raw c v' d).mp hd
  have key : ∃ e, (do
      let d ← asRawDict c v'
      let (kwargs, es) ← itemsLoop (fun k x => fdField c fs k (fieldPath p k) x) ig d
      let kvs ← fillFields kwargs fs
      return (.inst n kvs, es) : Res) = .error e := by
    simp only [hr, bind, Except.bind]
    cases hl : itemsLoopM n (fun k x => fmField c id fs k (fieldPath p k) x) ig d with
    | error er =>
      have := drop_itemsLoop n ig (fun k x => fmField c id fs k (fieldPath p k) x) (fun k x => fdField c fs k (fieldPath p k) x)
        (fun k v => drop_field c id (fun l => List.Perm.refl l) fs k _ v) d
      rw [hl] at this
      rw [← this]
      exact ⟨_, rfl⟩
    | ok r =>
      have := drop_itemsLoop n ig (fun k x => fmField c id fs k (fieldPath p k) x) (fun k x => fdField c fs k (fieldPath p k) x)
        (fun k v => drop_field c id (fun l => List.Perm.refl l) fs k _ v) d
      rw [hl] at this
      rw [← this]
      dsimp only [drop]
      cases hfl : fillFields r.1 fs with
      | error e => exact ⟨e, rfl⟩
      | ok kvs =>
        exfalso
        have h1 := (fillFields_ok r.1 "" fs).mp ⟨kvs, hfl⟩ f hf
        rcases h1 with h1 | h1
        · obtain ⟨x, a1, a2, a3, _⟩ := (itemsLoopM_given n _ ig d r.1 r.2 hl f.name).mp h1
          exact hg ⟨x, a1, a2, a3⟩
        · exact needs_make hn "" h1
  cases v' with
  | inst cls kvs =>
    simp only [fromDict, pure, Except.pure, bind, Except.bind] at key ⊢
    rw [if_neg hv]
    exact key
  | _ => simpa only [fromDict, pure, Except.pure, bind, Except.bind] using key

theorem owed_needs {g : Fld} (h : g.owed = true) : Needs g := by
  obtain ⟨k, t, d⟩ := g
  cases d with
  | some d => cases t <;> simp [Fld.owed] at h
  | none => exact .leaf (fun n fs ver ht => by subst ht; simp [Fld.owed] at h)

theorem opens_needs {n p : String} {fs : List Fld} {cls p' : String} {gs : List Fld} (h : Opens n p fs cls p' gs) {g : Fld} :
    g ∈ gs → Needs g → ∃ f ∈ fs, Needs f := by
  induction h with
  | here => exact fun hg hn => ⟨g, hg, hn⟩
  | inside hk _ ih =>
    intro hg hn
    obtain ⟨f, hf, hnf⟩ := ih hg hn
    exact ⟨_, hk, .inside hf hnf⟩

/-- If the message says that values are missing, then there is an object in the (upgraded) document before which
everything loads; fields for which it gives no value are to be constructed from defaults; on the way the named class is
constructed, and the message lists exactly the fields of this class that have no default and are no dataclasses. The object lacks a value that has to be
given: no document loads in which an object at this place lacks it. -/
theorem C88_listed (c : DCfg) (order : List Fld → List Fld) (ho : IsOrder order) (t : PyTy) (ig : Bool) (doc : Val) (e : Err)
    (cls : String) (ps : List String) (h : fromDictM c order t ig "" doc = .error (e, .missing cls ps)) :
    ∃ q n fs v' d rest p' gs, ReachP c (Loads c) t doc q (.data n fs .none) v' ∧ Entries c.env v' d ∧
      (∀ f, f ∈ rest ↔ f ∈ fs ∧ ¬ Given d f.name) ∧ Opens n (showFrom "" q) rest cls p' gs ∧
      ps = (gs.filter Fld.owed).map (fun f => Hop.onto p' (.field f.name)) ∧ ps ≠ [] ∧
      ∃ f ∈ fs, Needs f ∧ ¬ Given d f.name ∧ ∀ doc' v'' d' ig', StandsAt c t doc' q (.data n fs .none) v'' → NotOf n v'' →
        Entries c.env v'' d' → ¬ Given d' f.name → ∃ e', fromDict c t ig' "" doc' = .error e' := by
  obtain ⟨q, t', v', h1, n, fs, d, rfl, _, h2, rest, p', gs, h3, h4, h5, h6⟩ :=
    blames c order ho t ig "" doc e _ h (by simp [Msg.says])
  have hg : ∃ g ∈ gs, g.owed = true := by
    cases hfl : gs.filter Fld.owed with
    | nil => rw [hfl] at h5; exact absurd h5 h6
    | cons g l =>
      have : g ∈ gs.filter Fld.owed := by rw [hfl]; simp
      exact ⟨g, (List.mem_filter.mp this).1, (List.mem_filter.mp this).2⟩
  obtain ⟨g, hg, hgo⟩ := hg
  obtain ⟨f, hf, hn⟩ := opens_needs h4 hg (owed_needs hgo)
  obtain ⟨hf1, hf2⟩ := (h3 f).mp hf
  exact ⟨q, n, fs, v', d, rest, p', gs, h1, h2, h3, h4, h5, h6, f, hf1, hn, hf2,
    fun doc' v'' d' ig' a1 a2 a3 a4 => C88_needed c a1 a2 a3 hf1 hn a4 ig' ""⟩

/-- Whether a load fails, and what it gives, does not depend on the order of the set of fields without value. -/
theorem C88_order (c : DCfg) (order order' : List Fld → List Fld) (ho : IsOrder order) (ho' : IsOrder order') (t : PyTy) (ig : Bool)
    (base : String) (doc : Val) : drop (fromDictM c order t ig base doc) = drop (fromDictM c order' t ig base doc) := by
  rw [drop_fromDict c order ho, drop_fromDict c order' ho']

/-! ## examples and limits -/

namespace ExBlame

def cfg : DCfg :=
  { ext := ⟨fun _ => .none, fun _ => .error .valueError, fun _ => true⟩, allowMissing := false, file := false,
    env := fun _ => ⟨.none, []⟩ }

def layer : PyTy := .data "Layer" [.mk "size" .int .none] .none
def color : PyTy := .enum "Color" [("RED", .int 1)]
def model : PyTy := .data "Model" [.mk "name" .str .none, .mk "layers" (.list layer) .none] .none
def config : PyTy := .data "Config" [.mk "lr" .float (some (.flt (.fin 1))), .mk "model" model .none] .none

/-- the second layer has a list as its size -/
def doc : Val := .dict [("lr", .flt (.fin 2)), ("model", .dict [("name", .str "m"),
  ("layers", .list [.dict [("size", .int 3)], .dict [("size", .list [])]])])]

theorem doc_message : fromDictM cfg id config false "" doc = .error (.deserType, .notA "model.layers[1].size" (.list []) .int) := rfl

/-- the hypotheses of `C87_blamed` are met -/
example : ∃ q t' v', showFrom "" q = "model.layers[1].size" ∧ ReachP cfg (Loads cfg) config doc q t' v' ∧ Wrong cfg t' v' := by
  obtain ⟨q, t', v', h1, h2, _, h3, _⟩ := C87_blamed cfg id (fun l => List.Perm.refl l) config false doc _ _ _ doc_message rfl
  exact ⟨q, t', v', h1, h2, h3⟩

/-- and so are those of `C87_text`: the place is the one expected -/
example : (∀ s ∈ [Hop.field "model", .field "layers", .elem 1, .field "size"], s.clean) ∧
    showFrom "" [.field "model", .field "layers", .elem 1, .field "size"] = "model.layers[1].size" := by
  refine ⟨?_, by decide +kernel⟩
  intro s hs
  simp only [List.mem_cons, List.not_mem_nil, or_false] at hs
  rcases hs with rfl | rfl | rfl | rfl
  · exact ⟨by decide, by decide +kernel⟩
  · exact ⟨by decide, by decide +kernel⟩
  · trivial
  · exact ⟨by decide, by decide +kernel⟩

/-- a misspelt field -/
def typo (i : Bool) : Val := .dict [("model", .dict [("name", .str "m"),
  ("layers", .list [.dict [(if i then "sizes" else "size", .int 3)], .dict [(if i then "size" else "sizes", .int 3)]])])]

/-- a version 1 of a class whose field `lr` was called `rate` -/
def renamed : PyTy := .data "Opt" [.mk "lr" .float .none] (some ⟨1, [(0, [.rename ["rate"] ["lr"]])]⟩)

/-- two sections without value, each with a value that has to be given -/
def sections : PyTy := .data "Two" [.mk "a" (.data "A" [.mk "x" .int .none] .none) .none, .mk "b" (.data "B" [.mk "y" .int .none] .none) .none] .none

theorem sections_message : fromDictM cfg id sections false "" (.dict []) = .error (.typeError, .missing "A" ["a.x"]) := rfl

/-- the hypotheses of `C88_listed` are met -/
example : ∃ q n fs v', ReachP cfg (Loads cfg) sections (.dict []) q (.data n fs .none) v' := by
  obtain ⟨q, n, fs, v', _, _, _, _, h, _⟩ := C88_listed cfg id (fun l => List.Perm.refl l) sections false (.dict []) _ _ _ sections_message
  exact ⟨q, n, fs, v', h⟩

/-- the hypotheses of `C88_needed` are met -/
example (ig : Bool) : ∃ e, fromDict cfg sections ig "" (.dict [("a", .dict [("x", .int 1)])]) = .error e :=
  C88_needed cfg (t := sections) (n := "Two") (.here _ (.dict _)) trivial (.dict _) (f := .mk "b" (.data "B" [.mk "y" .int .none] .none) .none) (by simp)
    (.inside (g := .mk "y" .int .none) (by simp) (.leaf (by simp))) (by rintro ⟨x, hx, _⟩; simp [Fld.name] at hx) ig ""

end ExBlame

/-- FALSE: that the message tells a value that is none of the declared types. For a union the message says "expected one of
(int, str), got 3". -/
theorem C87_union_false : ∃ (c : DCfg) (p : String) (as : List PyTy), PyTy.int ∈ as ∧
    fromDictM c id (.data "C" [.mk "x" (.union [.int, .str]) .none] .none) false "" (.dict [("x", .int 3)]) =
      .error (.deserValue, .notOneOf p (.int 3) as) :=
  ⟨ExBlame.cfg, "x", [.int, .str], by simp, rfl⟩

/-- FALSE: that the place is found in the file. After an upgrade the message gives the new name of the field, which is not
in the document. -/
theorem C87_renamed_false : ∃ (c : DCfg) (t : PyTy) (d : List (String × Val)),
    fromDictM c id t false "" (.dict d) = .error (.deserType, .notA "lr" (.list []) .float) ∧ dget d "lr" = .none :=
  ⟨ExBlame.cfg, ExBlame.renamed, [("version", .int 0), ("rate", .list [])], rfl, rfl⟩

/-- FALSE: that the message gives the place whenever something in the document is wrong. Two documents with a misspelt field
in different places have the same message; and so have documents with a wrong enum value in different places. -/
theorem C87_silent_false : (∃ (c : DCfg) (t : PyTy) (doc doc' : Val) (m : Msg), doc ≠ doc' ∧
      fromDictM c id t false "" doc = .error (.deserType, m) ∧ fromDictM c id t false "" doc' = .error (.deserType, m) ∧ m.place = .none) ∧
    (∃ (c : DCfg) (t : PyTy) (doc doc' : Val), doc ≠ doc' ∧
      fromDictM c id t false "" doc = .error (.valueError, .other) ∧ fromDictM c id t false "" doc' = .error (.valueError, .other)) := by
  refine ⟨⟨ExBlame.cfg, ExBlame.config, ExBlame.typo true, ExBlame.typo false, .noAttr "Layer" "sizes", ?_, rfl, rfl, rfl⟩,
    ⟨ExBlame.cfg, .list ExBlame.color, .list [.int 1, .int 2], .list [.int 2, .int 1], ?_, rfl, rfl⟩⟩
  · intro h
    simp only [ExBlame.typo, Val.dict.injEq, List.cons.injEq, Prod.mk.injEq, Val.list.injEq] at h
    revert h
    simp
  · simp

/-- FALSE: that the text gives the place when a key of a Dict has a dot. -/
theorem C87_dotted_false : ∃ q1 q2 : List Hop, showFrom "" q1 = showFrom "" q2 ∧ q1.map Hop.plain ≠ q2.map Hop.plain ∧
    ∃ (c : DCfg) (t : PyTy) (v : Val) (t1 t2 : PyTy) (v1 v2 : Val), StandsAt c t v q1 t1 v1 ∧ StandsAt c t v q2 t2 v2 ∧ v1 ≠ v2 := by
  refine ⟨[.key "a", .key "b"], [.key "a.b"], by decide +kernel, by decide, ExBlame.cfg, .dict .str (.dict .str .int),
    .dict [("a", .dict [("b", .int 1)]), ("a.b", .dict [])], .int, .dict .str .int, .int 1, .dict [], ?_, ?_, by simp⟩
  · exact .item (pre := []) (by simp) (.item (pre := []) (by simp) (.here _ _))
  · exact .item (pre := [_]) (by simp) (.here _ _)

/-- FALSE: that the message is the same every time. The set of fields without value is gone through in any order, and the first
class that cannot be constructed is reported. -/
theorem C88_order_false : ∃ (c : DCfg) (order order' : List Fld → List Fld) (t : PyTy) (doc : Val), IsOrder order ∧ IsOrder order' ∧
    fromDictM c order t false "" doc = .error (.typeError, .missing "A" ["a.x"]) ∧
    fromDictM c order' t false "" doc = .error (.typeError, .missing "B" ["b.y"]) :=
  ⟨ExBlame.cfg, id, List.reverse, ExBlame.sections, .dict [], fun l => List.Perm.refl l, fun l => List.reverse_perm l, rfl, rfl⟩

end HS
