import Verif.Proofs.FromDict
import Verif.Spec.Example
/-!
# Properties of loading single values: C07 (numbers), C08 (Literal), C09 (Union), C10 (Tuple)
-/
namespace HS

/-! ## C07: numbers -/

theorem toInt_exact (f : Flt) (i : Int) : (f.toInt = .ok i ∧ (Flt.fin i).eqv f = true) ↔ f = .fin i := by
  cases f with
  | nan => simp [Flt.toInt]
  | inf b => simp [Flt.toInt]
  | fin q =>
    simp only [Flt.toInt, Except.ok.injEq, Flt.eqv, decide_eq_true_eq, Flt.fin.injEq]
    constructor
    · rintro ⟨_, h⟩; exact h.symm
    · rintro rfl; simp

/-! ### rounding of ints to binary64 -/

theorem roundNat_small {n : Nat} (h : n ≤ 2 ^ 53) : roundNat n = n := by
  rcases Nat.lt_or_eq_of_le h with h | rfl
  · simp [roundNat, h]
  · decide +kernel

theorem signed_natAbs (i : Int) : (if i < 0 then -((i.natAbs : Int) : Rat) else ((i.natAbs : Int) : Rat)) = (i : Rat) := by
  split
  · rw [← Rat.intCast_neg]; congr 1; omega
  · congr 1; omega

/-- `float(i)` is exact up to 2^53 -/
theorem floatOfInt_small {i : Int} (h : i.natAbs ≤ 2 ^ 53) : floatOfInt i = .ok (.fin i) := by
  have hlt : ¬ (2 ^ 1024 ≤ i.natAbs) := by
    exact Nat.not_le.2 (Nat.lt_of_le_of_lt h (Nat.pow_lt_pow_right (by decide) (by decide)))
  simp only [floatOfInt, roundNat_small h, if_neg hlt]
  rw [signed_natAbs]

/-- the numbers with a 53 bit mantissa -/
def Repr53 (n : Nat) : Prop := ∃ m k, m < 2 ^ 53 ∧ n = m * 2 ^ k

/-- the binade of a large number: `e` bits are cut off, a mantissa of exactly 53 bits remains -/
theorem log2_facts {n : Nat} (h : 2 ^ 53 ≤ n) :
    1 ≤ n.log2 - 52 ∧ 2 ^ 52 ≤ n / 2 ^ (n.log2 - 52) ∧ n / 2 ^ (n.log2 - 52) < 2 ^ 53 := by
  have hn : n ≠ 0 := by intro h0; subst h0; simp at h
  have h53 : 53 ≤ n.log2 := (Nat.le_log2 hn).2 h
  have hlo : 2 ^ n.log2 ≤ n := Nat.log2_self_le hn
  have hhi : n < 2 ^ (n.log2 + 1) := Nat.lt_log2_self
  have e1 : 2 ^ n.log2 = 2 ^ 52 * 2 ^ (n.log2 - 52) := by rw [← Nat.pow_add]; congr 1; omega
  have e2 : 2 ^ (n.log2 + 1) = 2 ^ 53 * 2 ^ (n.log2 - 52) := by rw [← Nat.pow_add]; congr 1; omega
  refine ⟨by omega, ?_, ?_⟩
  · rw [Nat.le_div_iff_mul_le (Nat.two_pow_pos _)]; omega
  · rw [Nat.div_lt_iff_lt_mul (Nat.two_pow_pos _)]; omega

/-- the result of rounding is a binary64 integer -/
theorem roundNat_repr (n : Nat) : Repr53 (roundNat n) := by
  simp only [roundNat]
  split
  · rename_i h; exact ⟨n, 0, h, by simp⟩
  · rename_i h
    obtain ⟨_, _, h3⟩ := log2_facts (Nat.le_of_not_lt h)
    split
    · rcases Nat.lt_or_eq_of_le (Nat.succ_le_of_lt h3) with h4 | h4
      · exact ⟨_, _, h4, rfl⟩
      · refine ⟨1, 53 + (n.log2 - 52), by decide, ?_⟩
        rw [Nat.succ_eq_add_one] at h4
        rw [h4, Nat.pow_add, Nat.one_mul]
    · exact ⟨_, _, h3, rfl⟩

/-- ... and there is no nearer one -/
theorem roundNat_nearest (n x : Nat) (hx : Repr53 x) :
    ((roundNat n : Int) - n).natAbs ≤ ((x : Int) - n).natAbs := by
  by_cases hs : n < 2 ^ 53
  · simp [roundNat, hs]
  obtain ⟨he, h2, h3⟩ := log2_facts (Nat.le_of_not_lt hs)
  simp only [roundNat, if_neg hs]
  obtain ⟨m, k, hm, rfl⟩ := hx
  have hdm : 2 ^ (n.log2 - 52) * (n / 2 ^ (n.log2 - 52)) + n % 2 ^ (n.log2 - 52) = n := Nat.div_add_mod n (2 ^ (n.log2 - 52))
  have hr : n % 2 ^ (n.log2 - 52) < 2 ^ (n.log2 - 52) := Nat.mod_lt _ (Nat.two_pow_pos _)
  have hP : 2 ^ (n.log2 - 52) = 2 * 2 ^ (n.log2 - 52 - 1) := by
    rw [← Nat.pow_succ']; congr 1; omega
  -- distance of a candidate
  have hcand : (n % 2 ^ (n.log2 - 52) ≤ (((m * 2 ^ k : Nat) : Int) - n).natAbs) ∨
      (2 ^ (n.log2 - 52) - n % 2 ^ (n.log2 - 52) ≤ (((m * 2 ^ k : Nat) : Int) - n).natAbs) := by
    rcases Nat.lt_or_ge k (n.log2 - 52) with hk | hk
    · left
      have h5 : m * 2 ^ k ≤ 2 ^ 53 * 2 ^ (n.log2 - 52 - 1) :=
        Nat.mul_le_mul (Nat.le_of_lt hm) (Nat.pow_le_pow_right (by decide) (by omega))
      have h6 : 2 ^ (n.log2 - 52) * 2 ^ 52 ≤ 2 ^ (n.log2 - 52) * (n / 2 ^ (n.log2 - 52)) := Nat.mul_le_mul_left _ h2
      generalize n % 2 ^ (n.log2 - 52) = r at *
      generalize 2 ^ (n.log2 - 52) * (n / 2 ^ (n.log2 - 52)) = qp at *
      generalize m * 2 ^ k = x at *
      generalize 2 ^ (n.log2 - 52 - 1) = hh at *
      generalize 2 ^ (n.log2 - 52) = P at *
      omega
    · have hxk : m * 2 ^ k = 2 ^ (n.log2 - 52) * (m * 2 ^ (k - (n.log2 - 52))) := by
        rw [Nat.mul_left_comm, ← Nat.pow_add]; congr 2; omega
      generalize m * 2 ^ (k - (n.log2 - 52)) = y at *
      rw [hxk]
      generalize hq : n / 2 ^ (n.log2 - 52) = q at *
      generalize n % 2 ^ (n.log2 - 52) = r at *
      generalize 2 ^ (n.log2 - 52) = P at *
      rcases Nat.lt_or_ge q y with hy | hy
      · right
        have : P * (q + 1) ≤ P * y := Nat.mul_le_mul_left _ hy
        rw [Nat.mul_add, Nat.mul_one] at this
        omega
      · left
        have : P * y ≤ P * q := Nat.mul_le_mul_left _ hy
        omega
  generalize (((m * 2 ^ k : Nat) : Int) - n).natAbs = dist at *
  generalize hq : n / 2 ^ (n.log2 - 52) = q at *
  generalize n % 2 ^ (n.log2 - 52) = r at *
  generalize 2 ^ (n.log2 - 52 - 1) = hh at *
  generalize 2 ^ (n.log2 - 52) = P at *
  split
  · rename_i hc
    simp only [Bool.or_eq_true, decide_eq_true_eq, Bool.and_eq_true, beq_iff_eq] at hc
    have : (q + 1) * P = P * q + P := by rw [Nat.add_mul, Nat.one_mul, Nat.mul_comm]
    rw [this]
    rcases hc with hc | ⟨hc, _⟩ <;> omega
  · rename_i hc
    simp only [Bool.or_eq_true, decide_eq_true_eq, Bool.and_eq_true, beq_iff_eq, not_or] at hc
    have : q * P = P * q := Nat.mul_comm _ _
    rw [this]
    omega

/-- a binary64 integer is not changed -/
theorem roundNat_exact {n : Nat} (h : Repr53 n) : roundNat n = n := by
  have := roundNat_nearest n n h
  omega

/-! ### fields -/

/-- what a document value means for an `int` field, if anything -/
inductive IntMeans (e : Ext) (path : String) : Val → Val → List Ev → Prop
  | int (i) : IntMeans e path (.int i) (.int i) []
  | bool (b) : IntMeans e path (.bool b) (.bool b) []
  /-- a float that is an integer -/
  | float (i : Int) : IntMeans e path (.flt (.fin i)) (.int i) []
  /-- a string whose value as a float is an integer -/
  | str (s) (i : Int) : '@' ∉ s.toList → e.parseFloat s = some (.fin i) → IntMeans e path (.str s) (.int i) []
  | sched (s f i) : '@' ∈ s.toList → e.schedAt0 s = .ok f → f.toInt = .ok i →
      IntMeans e path (.str s) (.int i) [.sched path s true]

/-- C07, int fields, both directions: an int field accepts exactly ints, bools, integral floats, strings that `float()` reads
as an integer, and schedules; floats and strings give that integer. -/
theorem C07_int (c : DCfg) (ig : Bool) (path : String) (x v : Val) (es : List Ev) :
    fromDict c .int ig path x = .ok (v, es) ↔ IntMeans c.ext path x v es := by
  constructor
  · intro h
    simp only [fromDict] at h
    cases x with
    | int i => simp [schedHook] at h; obtain ⟨rfl, rfl⟩ := h; exact .int i
    | bool i => simp [schedHook] at h; obtain ⟨rfl, rfl⟩ := h; exact .bool i
    | flt f =>
      simp only [schedHook, primBranches, if_true, bind, Except.bind, pure, Except.pure] at h
      cases hf : f.toInt with
      | error e => simp [hf] at h
      | ok i =>
        simp only [hf] at h
        cases he : (Flt.fin i).eqv f with
        | false => simp [he, throw, throwThe, MonadExceptOf.throw] at h
        | true =>
          simp only [he, if_true, Except.ok.injEq, Prod.mk.injEq] at h
          obtain ⟨rfl, rfl⟩ := h
          rw [(toInt_exact f i).1 ⟨hf, he⟩]
          exact .float i
    | str s =>
      simp only [schedHook] at h
      by_cases ha : '@' ∈ s.toList
      · simp only [if_pos ha, if_true, bind, Except.bind, pure, Except.pure] at h
        split at h
        · simp at h
        · rename_i f hf
          split at h
          · simp at h
          · rename_i i hi
            simp only [Except.ok.injEq, Prod.mk.injEq] at h
            obtain ⟨rfl, rfl⟩ := h
            exact .sched s f i ha hf hi
      · simp only [if_neg ha, primBranches, if_true, Bool.false_eq_true, if_false, strToInt, bind, Except.bind, pure,
          Except.pure] at h
        cases hp : c.ext.parseFloat s with
        | none => simp [hp] at h
        | some f =>
          simp only [hp] at h
          cases hf : f.toInt with
          | error e => simp [hf] at h
          | ok i =>
            simp only [hf] at h
            cases he : (Flt.fin i).eqv f with
            | false => simp [he, throw, throwThe, MonadExceptOf.throw] at h
            | true =>
              simp only [he, if_true, Except.ok.injEq, Prod.mk.injEq] at h
              obtain ⟨rfl, rfl⟩ := h
              rw [(toInt_exact f i).1 ⟨hf, he⟩] at hp
              exact .str s i ha hp
    | ntup n kvs =>
      cases kvs <;> simp [schedHook, primBranches, bind, Except.bind, throw, throwThe, MonadExceptOf.throw] at h
    | _ => simp [schedHook, primBranches, bind, Except.bind, throw, throwThe, MonadExceptOf.throw] at h
  · intro h
    simp only [fromDict]
    cases h with
    | int i => rfl
    | bool b => rfl
    | float i =>
      obtain ⟨h1, h2⟩ := (toInt_exact (.fin i) i).2 rfl
      simp only [schedHook, primBranches, if_true, h1, h2, bind, Except.bind, pure, Except.pure]
    | str s i ha hp =>
      obtain ⟨h1, h2⟩ := (toInt_exact (.fin i) i).2 rfl
      simp only [schedHook, if_neg ha, primBranches, strToInt, hp, if_true, Bool.false_eq_true, if_false, h1, h2, bind,
        Except.bind, pure, Except.pure]
    | sched s f i ha hs hi =>
      simp only [schedHook, if_pos ha, hs, hi, if_true, bind, Except.bind, pure, Except.pure]

/-- what a document value means for a `float` field -/
inductive FloatMeans (e : Ext) (path : String) : Val → Val → List Ev → Prop
  | float (f) : FloatMeans e path (.flt f) (.flt f) []
  | int (i : Int) (f) : floatOfInt i = .ok f → FloatMeans e path (.int i) (.flt f) []
  | bool (b : Bool) : FloatMeans e path (.bool b) (.flt (.fin (if b then 1 else 0))) []
  | str (s) (f) : '@' ∉ s.toList → e.parseFloat s = some f → FloatMeans e path (.str s) (.flt f) []
  | sched (s f) : '@' ∈ s.toList → e.schedAt0 s = .ok f → FloatMeans e path (.str s) (.flt f) [.sched path s false]

/-- C07, float fields, both directions -/
theorem C07_float (c : DCfg) (ig : Bool) (path : String) (x v : Val) (es : List Ev) :
    fromDict c .float ig path x = .ok (v, es) ↔ FloatMeans c.ext path x v es := by
  have hb : ∀ b : Bool, floatOfInt (if b then 1 else 0) = .ok (.fin (if b then 1 else 0)) := by
    intro b
    cases b
    · exact floatOfInt_small (i := 0) (by decide)
    · exact floatOfInt_small (i := 1) (by decide)
  constructor
  · intro h
    simp only [fromDict] at h
    cases x with
    | flt i => simp [schedHook] at h; obtain ⟨rfl, rfl⟩ := h; exact .float i
    | int i =>
      simp only [schedHook, primBranches, toFloat, if_true, bind, Except.bind, pure, Except.pure] at h
      cases hf : floatOfInt i with
      | error e => simp [hf] at h
      | ok f => simp [hf] at h; obtain ⟨rfl, rfl⟩ := h; exact .int i f hf
    | bool b =>
      simp only [schedHook, primBranches, toFloat, if_true, bind, Except.bind, pure, Except.pure, hb b, Except.ok.injEq,
        Prod.mk.injEq] at h
      obtain ⟨rfl, rfl⟩ := h; exact .bool b
    | str s =>
      simp only [schedHook] at h
      by_cases ha : '@' ∈ s.toList
      · simp only [if_pos ha, Bool.false_eq_true, if_false, bind, Except.bind, pure, Except.pure] at h
        cases hf : c.ext.schedAt0 s with
        | error e => simp [hf] at h
        | ok f => simp [hf] at h; obtain ⟨rfl, rfl⟩ := h; exact .sched s f ha hf
      · simp only [if_neg ha, primBranches, if_true, strToFloat, bind, Except.bind, pure, Except.pure] at h
        cases hp : c.ext.parseFloat s with
        | none => simp [hp] at h
        | some f => simp [hp] at h; obtain ⟨rfl, rfl⟩ := h; exact .str s f ha hp
    | ntup n kvs =>
      cases kvs <;> simp [schedHook, primBranches, bind, Except.bind, throw, throwThe, MonadExceptOf.throw] at h
    | _ => simp [schedHook, primBranches, bind, Except.bind, throw, throwThe, MonadExceptOf.throw] at h
  · intro h
    simp only [fromDict]
    cases h with
    | float i => rfl
    | int i f hf => simp only [schedHook, primBranches, toFloat, hf, if_true, bind, Except.bind, pure, Except.pure]
    | bool b => simp only [schedHook, primBranches, toFloat, hb b, if_true, bind, Except.bind, pure, Except.pure]
    | str s i ha hp =>
      simp only [schedHook, if_neg ha, primBranches, strToFloat, hp, if_true, bind, Except.bind, pure, Except.pure]
    | sched s f ha hs =>
      simp only [schedHook, if_pos ha, hs, Bool.false_eq_true, if_false, bind, Except.bind, pure, Except.pure]

/-- C07 (part): a float field given an int of at most 53 significant bits (in particular up to 2^53) holds that number. For
larger ints the number is rounded to the nearest binary64 number (`roundNat_nearest`). -/
theorem C07_float_of_int_partial (c : DCfg) (ig : Bool) (path : String) (i : Int) (h : Repr53 i.natAbs)
    (hr : i.natAbs < 2 ^ 1024) : fromDict c .float ig path (.int i) = .ok (.flt (.fin i), []) := by
  rw [C07_float]
  refine .int i _ ?_
  simp only [floatOfInt, roundNat_exact h, if_neg (Nat.not_le.2 hr)]
  rw [signed_natAbs]

example : Repr53 ((3 : Int) * 2 ^ 100).natAbs := ⟨3, 100, by decide, by decide⟩

/-- C07 is false for large ints in float fields: 2^53+1 is accepted and becomes 2^53, ... -/
theorem C07_false (c : DCfg) (ig : Bool) (path : String) :
    fromDict c .float ig path (.int 9007199254740993) = .ok (.flt (.fin 9007199254740992), []) := by
  rw [C07_float]
  refine .int _ _ ?_
  have h : roundNat (9007199254740993 : Int).natAbs = 9007199254740992 := by decide +kernel
  have hlt : ¬ (2 ^ 1024 ≤ 9007199254740992) := by decide +kernel
  simp only [floatOfInt, h, if_neg hlt]
  rfl

/-- ... and for numeric strings in *int* fields, which go through `float`: if `float(s)` of this numeral is the float of that
int (as it is in Python), the string "9007199254740993" is accepted and becomes the int 9007199254740992. -/
theorem C07_false_str (c : DCfg) (ig : Bool) (path : String)
    (h : c.ext.parseFloat "9007199254740993" = (floatOfInt 9007199254740993).toOption) :
    fromDict c .int ig path (.str "9007199254740993") = .ok (.int 9007199254740992, []) := by
  rw [C07_int]
  have h1 : roundNat (9007199254740993 : Int).natAbs = 9007199254740992 := by decide +kernel
  have hlt : ¬ (2 ^ 1024 ≤ 9007199254740992) := by decide +kernel
  refine .str _ _ (by decide) ?_
  rw [h]
  simp only [floatOfInt, h1, if_neg hlt]
  rfl

/-! ## C08: Literal -/

/-- how a struct name without fields is read (serde.py:287-293): as the string of its name -/
def litRead : Val → Val
  | .ntup n [] => .str n
  | v => v

/-- C08 (part): when every listed value can be a type argument (all ints, bools, None; strings that are Python expressions), a
Literal field accepts exactly the values `==` to a listed one and keeps them. -/
theorem C08_literal_partial (c : DCfg) (ig : Bool) (path : String) (vals : List Val) (hok : ∀ v ∈ vals, c.ext.typeArgOk v = true)
    (x v : Val) (es : List Ev) :
    fromDict c (.literal vals) ig path x = .ok (v, es) ↔ v = litRead x ∧ es = [] ∧ ∃ w ∈ vals, pyEq v w = true := by
  have hall : vals.all c.ext.typeArgOk = true := by rw [List.all_eq_true]; exact hok
  simp only [fromDict, hall, if_true]
  show (if pyMem (litRead x) vals = true then Except.ok (litRead x, []) else _) = _ ↔ _
  constructor
  · intro h
    split at h
    · rename_i hm
      simp only [Except.ok.injEq, Prod.mk.injEq] at h
      obtain ⟨rfl, rfl⟩ := h
      simp only [pyMem, List.any_eq_true] at hm
      exact ⟨rfl, rfl, hm⟩
    · simp at h
  · rintro ⟨rfl, rfl, hm⟩
    have : pyMem (litRead x) vals = true := by simpa only [pyMem, List.any_eq_true] using hm
    simp [this]

/-- a listed value loads as itself -/
theorem C08_listed_partial (c : DCfg) (ig : Bool) (path : String) (vals : List Val) (hok : ∀ v ∈ vals, c.ext.typeArgOk v = true)
    (v : Val) (hv : v ∈ vals) (hl : LitOK v) : fromDict c (.literal vals) ig path v = .ok (v, []) := by
  rw [C08_literal_partial c ig path vals hok]
  refine ⟨?_, rfl, v, hv, pyEq_refl_lit v hl⟩
  cases v <;> simp_all [LitOK, litRead]

/-- any other value is rejected -/
theorem C08_rejects (c : DCfg) (ig : Bool) (path : String) (vals : List Val) (x : Val)
    (hx : ∀ w ∈ vals, pyEq (litRead x) w = false) : ∃ e, fromDict c (.literal vals) ig path x = .error e := by
  cases h : fromDict c (.literal vals) ig path x with
  | error e => exact ⟨e, rfl⟩
  | ok r =>
    exfalso
    by_cases hall : vals.all c.ext.typeArgOk = true
    · obtain ⟨h1, _, w, hw, he⟩ := (C08_literal_partial c ig path vals (List.all_eq_true.1 hall) x r.1 r.2).1 h
      rw [h1, hx w hw] at he; cases he
    · simp [fromDict, hall] at h

/-- C08 is false for Literals with a string that is no Python expression (such as `Literal["a b"]`): *every* value, listed or
not, is refused with SyntaxError, because `from_dict` evaluates `List["a b"]`. -/
theorem C08_false (c : DCfg) (ig : Bool) (path : String) (vals : List Val) (v : Val) (hv : v ∈ vals)
    (hbad : c.ext.typeArgOk v = false) (x : Val) : fromDict c (.literal vals) ig path x = .error .syntaxError := by
  have : vals.all c.ext.typeArgOk = false := by
    rw [List.all_eq_false]; exact ⟨v, hv, by simp [hbad]⟩
  simp [fromDict, this]

example : fromDict (Ex.world.dcfg false false) (.literal [.str "relu", .int 1]) false "" (.str "relu") = .ok (.str "relu", []) := rfl
/-- `True` is accepted for `Literal[1]`, and stays `True` -/
example : fromDict (Ex.world.dcfg false false) (.literal [.str "relu", .int 1]) false "" (.bool true) = .ok (.bool true, []) := rfl
example : fromDict (Ex.world.dcfg false false) (.literal [.str "relu", .int 1]) false "" (.str "tanh") = .error .deserValue := rfl

/-! ## C09: Union -/

/-- C09 (part): a union of dataclasses with distinct names restores the alternative that was written. (For a supported class;
for the general object see `C01_round_trip_partial`, of which this is an instance.) -/
theorem C09_union_partial (c : SerCfg) (dc : DCfg) (hc : DumpCfg c) (hel : c.elide = false) (as : List PyTy)
    (hty : TyOK dc.ext (.union as)) (henv : EnvOK c.env (.union as)) (a : PyTy) (ha : a ∈ as) (v : Val) (hv : HasType false a v)
    (file : String) :
    ∃ w, asdict c file v = .ok (w, []) ∧ ∀ ig path, fromDict dc (.union as) ig path (ronTrip w) = .ok (v, []) := by
  obtain ⟨w, h⟩ := rt_strict hc hel (.union as) hty henv v file (by simp only [HasType, hasTypeAny_iff]; exact ⟨a, ha, hv⟩)
  exact ⟨w, h.dump, h.load⟩

/-- C09 (part): the tag decides. An object whose tag names one of the alternatives is loaded as exactly that alternative, whatever
its fields look like. -/
theorem C09_tag_decides (dc : DCfg) (ig : Bool) (path : String) (as : List PyTy) (hnd : (as.map PyTy.pyName).Nodup)
    (hopt : isOptionalArgs as = false) (a : PyTy) (ha : a ∈ as) (d : List (String × Val))
    (htag : dget d "!__name__" = some (.str a.pyName)) :
    fromDict dc (.union as) ig path (.dict d) = fromDict dc a ig path (.dict d) := by
  have htag : dget d NAME_KEY = some (.str a.pyName) := htag
  simp only [fromDict, hopt, Bool.false_eq_true, if_false, primBranches, bind, Except.bind, htag, Option.bind,
    fdNamed_mem dc ig path _ as a hnd ha]

/-- an object without tag, or with a tag that names no alternative, is never loaded -/
theorem C09_untagged (dc : DCfg) (ig : Bool) (path : String) (as : List PyTy) (hopt : isOptionalArgs as = false)
    (d : List (String × Val)) (htag : ∀ a ∈ as, dget d "!__name__" ≠ some (.str a.pyName)) :
    ∃ e, fromDict dc (.union as) ig path (.dict d) = .error e := by
  have hno : (dget d NAME_KEY).bind (fun n => fdNamed dc as n ig path (.dict d)) = none := by
    cases hg : dget d NAME_KEY with
    | none => rfl
    | some n =>
      simp only [Option.bind]
      have hg' : ∀ a ∈ as, n ≠ .str a.pyName := by
        intro a ha he; subst he; exact htag a ha hg
      clear htag hopt hg
      induction as with
      | nil => simp [fdNamed]
      | cons b as ih =>
        have : pyEq n (.str b.pyName) = false := by
          have := hg' b (by simp)
          cases n <;> simp_all [pyEq, Val.num?]
        simp only [fdNamed, this]
        exact ih (fun a ha => hg' a (List.mem_cons_of_mem _ ha))
  simp only [fromDict, hopt, Bool.false_eq_true, if_false, primBranches, bind, Except.bind, hno]
  split <;> exact ⟨_, rfl⟩

example : (([Ex.aTy, Ex.bTy].map PyTy.pyName).Nodup ∧ isOptionalArgs [Ex.aTy, Ex.bTy] = false) := by decide

/-- C09 is false for unions with primitives: `Union[int, str]` holding 5 is written as 5 and does not load; ... -/
theorem C09_false_int_str (w : World) (am file ig : Bool) (path : String) :
    typedDump w.env .none false (.int 5) = .ok (.int 5, []) ∧
    fromDict (w.dcfg am file) (.union [.int, .str]) ig path (.int 5) = .error .deserValue := ⟨rfl, rfl⟩

/-- ... holding "abc" it does not load either (`float("abc")` raises ValueError); ... -/
theorem C09_false_str (w : World) (am file ig : Bool) (path : String) (h : w.ext.parseFloat "abc" = .none) :
    fromDict (w.dcfg am file) (.union [.int, .str]) ig path (.str "abc") = .error .valueError := by
  simp [fromDict, isOptionalArgs, PyTy.isNoneT, primBranches, strToInt, World.dcfg, h, PyTy.isFloat, PyTy.isInt, bind,
    Except.bind]

/-- ... `Union[int, float]` holding the int 5 comes back as the float 5.0; ... -/
theorem C09_false_int_float (w : World) (am file ig : Bool) (path : String) :
    fromDict (w.dcfg am file) (.union [.int, .float]) ig path (.int 5) = .ok (.flt (.fin 5), []) := by
  have h : floatOfInt 5 = .ok (.fin 5) := floatOfInt_small (i := 5) (by decide)
  simp [fromDict, isOptionalArgs, PyTy.isNoneT, primBranches, toFloat, h, PyTy.isFloat, bind,
    Except.bind, pure, Except.pure]

/-- ... and `Optional[Union[A, B]]` cannot hold `None`. -/
theorem C09_false_none (w : World) (am file ig : Bool) (path : String) :
    fromDict (w.dcfg am file) (.union [Ex.aTy, Ex.bTy, .noneT]) ig path .none = .error .deserValue := rfl

/-! ## C10: Tuple -/

theorem mapIdx_ok {f : Nat → Val → Res} : ∀ {xs : List Val} {j : Nat} {ys : List Val} {es : List Ev},
    mapIdx f j xs = .ok (ys, es) → ys.length = xs.length ∧
      ∀ (i : Nat) (x : Val), xs[i]? = some x → ∃ y es', ys[i]? = some y ∧ f (j + i) x = .ok (y, es') := by
  intro xs
  induction xs with
  | nil => intro j ys es h; simp [mapIdx] at h; simp [h.1]
  | cons x xs ih =>
    intro j ys es h
    simp only [mapIdx, bind, Except.bind, pure, Except.pure] at h
    split at h
    · simp at h
    · rename_i y hy
      split at h
      · simp at h
      · rename_i z hz
        simp only [Except.ok.injEq, Prod.mk.injEq] at h
        obtain ⟨rfl, rfl⟩ := h
        obtain ⟨hl, hi⟩ := ih hz
        refine ⟨by simp [hl], ?_⟩
        intro i x' hx
        cases i with
        | zero =>
          simp only [List.getElem?_cons_zero, Option.some.injEq] at hx
          subst hx
          exact ⟨y.1, y.2, by simp, hy⟩
        | succ i =>
          simp only [List.getElem?_cons_succ] at hx ⊢
          obtain ⟨y', es', h1, h2⟩ := hi i x' hx
          exact ⟨y', es', h1, by rw [← h2]; congr 1; omega⟩

theorem fdNth_eq (c : DCfg) (path : String) (v : Val) : ∀ (as : List PyTy) (i : Nat),
    fdNth c as i path v = match as[i]? with
      | some t => fromDict c t false path v
      | .none => .error .indexError := by
  intro as
  induction as with
  | nil => intro i; simp [fdNth]
  | cons t ts ih => intro i; cases i <;> simp [fdNth, ih]

/-- the items of a document value that is a tuple -/
def tupleItems : Val → Option (List Val)
  | .tup xs => some xs
  | .ntup _ kvs => some (kvs.map Prod.snd)
  | _ => .none

/-- C10 (part): a Tuple field accepts only tuples with *at most* the declared number of elements, each loaded at its declared
type; the result has as many elements as the document value. -/
theorem C10_tuple_partial (c : DCfg) (ig : Bool) (path : String) (as : List PyTy) (x v : Val) (es : List Ev)
    (h : fromDict c (.tuple as) ig path x = .ok (v, es)) :
    ∃ xs ys, tupleItems x = some xs ∧ v = .tup ys ∧ ys.length = xs.length ∧ xs.length ≤ as.length ∧
      ∀ (i : Nat) (a : Val) (t : PyTy), xs[i]? = some a → as[i]? = some t → ∃ y es', ys[i]? = some y ∧
        fromDict c t false (path ++ "[" ++ i.repr ++ "]") a = .ok (y, es') := by
  have key : ∀ xs ys es, mapIdx (fun i x => fdNth c as i (path ++ "[" ++ i.repr ++ "]") x) 0 xs = .ok (ys, es) →
      ys.length = xs.length ∧ xs.length ≤ as.length ∧
      ∀ (i : Nat) (a : Val) (t : PyTy), xs[i]? = some a → as[i]? = some t → ∃ y es', ys[i]? = some y ∧
        fromDict c t false (path ++ "[" ++ i.repr ++ "]") a = .ok (y, es') := by
    intro xs ys es hm
    obtain ⟨hl, hi⟩ := mapIdx_ok hm
    refine ⟨hl, ?_, ?_⟩
    · rcases Nat.lt_or_ge as.length xs.length with hlt | hge
      · obtain ⟨y, es', _, h2⟩ := hi as.length xs[as.length] (List.getElem?_eq_getElem hlt)
        rw [fdNth_eq] at h2
        simp at h2
      · exact hge
    · intro i a t ha ht
      obtain ⟨y, es', h1, h2⟩ := hi i a ha
      rw [fdNth_eq] at h2
      simp only [Nat.zero_add, ht] at h2
      exact ⟨y, es', h1, h2⟩
  simp only [fromDict] at h
  cases x with
  | tup xs =>
    simp only [bind, Except.bind, pure, Except.pure] at h
    split at h
    · simp at h
    · rename_i z hz
      simp only [Except.ok.injEq, Prod.mk.injEq] at h
      obtain ⟨rfl, rfl⟩ := h
      exact ⟨xs, z.1, rfl, rfl, key xs z.1 z.2 hz⟩
  | ntup n kvs =>
    simp only [bind, Except.bind, pure, Except.pure] at h
    split at h
    · simp at h
    · rename_i z hz
      simp only [Except.ok.injEq, Prod.mk.injEq] at h
      obtain ⟨rfl, rfl⟩ := h
      exact ⟨_, z.1, rfl, rfl, key _ z.1 z.2 hz⟩
  | _ => simp at h

/-- C10: a tuple that is too long is always rejected -/
theorem C10_too_long (c : DCfg) (ig : Bool) (path : String) (as : List PyTy) (xs : List Val) (h : as.length < xs.length) :
    ∃ e, fromDict c (.tuple as) ig path (.tup xs) = .error e := by
  cases hr : fromDict c (.tuple as) ig path (.tup xs) with
  | error e => exact ⟨e, rfl⟩
  | ok r =>
    obtain ⟨xs', ys, h1, _, _, h4, _⟩ := C10_tuple_partial c ig path as _ r.1 r.2 hr
    cases h1
    omega

/-- C10 is false for tuples that are too short: every tuple type accepts the empty tuple. -/
theorem C10_false (c : DCfg) (ig : Bool) (path : String) (as : List PyTy) :
    fromDict c (.tuple as) ig path (.tup []) = .ok (.tup [], []) := rfl

example : fromDict (Ex.world.dcfg false false) (.tuple [.int, .str]) false "p" (.tup [.int 1, .str "a"])
    = .ok (.tup [.int 1, .str "a"], []) := rfl
example : fromDict (Ex.world.dcfg false false) (.tuple [.int, .str]) false "p" (.tup [.int 1, .str "a", .int 2])
    = .error .indexError := rfl
example : fromDict (Ex.world.dcfg false false) (.tuple [.int, .str]) false "p" (.tup [.int 1]) = .ok (.tup [.int 1], []) := rfl

end HS
