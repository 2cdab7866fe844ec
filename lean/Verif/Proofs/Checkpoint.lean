import Verif.Model.Checkpoint
import Verif.Proofs.Dict
/-!
# Lemmas about numerals in names and about `find_latest_checkpoint`
-/
namespace HS

/-! ## numerals -/

theorem digitC_facts : ∀ n < 10, digitVal (digitC n) = some n ∧ digitC n ≠ '_' ∧ isSpaceC (digitC n) = false ∧
    digitC n ≠ '-' ∧ digitC n ≠ '+' := by decide

def IsDigits (cs : List Char) : Prop := ∀ c ∈ cs, ∃ n, n < 10 ∧ c = digitC n

theorem isDigits_decF : ∀ f n, IsDigits (decF f n) := by
  intro f
  induction f with
  | zero => intro n c hc; simp [decF] at hc; exact ⟨n % 10, Nat.mod_lt _ (by omega), hc⟩
  | succ f ih =>
    intro n c hc
    simp only [decF] at hc
    split at hc
    · rename_i h; simp at hc; exact ⟨n, h, hc⟩
    · simp only [List.mem_append, List.mem_singleton] at hc
      rcases hc with hc | hc
      · exact ih _ c hc
      · exact ⟨n % 10, Nat.mod_lt _ (by omega), hc⟩

theorem digitsC_digit {n : Nat} (h : n < 10) (cs : List Char) (acc : Nat) (prev : Bool) :
    digitsC (digitC n :: cs) acc prev = digitsC cs (10 * acc + n) true := by
  obtain ⟨h1, h2, _⟩ := digitC_facts n h
  simp [digitsC, h1, h2]

theorem digitsC_decF : ∀ (f n : Nat), n < 10 ^ (f + 1) → ∀ (rest : List Char) (prev : Bool),
    digitsC (decF f n ++ rest) 0 prev = digitsC rest n true := by
  intro f
  induction f with
  | zero =>
    intro n hn rest prev
    have : n < 10 := by simpa using hn
    simp only [decF, Nat.mod_eq_of_lt this, List.cons_append, List.nil_append]
    rw [digitsC_digit this]; simp
  | succ f ih =>
    intro n hn rest prev
    simp only [decF]
    split
    · rename_i h
      simp only [List.cons_append, List.nil_append]
      rw [digitsC_digit h]; simp
    · rw [List.append_assoc, ih (n / 10) (by rw [Nat.div_lt_iff_lt_mul (by omega)]; rw [Nat.pow_succ] at hn; exact hn)]
      simp only [List.cons_append, List.nil_append]
      rw [digitsC_digit (Nat.mod_lt _ (by omega))]
      congr 1
      omega

theorem length_decF : ∀ (f n k : Nat), 1 ≤ k → n < 10 ^ k → (decF f n).length ≤ k := by
  intro f
  induction f with
  | zero => intro n k hk _; simpa [decF] using hk
  | succ f ih =>
    intro n k hk hn
    simp only [decF]
    split
    · simpa using hk
    · rename_i h
      have hk2 : 2 ≤ k := by
        rcases Nat.lt_or_ge k 2 with h2 | h2
        · have : k = 1 := by omega
          subst this; simp at hn; omega
        · exact h2
      obtain ⟨j, rfl⟩ : ∃ j, k = j + 1 := ⟨k - 1, by omega⟩
      have := ih (n / 10) j (by omega) (by rw [Nat.div_lt_iff_lt_mul (by omega)]; rw [Nat.pow_succ] at hn; exact hn)
      simp; exact this

theorem dec_fuel (n : Nat) : n < 10 ^ (n.log2 + 1) :=
  Nat.lt_of_lt_of_le Nat.lt_log2_self (Nat.pow_le_pow_left (by omega) _)

theorem digitsC_zeros : ∀ (k : Nat) (cs : List Char) (prev : Bool),
    digitsC (List.replicate k '0' ++ cs) 0 prev = digitsC cs 0 (prev || decide (0 < k)) := by
  intro k
  induction k with
  | zero => intro cs prev; simp
  | succ k ih =>
    intro cs prev
    have : '0' = digitC 0 := by decide
    rw [List.replicate_succ, List.cons_append, this, digitsC_digit (by omega), ← this]
    simp only [Nat.mul_zero, Nat.add_zero]
    rw [ih]; simp

theorem digitsC_pad (k n : Nat) : digitsC (List.replicate k '0' ++ dec n) 0 false = some n := by
  rw [digitsC_zeros, dec, ← List.append_nil (decF _ _), digitsC_decF _ _ (dec_fuel n)]
  simp [digitsC]

theorem isDigits_pad (k n : Nat) : IsDigits (List.replicate k '0' ++ dec n) := by
  intro c hc
  rw [List.mem_append] at hc
  rcases hc with hc | hc
  · rw [List.mem_replicate] at hc
    exact ⟨0, by omega, by rw [hc.2]; decide⟩
  · exact isDigits_decF _ _ c hc

theorem dropWhile_none {cs : List Char} (h : ∀ c ∈ cs, isSpaceC c = false) : cs.dropWhile isSpaceC = cs := by
  cases cs with
  | nil => rfl
  | cons c cs => simp [List.dropWhile, h c (by simp)]

theorem stripC_id {cs : List Char} (h : ∀ c ∈ cs, isSpaceC c = false) : stripC cs = cs := by
  simp only [stripC, dropWhile_none h]
  rw [dropWhile_none (by simpa using h), List.reverse_reverse]

theorem IsDigits.notSpace {cs : List Char} (h : IsDigits cs) : ∀ c ∈ cs, isSpaceC c = false := by
  intro c hc
  obtain ⟨n, hn, rfl⟩ := h c hc
  exact (digitC_facts n hn).2.2.1

theorem pyInt_digits {cs : List Char} (h : IsDigits cs) : pyInt cs = (digitsC cs 0 false).map (fun n => (n : Int)) := by
  simp only [pyInt, stripC_id h.notSpace]
  cases cs with
  | nil => rfl
  | cons c cs =>
    obtain ⟨n, hn, rfl⟩ := h c (by simp)
    obtain ⟨_, _, _, h1, h2⟩ := digitC_facts n hn
    split
    · rename_i heq; exact absurd (List.cons.inj heq).1 h1
    · rename_i heq; exact absurd (List.cons.inj heq).1 h2
    · rfl

theorem pyInt_neg {cs : List Char} (h : IsDigits cs) : pyInt ('-' :: cs) = (digitsC cs 0 false).map (fun n => -(n : Int)) := by
  have : stripC ('-' :: cs) = '-' :: cs := stripC_id (by
    intro c hc
    rcases List.mem_cons.1 hc with rfl | hc
    · decide
    · exact h.notSpace c hc)
  simp only [pyInt, this]

/-- the checkpoint keys for which the twelve last characters of the name determine the key -/
def KeyInRange (i : Int) : Prop := -(10 ^ 11) < i ∧ i < 10 ^ 12

theorem fmtPad_spec {i : Int} (h : KeyInRange i) : (fmtPad 12 i).length = 12 ∧ pyInt (fmtPad 12 i) = some i := by
  obtain ⟨h1, h2⟩ := h
  simp only [fmtPad]
  split
  · rename_i h0
    have hlt : i.natAbs < 10 ^ 12 := by omega
    have hlen := length_decF i.natAbs.log2 i.natAbs 12 (by omega) hlt
    constructor
    · simp only [List.length_append, List.length_replicate, dec]
      omega
    · rw [pyInt_digits (isDigits_pad _ _), digitsC_pad]
      simp; omega
  · rename_i h0
    have hlt : i.natAbs < 10 ^ 11 := by omega
    have hlen := length_decF i.natAbs.log2 i.natAbs 11 (by omega) hlt
    constructor
    · simp only [List.length_cons, List.length_append, List.length_replicate, dec]
      omega
    · rw [pyInt_neg (isDigits_pad _ _), digitsC_pad]
      simp; omega

theorem ckptName_toList (key : String) (i : Int) :
    (ckptName key i).toList = ['l', 'a', 't', 'e', 's', 't'] ++ ('-' :: (key.toList ++ fmtPad 12 i)) := by
  unfold ckptName
  generalize fmtPad 12 i = l
  simp

theorem suffixInt_ckptName (key : String) {i : Int} (h : KeyInRange i) : suffixInt (ckptName key i) = some i := by
  obtain ⟨h1, h2⟩ := fmtPad_spec h
  have hl : (ckptName key i).toList = (['l', 'a', 't', 'e', 's', 't', '-'] ++ key.toList) ++ fmtPad 12 i := by
    rw [ckptName_toList]; simp only [List.cons_append, List.nil_append]
  simp only [suffixInt, hl]
  have : ((['l', 'a', 't', 'e', 's', 't', '-'] ++ key.toList) ++ fmtPad 12 i).length =
      (['l', 'a', 't', 'e', 's', 't', '-'] ++ key.toList).length + 12 := by
    rw [List.length_append, h1]
  rw [this, if_pos (by omega), Nat.add_sub_cancel, List.drop_left, h2]

theorem latest_ckptName (key : String) (i : Int) : "latest".toList.isPrefixOf (ckptName key i).toList = true := by
  have hl : "latest".toList = ['l', 'a', 't', 'e', 's', 't'] := by simp
  rw [ckptName_toList, hl, List.isPrefixOf_iff_prefix]
  exact List.prefix_append _ _

theorem mem_dropWhile {p : Char → Bool} {c : Char} (hc : p c = false) : ∀ {cs : List Char}, c ∈ cs → c ∈ cs.dropWhile p := by
  intro cs
  induction cs with
  | nil => simp
  | cons x cs ih =>
    intro h
    simp only [List.dropWhile]
    split
    · rename_i hx
      rcases List.mem_cons.1 h with rfl | h
      · rw [hc] at hx; cases hx
      · exact ih h
    · exact h

theorem mem_stripC {c : Char} (hc : isSpaceC c = false) {cs : List Char} (h : c ∈ cs) : c ∈ stripC cs := by
  simp only [stripC, List.mem_reverse]
  apply mem_dropWhile hc
  rw [List.mem_reverse]
  exact mem_dropWhile hc h

theorem digitsC_bad {c : Char} (h1 : c ≠ '_') (h2 : digitVal c = .none) : ∀ {cs : List Char} {acc : Nat} {prev : Bool},
    c ∈ cs → digitsC cs acc prev = .none := by
  intro cs
  induction cs with
  | nil => intro acc prev h; simp at h
  | cons x cs ih =>
    intro acc prev h
    simp only [digitsC]
    rcases List.mem_cons.1 h with rfl | h
    · simp [h1, h2]
    · split
      · split
        · exact ih h
        · rfl
      · split
        · exact ih h
        · rfl

/-- no integer has a letter (or any other character that is no digit, sign, underscore or space) in it -/
theorem pyInt_bad {c : Char} (h1 : c ≠ '_') (h2 : digitVal c = .none) (h3 : isSpaceC c = false) (h4 : c ≠ '-') (h5 : c ≠ '+')
    {cs : List Char} (h : c ∈ cs) : pyInt cs = .none := by
  have hm := mem_stripC h3 h
  simp only [pyInt]
  split
  · rename_i r heq
    rw [heq] at hm
    rcases List.mem_cons.1 hm with e | hm
    · exact absurd e h4
    · simp [digitsC_bad h1 h2 hm]
  · rename_i r heq
    rw [heq] at hm
    rcases List.mem_cons.1 hm with e | hm
    · exact absurd e h5
    · simp [digitsC_bad h1 h2 hm]
  · simp [digitsC_bad h1 h2 hm]

/-- a name that ends in `.tmp` is never taken for a checkpoint -/
theorem suffixInt_tmp (name : String) (id : String) : suffixInt (name ++ "." ++ id ++ ".tmp") = .none := by
  simp only [suffixInt]
  split
  · apply pyInt_bad (c := 'p') (by decide) (by decide) (by decide) (by decide) (by decide)
    rename_i h
    have hl : (name ++ "." ++ id ++ ".tmp").toList = (name ++ "." ++ id).toList ++ ['.', 't', 'm', 'p'] := by simp
    rw [hl] at h ⊢
    rw [List.drop_append]
    apply List.mem_append_right
    simp only [List.length_append, List.length_cons, List.length_nil] at h ⊢
    have : (name ++ "." ++ id).toList.length + (0 + 1 + 1 + 1 + 1) - 12 - (name ++ "." ++ id).toList.length = 0 := by omega
    rw [this]; decide
  · rfl

/-! ## `find_latest_checkpoint` -/

theorem findLatestLoop_spec {P : Type} : ∀ (d : Dir P) (best : Option (Int × String)),
    (∀ i n, findLatestLoop d best = some (i, n) →
      (best = some (i, n) ∨ ∃ e, (n, e) ∈ d ∧ e.isDir = true ∧ suffixInt n = some i) ∧
      (∀ j m, best = some (j, m) → j ≤ i) ∧
      (∀ m e j, (m, e) ∈ d → e.isDir = true → suffixInt m = some j → j ≤ i)) ∧
    (findLatestLoop d best = .none → best = .none ∧ ∀ m e, (m, e) ∈ d → e.isDir = true → suffixInt m = .none) := by
  intro d
  induction d with
  | nil =>
    intro best
    refine ⟨?_, ?_⟩
    · intro i n h
      simp only [findLatestLoop] at h
      refine ⟨.inl h, ?_, by simp⟩
      intro j m h'; rw [h] at h'; cases h'; exact Int.le_refl _
    · intro h; exact ⟨h, by simp⟩
  | cons x d ih =>
    intro best
    obtain ⟨n0, e0⟩ := x
    simp only [findLatestLoop]
    -- skipping the entry
    have skip : (e0.isDir = true → ∀ j, suffixInt n0 = some j → ∃ b m, best = some (b, m) ∧ j ≤ b) →
        (∀ i n, findLatestLoop d best = some (i, n) →
          (best = some (i, n) ∨ ∃ e, (n, e) ∈ (n0, e0) :: d ∧ e.isDir = true ∧ suffixInt n = some i) ∧
          (∀ j m, best = some (j, m) → j ≤ i) ∧
          (∀ m e j, (m, e) ∈ (n0, e0) :: d → e.isDir = true → suffixInt m = some j → j ≤ i)) ∧
        (findLatestLoop d best = .none → best = .none ∧ ∀ m e, (m, e) ∈ (n0, e0) :: d → e.isDir = true → suffixInt m = .none) := by
      intro hs
      obtain ⟨i1, i2⟩ := ih best
      constructor
      · intro i n h
        obtain ⟨a, b, c⟩ := i1 i n h
        refine ⟨?_, b, ?_⟩
        · rcases a with a | ⟨e, h1, h2⟩
          · exact .inl a
          · exact .inr ⟨e, List.mem_cons_of_mem _ h1, h2⟩
        · intro m e j hm he hj
          rcases List.mem_cons.1 hm with hm | hm
          · cases hm
            obtain ⟨b', m', hb, hle⟩ := hs he j hj
            exact Int.le_trans hle (b b' m' hb)
          · exact c m e j hm he hj
      · intro h
        obtain ⟨a, b⟩ := i2 h
        refine ⟨a, ?_⟩
        intro m e hm he
        rcases List.mem_cons.1 hm with hm | hm
        · cases hm
          cases hsx : suffixInt n0 with
          | none => rfl
          | some j =>
            obtain ⟨b', m', hb, _⟩ := hs he j hsx
            rw [a] at hb; cases hb
        · exact b m e hm he
    have take : ∀ i0, e0.isDir = true → suffixInt n0 = some i0 → (∀ j m, best = some (j, m) → j < i0) →
        (∀ i n, findLatestLoop d (some (i0, n0)) = some (i, n) →
          (best = some (i, n) ∨ ∃ e, (n, e) ∈ (n0, e0) :: d ∧ e.isDir = true ∧ suffixInt n = some i) ∧
          (∀ j m, best = some (j, m) → j ≤ i) ∧
          (∀ m e j, (m, e) ∈ (n0, e0) :: d → e.isDir = true → suffixInt m = some j → j ≤ i)) ∧
        (findLatestLoop d (some (i0, n0)) = .none → best = .none ∧
          ∀ m e, (m, e) ∈ (n0, e0) :: d → e.isDir = true → suffixInt m = .none) := by
      intro i0 he0 hi0 hbest
      obtain ⟨i1, i2⟩ := ih (some (i0, n0))
      constructor
      · intro i n h
        obtain ⟨a, b, c⟩ := i1 i n h
        refine ⟨?_, ?_, ?_⟩
        · rcases a with a | ⟨e, h1, h2⟩
          · cases a; exact .inr ⟨e0, by simp, he0, hi0⟩
          · exact .inr ⟨e, List.mem_cons_of_mem _ h1, h2⟩
        · intro j m hj
          exact Int.le_trans (Int.le_of_lt (hbest j m hj)) (b i0 n0 rfl)
        · intro m e j hm he hj
          rcases List.mem_cons.1 hm with hm | hm
          · cases hm
            rw [hi0] at hj; cases hj
            exact b i0 n0 rfl
          · exact c m e j hm he hj
      · intro h
        exact absurd (i2 h).1 (by simp)
    split
    · rename_i he0
      split
      · rename_i i0 hi0
        cases best with
        | none => exact take i0 he0 hi0 (by simp)
        | some b =>
          obtain ⟨j, m⟩ := b
          simp only
          split
          · rename_i hgt
            exact take i0 he0 hi0 (by intro j' m' h; cases h; omega)
          · rename_i hgt
            apply skip
            intro _ j' hj'
            rw [hi0] at hj'; cases hj'
            exact ⟨j, m, rfl, by omega⟩
      · rename_i hi0
        apply skip
        intro _ j hj; rw [hi0] at hj; cases hj
    · rename_i he0
      apply skip
      intro he; exact absurd he he0

/-- `find_latest_checkpoint` finds nothing exactly when there is no directory with a number -/
theorem findLatest_none {P : Type} (d : Dir P) :
    findLatest d = .none ↔ ∀ m e, (m, e) ∈ d → e.isDir = true → suffixInt m = .none := by
  obtain ⟨h1, h2⟩ := findLatestLoop_spec d .none
  simp only [findLatest]
  constructor
  · intro h
    cases hl : findLatestLoop d .none with
    | none => exact (h2 hl).2
    | some x => simp [hl] at h
  · intro h
    cases hl : findLatestLoop d .none with
    | none => rfl
    | some x =>
      obtain ⟨i, n⟩ := x
      obtain ⟨a, _, _⟩ := h1 i n hl
      rcases a with a | ⟨e, hm, he, hs⟩
      · cases a
      · rw [h n e hm he] at hs; cases hs

theorem findLatest_some {P : Type} {d : Dir P} {n : String} (h : findLatest d = some n) :
    ∃ e i, (n, e) ∈ d ∧ e.isDir = true ∧ suffixInt n = some i ∧
      ∀ m e' j, (m, e') ∈ d → e'.isDir = true → suffixInt m = some j → j ≤ i := by
  obtain ⟨h1, _⟩ := findLatestLoop_spec d .none
  simp only [findLatest] at h
  cases hl : findLatestLoop d .none with
  | none => simp [hl] at h
  | some x =>
    obtain ⟨i, m⟩ := x
    simp [hl] at h
    subst h
    obtain ⟨a, _, c⟩ := h1 i m hl
    rcases a with a | ⟨e, hm, he, hs⟩
    · cases a
    · exact ⟨e, i, hm, he, hs, c⟩

/-- the directory with the largest number is found, if no other has that number -/
theorem findLatest_max {P : Type} {d : Dir P} {n : String} {e : Ent P} {i : Int} (hm : (n, e) ∈ d) (he : e.isDir = true)
    (hi : suffixInt n = some i) (hmax : ∀ m e' j, (m, e') ∈ d → e'.isDir = true → suffixInt m = some j → m = n ∨ j < i) :
    findLatest d = some n := by
  cases hl : findLatest d with
  | none => rw [(findLatest_none d).1 hl n e hm he] at hi; cases hi
  | some m =>
    obtain ⟨e', j, h1, h2, h3, h4⟩ := findLatest_some hl
    rcases hmax m e' j h1 h2 h3 with rfl | hlt
    · rfl
    · have := h4 n e i hm he hi
      omega

/-! ## dictionaries -/

theorem dset_new {α : Type} {d : List (String × α)} {k : String} {v : α} (h : dget d k = .none) : dset d k v = d ++ [(k, v)] := by
  induction d with
  | nil => rfl
  | cons x d ih =>
    obtain ⟨j, y⟩ := x
    by_cases e : j = k
    · simp [dget, e] at h
    · simp [dget, e] at h; simp [dset, e, ih h]

theorem mem_dkeys_dset {α : Type} {d : List (String × α)} {k n : String} {v : α} : n ∈ dkeys (dset d k v) ↔ n = k ∨ n ∈ dkeys d := by
  induction d with
  | nil => simp [dset, dkeys]
  | cons x d ih =>
    obtain ⟨j, y⟩ := x
    by_cases e : j = k
    · simp only [dset, e, if_true]
      simp [dkeys]
    · simp only [dset, e, if_false]
      simp only [dkeys, List.map_cons, List.mem_cons] at ih ⊢
      rw [ih]; constructor <;> rintro (h | h | h) <;> simp [h]

theorem mem_dkeys_ddel {α : Type} {d : List (String × α)} {k n : String} : n ∈ dkeys (ddel d k) ↔ n ≠ k ∧ n ∈ dkeys d := by
  induction d with
  | nil => simp [ddel, dkeys]
  | cons x d ih =>
    obtain ⟨j, y⟩ := x
    simp only [dkeys, List.map_cons, List.mem_cons] at ih ⊢
    by_cases e : j = k
    · simp only [ddel, e, if_true]
      rw [ih]
      constructor
      · rintro ⟨h1, h2⟩; exact ⟨h1, .inr h2⟩
      · rintro ⟨h1, h2 | h2⟩
        · exact absurd h2 h1
        · exact ⟨h1, h2⟩
    · simp only [ddel, e, if_false, List.map_cons, List.mem_cons]
      rw [ih]
      constructor
      · rintro (h | ⟨h1, h2⟩)
        · subst h; exact ⟨e, .inl rfl⟩
        · exact ⟨h1, .inr h2⟩
      · rintro ⟨h1, h2 | h2⟩
        · exact .inl h2
        · exact .inr ⟨h1, h2⟩

theorem ddel_dset {α : Type} (d : List (String × α)) (k : String) (v : α) : ddel (dset d k v) k = ddel d k := by
  induction d with
  | nil => simp [dset, ddel]
  | cons x d ih =>
    obtain ⟨j, y⟩ := x
    by_cases e : j = k
    · simp [dset, ddel, e]
    · simp [dset, ddel, e, ih]

theorem ddel_append {α : Type} (a b : List (String × α)) (k : String) : ddel (a ++ b) k = ddel a k ++ ddel b k := by
  induction a with
  | nil => rfl
  | cons x a ih =>
    obtain ⟨j, y⟩ := x
    by_cases e : j = k
    · simp [ddel, e, ih]
    · simp [ddel, e, ih]

theorem length_dset_le {α : Type} (d : List (String × α)) (k : String) (v : α) : (dset d k v).length ≤ d.length + 1 := by
  induction d with
  | nil => simp [dset]
  | cons x d ih =>
    obtain ⟨j, y⟩ := x
    by_cases e : j = k
    · simp [dset, e]
    · simp [dset, e]; exact ih

theorem length_dset_mem {α : Type} {d : List (String × α)} {k : String} {v w : α} (h : dget d k = some w) :
    (dset d k v).length = d.length := by
  induction d with
  | nil => simp at h
  | cons x d ih =>
    obtain ⟨j, y⟩ := x
    by_cases e : j = k
    · simp [dset, e]
    · simp [dget, e] at h; simp [dset, e, ih h]

theorem length_ddel_le {α : Type} (d : List (String × α)) (k : String) : (ddel d k).length ≤ d.length := by
  induction d with
  | nil => simp [ddel]
  | cons x d ih =>
    obtain ⟨j, y⟩ := x
    by_cases e : j = k
    · simp [ddel, e]; omega
    · simp [ddel, e]; exact ih

theorem length_ddel_mem {α : Type} {d : List (String × α)} {k : String} {w : α} (h : dget d k = some w) :
    (ddel d k).length + 1 ≤ d.length := by
  induction d with
  | nil => simp at h
  | cons x d ih =>
    obtain ⟨j, y⟩ := x
    by_cases e : j = k
    · have := length_ddel_le d k
      simp [ddel, e]; omega
    · simp [dget, e] at h; simp [ddel, e]; exact ih h

end HS
