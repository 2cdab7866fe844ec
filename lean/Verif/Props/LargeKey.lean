import Verif.Props.Checkpoint
/-! # Checkpoint keys of more than twelve digits

`find_latest_checkpoint` (`hyperstate/hyperstate.py:334-349`) compares the last twelve characters of the names, and `step` writes the
key with at least twelve digits (`hyperstate/hyperstate.py:134-136`). -/
namespace HS
variable {P : Type}

theorem decF_split : ∀ (w f n : Nat), n < 10 ^ (f + 1) → 10 ^ w ≤ n → ∃ pre suf, decF f n = pre ++ suf ∧ pre ≠ [] ∧ suf.length = w ∧ IsDigits suf ∧
    ∀ acc prev rest, digitsC (suf ++ rest) acc prev = digitsC rest (10 ^ w * acc + n % 10 ^ w) (prev || decide (0 < w)) := by
  intro w
  induction w with
  | zero =>
    intro f n _ _
    refine ⟨decF f n, [], by simp, by cases f <;> simp only [decF] <;> (try split) <;> simp, rfl, fun c hc => (by simp at hc), ?_⟩
    intro acc prev rest
    simp [Nat.mod_one]
  | succ w ih =>
    intro f n h1 h2
    have hp : 1 ≤ 10 ^ w := Nat.one_le_pow _ _ (by omega)
    rw [Nat.pow_succ] at h2
    have h10 : ¬ n < 10 := by omega
    cases f with
    | zero => simp at h1; omega
    | succ f =>
      obtain ⟨pre, suf, e1, e0, e2, e3, e4⟩ := ih f (n / 10) (by rw [Nat.div_lt_iff_lt_mul (by omega)]; rw [Nat.pow_succ] at h1; exact h1)
        (by rw [Nat.le_div_iff_mul_le (by omega)]; exact h2)
      have hm : n % 10 < 10 := Nat.mod_lt _ (by omega)
      refine ⟨pre, suf ++ [digitC (n % 10)], ?_, e0, by simp [e2], ?_, ?_⟩
      · simp only [decF]
        rw [if_neg h10, e1, List.append_assoc]
      · intro c hc
        rcases List.mem_append.1 hc with hc | hc
        · exact e3 c hc
        · exact ⟨n % 10, hm, List.mem_singleton.1 hc⟩
      · intro acc prev rest
        rw [List.append_assoc, e4, List.singleton_append, digitsC_digit hm]
        have e : n % 10 ^ (w + 1) = n % 10 + 10 * (n / 10 % 10 ^ w) := by rw [Nat.pow_succ, Nat.mul_comm, Nat.mod_mul]
        have e' : 10 * (10 ^ w * acc + n / 10 % 10 ^ w) + n % 10 = 10 ^ (w + 1) * acc + n % 10 ^ (w + 1) := by
          rw [e, Nat.pow_succ, Nat.mul_add, Nat.mul_comm (10 ^ w) 10, Nat.mul_assoc]; omega
        rw [e']
        simp

/-- C43: the number read off the name of a checkpoint whose key has more than twelve digits is the key modulo 10^12 -/
theorem C43_large_key (key : String) (k : Nat) (hk : 10 ^ 12 ≤ k) : suffixInt (ckptName key k) = some ((k % 10 ^ 12 : Nat) : Int) := by
  obtain ⟨pre, suf, e1, e0, e2, e3, e4⟩ := decF_split 12 k.log2 k (dec_fuel k) hk
  have hlen : 12 ≤ (dec k).length := by rw [dec, e1, List.length_append, e2]; omega
  have hf : fmtPad 12 (k : Int) = pre ++ suf := by
    simp only [fmtPad]
    rw [if_pos (by omega), Int.natAbs_natCast, Nat.sub_eq_zero_of_le hlen, List.replicate_zero, List.nil_append, dec, e1]
  have hl : (ckptName key k).toList = (['l', 'a', 't', 'e', 's', 't', '-'] ++ key.toList ++ pre) ++ suf := by
    rw [ckptName_toList, hf]; simp only [List.cons_append, List.nil_append, List.append_assoc]
  have hd : digitsC suf 0 false = some (k % 10 ^ 12) := by
    have := e4 0 false []
    rw [List.append_nil] at this
    rw [this, Nat.mul_zero, Nat.zero_add]
    rfl
  simp only [suffixInt, hl]
  have : ((['l', 'a', 't', 'e', 's', 't', '-'] ++ key.toList ++ pre) ++ suf).length =
      (['l', 'a', 't', 'e', 's', 't', '-'] ++ key.toList ++ pre).length + 12 := by
    rw [List.length_append, e2]
  rw [this, if_pos (by omega), Nat.add_sub_cancel, List.drop_left, pyInt_digits e3, hd]
  rfl

/-- C43, the failing case in general: a checkpoint whose key has at most twelve digits is restored instead of every checkpoint in the
directory whose key has more, if the last twelve digits of these keys are smaller. -/
theorem C43_large_keys_false (key : String) (j : Nat) (hj : j < 10 ^ 12) {d : Dir P} {q : P} (hn : (dkeys d).Nodup)
    (hq : (ckptName key j, .full q) ∈ d)
    (hall : ∀ n e i, (n, e) ∈ d → e.isDir = true → suffixInt n = some i →
      ∃ k : Nat, n = ckptName key k ∧ (k ≤ j ∨ 10 ^ 12 ≤ k ∧ k % 10 ^ 12 < j)) :
    restored d = some q ∧ openMgr d = some (ckptName key j) := by
  have hr : ∀ k : Nat, k < 10 ^ 12 → KeyInRange (k : Int) := fun k hk => ⟨by omega, by omega⟩
  have hf : findLatest d = some (ckptName key j) := by
    apply findLatest_max hq rfl (suffixInt_ckptName key (hr j hj))
    intro m e i hm he hi
    obtain ⟨k, rfl, h | ⟨h1, h2⟩⟩ := hall m e i hm he hi
    · rcases Nat.lt_or_eq_of_le h with h | rfl
      · right
        rw [suffixInt_ckptName key (hr k (by omega))] at hi
        cases hi
        exact_mod_cast h
      · exact .inl rfl
    · right
      rw [C43_large_key key k h1] at hi
      cases hi
      exact_mod_cast h2
  have ho : openMgr d = some (ckptName key j) := by
    simp only [openMgr, hf, latest_ckptName]; rfl
  refine ⟨?_, ho⟩
  simp only [restored, ho, dget_of_mem hn hq]

/-- The hypotheses are met by a directory in which a larger key is present. -/
example : restored [(ckptName "step" 5, Ent.full (5 : Int)), (ckptName "step" 1000000000004, .full 1000000000004)] = some 5 := by
  refine (C43_large_keys_false "step" 5 (by omega) (by decide +kernel) (List.mem_cons_self ..) ?_).1
  intro n e i hm he hi
  simp only [List.mem_cons, List.not_mem_nil, or_false, Prod.mk.injEq] at hm
  rcases hm with ⟨rfl, rfl⟩ | ⟨rfl, rfl⟩
  · exact ⟨5, rfl, .inl (Nat.le_refl _)⟩
  · exact ⟨1000000000004, rfl, .inr ⟨by omega, by omega⟩⟩

/-- C43: a negative key of twelve digits is read without its sign -/
theorem C43_negative_key (key : String) (k : Nat) (h1 : 10 ^ 11 ≤ k) (h2 : k < 10 ^ 12) : suffixInt (ckptName key (-(k : Int))) = some (k : Int) := by
  obtain ⟨pre, suf, e1, e0, e2, -, -⟩ := decF_split 11 k.log2 k (dec_fuel k) h1
  have hlen : (dec k).length = 12 := by
    have hle := length_decF k.log2 k 12 (by omega) h2
    have hp := List.length_pos_iff.2 e0
    rw [dec]
    rw [e1, List.length_append, e2] at hle ⊢
    omega
  have hf : fmtPad 12 (-(k : Int)) = '-' :: dec k := by
    simp only [fmtPad]
    rw [if_neg (by omega), Int.natAbs_neg, Int.natAbs_natCast, hlen]
    rfl
  have hl : (ckptName key (-(k : Int))).toList = (['l', 'a', 't', 'e', 's', 't', '-'] ++ key.toList ++ ['-']) ++ dec k := by
    rw [ckptName_toList, hf]; simp only [List.cons_append, List.nil_append, List.append_assoc]
  have : ((['l', 'a', 't', 'e', 's', 't', '-'] ++ key.toList ++ ['-']) ++ dec k).length =
      (['l', 'a', 't', 'e', 's', 't', '-'] ++ key.toList ++ ['-']).length + 12 := by
    rw [List.length_append, hlen]
  simp only [suffixInt, hl]
  have hd := digitsC_pad 0 k
  have hi := isDigits_pad 0 k
  rw [List.replicate_zero, List.nil_append] at hd hi
  rw [this, if_pos (by omega), Nat.add_sub_cancel, List.drop_left, pyInt_digits hi, hd]
  rfl

/-- C43 is false for such keys: the checkpoint is restored instead of every one with a larger key of smaller absolute value. -/
theorem C43_negative_keys_false (key : String) (k : Nat) (h1 : 10 ^ 11 ≤ k) (h2 : k < 10 ^ 12) {d : Dir P} {q : P} (hn : (dkeys d).Nodup)
    (hq : (ckptName key (-(k : Int)), .full q) ∈ d)
    (hall : ∀ n e i, (n, e) ∈ d → e.isDir = true → suffixInt n = some i →
      n = ckptName key (-(k : Int)) ∨ ∃ j : Int, n = ckptName key j ∧ -(10 ^ 11) < j ∧ j < k) :
    restored d = some q ∧ openMgr d = some (ckptName key (-(k : Int))) := by
  have hf : findLatest d = some (ckptName key (-(k : Int))) := by
    apply findLatest_max hq rfl (C43_negative_key key k h1 h2)
    intro m e i hm he hi
    rcases hall m e i hm he hi with rfl | ⟨j, rfl, h3, h4⟩
    · exact .inl rfl
    · right
      rw [suffixInt_ckptName key ⟨h3, by omega⟩] at hi
      cases hi
      exact h4
  have ho : openMgr d = some (ckptName key (-(k : Int))) := by
    simp only [openMgr, hf, latest_ckptName]; rfl
  refine ⟨?_, ho⟩
  simp only [restored, ho, dget_of_mem hn hq]

/-- The hypotheses are met by a directory in which a larger key is present. -/
example : restored [(ckptName "step" 7, Ent.full (7 : Int)), (ckptName "step" (-100000000000), .full (-100000000000))] =
    some (-100000000000) := by
  refine (C43_negative_keys_false "step" 100000000000 (by omega) (by omega) (by decide +kernel)
    (List.mem_cons_of_mem _ (List.mem_cons_self ..)) ?_).1
  intro n e i hm he hi
  simp only [List.mem_cons, List.not_mem_nil, or_false, Prod.mk.injEq] at hm
  rcases hm with ⟨rfl, rfl⟩ | ⟨rfl, rfl⟩
  · exact .inr ⟨7, rfl, by omega, by omega⟩
  · exact .inl rfl
end HS
