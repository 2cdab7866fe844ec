import Verif.Proofs.Dict
/-!
# `==` is transitive; symmetric on scalars
-/
namespace HS

theorem eqv_trans {a b c : Flt} (h1 : a.eqv b = true) (h2 : b.eqv c = true) : a.eqv c = true := by
  cases a <;> cases b <;> simp [Flt.eqv] at h1 <;> cases c <;> simp_all [Flt.eqv]

theorem eqv_comm (a b : Flt) : a.eqv b = b.eqv a := by
  cases a <;> cases b <;> simp [Flt.eqv, eq_comm]
  rename_i x y; cases x <;> cases y <;> rfl

theorem pyEq_num {v : Val} {f : Flt} (h : v.num? = some f) (w : Val) :
    pyEq v w = match w.num? with | some g => f.eqv g | .none => false := by
  cases v <;> simp [Val.num?] at h <;> subst h <;> simp only [pyEq] <;> cases w.num? <;> rfl

/-- only numbers are equal to numbers -/
theorem pyEq_num_right {v w : Val} {f : Flt} (h : w.num? = some f) (he : pyEq v w = true) : ∃ g, v.num? = some g := by
  cases v <;> try exact ⟨_, rfl⟩
  all_goals (cases w <;> simp [Val.num?] at h <;> simp [pyEq] at he)

theorem pyEqV_eq (kvs : List (String × Val)) : ∀ ys, pyEqV kvs ys = pyEqL (kvs.map Prod.snd) ys := by
  induction kvs with
  | nil => intro ys; rfl
  | cons e kvs ih =>
    intro ys
    obtain ⟨k, v⟩ := e
    cases ys with
    | nil => simp [pyEqV, pyEqL]
    | cons y ys => simp [pyEqV, pyEqL, pyEqS, ih]

/-- `==` of dicts, by entries -/
theorem pyEqD_iff (d d' : List (String × Val)) : pyEqD d d' = true ↔ ∀ k v, (k, v) ∈ d → ∃ w, dget d' k = some w ∧ pyEq v w = true := by
  induction d with
  | nil => simp [pyEqD]
  | cons e d ih =>
    obtain ⟨k, v⟩ := e
    simp only [pyEqD, pyEqK, Bool.and_eq_true, ih]
    constructor
    · rintro ⟨h1, h2⟩ k' v' hm
      rcases List.mem_cons.1 hm with hm | hm
      · cases hm
        cases h3 : dget d' k with
        | none => rw [h3] at h1; exact (nomatch h1)
        | some w => rw [h3] at h1; exact ⟨w, rfl, h1⟩
      · exact h2 k' v' hm
    · intro h
      refine ⟨?_, fun k' v' hm => h k' v' (List.mem_cons_of_mem _ hm)⟩
      obtain ⟨w, h1, h2⟩ := h k v (by simp)
      rw [h1]; exact h2

theorem pyEq_num_trans {a b c : Val} {f : Flt} (hf : a.num? = some f) (h1 : pyEq a b = true) (h2 : pyEq b c = true) :
    pyEq a c = true := by
  rw [pyEq_num hf] at h1 ⊢
  cases hb : b.num? with
  | none => rw [hb] at h1; exact (nomatch h1)
  | some g =>
    rw [hb] at h1
    rw [pyEq_num hb] at h2
    cases hc : c.num? with
    | none => rw [hc] at h2; exact (nomatch h2)
    | some k => rw [hc] at h2; exact eqv_trans h1 h2

mutual
theorem pyEq_trans : ∀ a b c : Val, pyEq a b = true → pyEq b c = true → pyEq a c = true
  | .none, b, c, h1, h2 => by cases b <;> simp [pyEq] at h1; exact h2
  | .bool _, b, c, h1, h2 => pyEq_num_trans rfl h1 h2
  | .int _, b, c, h1, h2 => pyEq_num_trans rfl h1 h2
  | .flt _, b, c, h1, h2 => pyEq_num_trans rfl h1 h2
  | .str s, b, c, h1, h2 => by
    cases b <;> simp [pyEq] at h1
    subst h1; exact h2
  | .list xs, b, c, h1, h2 => by
    cases b <;> simp only [pyEq, Bool.false_eq_true] at h1
    cases c <;> simp only [pyEq, Bool.false_eq_true] at h2
    exact pyEqL_trans xs _ _ h1 h2
  | .tup xs, b, c, h1, h2 => by
    cases b <;> simp only [pyEq, Bool.false_eq_true] at h1 <;> cases c <;> simp only [pyEq, pyEqV_eq, Bool.false_eq_true] at h2 <;>
      exact pyEqL_trans xs _ _ h1 h2
  | .ntup n kvs, b, c, h1, h2 => by
    cases b <;> simp only [pyEq, Bool.false_eq_true] at h1 <;> cases c <;> simp only [pyEq, Bool.false_eq_true] at h2
    · exact pyEqV_trans kvs _ _ h1 h2
    · exact pyEqV_trans kvs _ _ h1 h2
    · rw [pyEqV_eq] at h2; exact pyEqV_trans kvs _ _ h1 h2
    · rw [pyEqV_eq] at h2; exact pyEqV_trans kvs _ _ h1 h2
  | .dict d, b, c, h1, h2 => by
    cases b <;> simp only [pyEq, Bool.false_eq_true] at h1
    cases c <;> simp only [pyEq, Bool.false_eq_true] at h2
    rename_i d' d''
    simp only [Bool.and_eq_true, beq_iff_eq] at h1 h2
    simp only [pyEq, Bool.and_eq_true, beq_iff_eq]
    refine ⟨h1.1.trans h2.1, pyEqD_trans d d' d'' h1.2 h2.2⟩
  | .inst n kvs, b, c, h1, h2 => by
    cases b <;> simp only [pyEq, Bool.false_eq_true, Bool.and_eq_true, beq_iff_eq] at h1
    cases c <;> simp only [pyEq, Bool.false_eq_true, Bool.and_eq_true, beq_iff_eq] at h2
    simp only [pyEq, Bool.and_eq_true, beq_iff_eq]
    refine ⟨h1.1.trans h2.1, ?_⟩
    rw [pyEqV_eq] at h2
    exact pyEqV_trans kvs _ _ h1.2 h2.2
  | .enm a n _, b, c, h1, h2 => by
    cases b <;> simp [pyEq] at h1
    obtain ⟨rfl, rfl⟩ := h1
    cases c <;> simp [pyEq] at h2
    simp [pyEq, h2]
  | .ser n r, b, c, h1, h2 => by
    cases b <;> simp only [pyEq, Bool.false_eq_true, Bool.and_eq_true, beq_iff_eq] at h1
    cases c <;> simp only [pyEq, Bool.false_eq_true, Bool.and_eq_true, beq_iff_eq] at h2
    simp only [pyEq, Bool.and_eq_true, beq_iff_eq]
    exact ⟨h1.1.trans h2.1, pyEq_trans r _ _ h1.2 h2.2⟩
termination_by structural x => x
theorem pyEqL_trans : ∀ xs ys zs : List Val, pyEqL xs ys = true → pyEqL ys zs = true → pyEqL xs zs = true
  | [], ys, zs, h1, h2 => by cases ys <;> simp [pyEqL] at h1; exact h2
  | x :: xs, ys, zs, h1, h2 => by
    cases ys <;> simp only [pyEqL, Bool.false_eq_true, Bool.and_eq_true] at h1
    cases zs <;> simp only [pyEqL, Bool.false_eq_true, Bool.and_eq_true] at h2
    simp only [pyEqL, Bool.and_eq_true]
    exact ⟨pyEq_trans x _ _ h1.1 h2.1, pyEqL_trans xs _ _ h1.2 h2.2⟩
termination_by structural x => x
theorem pyEqV_trans : ∀ (xs : List (String × Val)) (ys zs : List Val), pyEqV xs ys = true → pyEqL ys zs = true → pyEqV xs zs = true
  | [], ys, zs, h1, h2 => by cases ys <;> simp [pyEqV] at h1; cases zs <;> simp [pyEqL] at h2; rfl
  | x :: xs, ys, zs, h1, h2 => by
    cases ys <;> simp only [pyEqV, Bool.false_eq_true, Bool.and_eq_true] at h1
    cases zs <;> simp only [pyEqL, Bool.false_eq_true, Bool.and_eq_true] at h2
    simp only [pyEqV, Bool.and_eq_true]
    exact ⟨pyEqS_trans x _ _ h1.1 h2.1, pyEqV_trans xs _ _ h1.2 h2.2⟩
termination_by structural x => x
theorem pyEqD_trans : ∀ (d d' d'' : List (String × Val)), pyEqD d d' = true → pyEqD d' d'' = true → pyEqD d d'' = true
  | [], _, _, _, _ => rfl
  | x :: d, d', d'', h1, h2 => by
    simp only [pyEqD, Bool.and_eq_true] at h1 ⊢
    exact ⟨pyEqK_trans x d' d'' h1.1 h2, pyEqD_trans d d' d'' h1.2 h2⟩
termination_by structural x => x
theorem pyEqS_trans : ∀ (x : String × Val) (y z : Val), pyEqS x y = true → pyEq y z = true → pyEqS x z = true
  | (_, x), y, z, h1, h2 => by
    simp only [pyEqS] at h1 ⊢
    exact pyEq_trans x y z h1 h2
termination_by structural x => x
theorem pyEqK_trans : ∀ (x : String × Val) (d' d'' : List (String × Val)), pyEqK x d' = true → pyEqD d' d'' = true → pyEqK x d'' = true
  | (k, v), d', d'', h1, h2 => by
    simp only [pyEqK] at h1 ⊢
    cases h3 : dget d' k with
    | none => rw [h3] at h1; exact (nomatch h1)
    | some w =>
      rw [h3] at h1
      obtain ⟨u, h4, h5⟩ := (pyEqD_iff d' d'').1 h2 k w (dget_mem h3)
      rw [h4]
      exact pyEq_trans v w u h1 h5
termination_by structural x => x
end

/-- values without parts -/
def Val.scalar : Val → Bool
  | .none | .bool _ | .int _ | .flt _ | .str _ | .enm _ _ _ => true
  | _ => false

theorem pyEq_symm_scalar {a b : Val} (hs : a.scalar = true) (h : pyEq a b = true) : pyEq b a = true := by
  cases hf : a.num? with
  | some f =>
    rw [pyEq_num hf] at h
    cases hb : b.num? with
    | none => rw [hb] at h; exact (nomatch h)
    | some g =>
      rw [hb] at h
      rw [pyEq_num hb, hf]
      simp only
      rw [eqv_comm]; exact h
  | none =>
    cases a <;> simp [Val.scalar, Val.num?] at hs hf <;> cases b <;> simp [pyEq] at h ⊢
    · exact h.symm
    · exact ⟨h.1.symm, h.2.symm⟩

theorem pyMem_trans {v : Val} {vs ws : List Val} (h : pyMem v vs = true) (hs : vs.all (pyMem · ws) = true) : pyMem v ws = true := by
  obtain ⟨u, h1, h2⟩ := List.any_eq_true.1 h
  obtain ⟨w, h3, h4⟩ := List.any_eq_true.1 (List.all_eq_true.1 hs u h1)
  exact List.any_eq_true.2 ⟨w, h3, pyEq_trans v u w h2 h4⟩

end HS
