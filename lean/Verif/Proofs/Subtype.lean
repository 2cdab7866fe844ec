import Verif.Spec.Subtype
import Verif.Model.Schema
/-!
# Lemmas on `materialize`, `styEq`, `isSubtype`
-/
namespace HS

/-! ## inversion of `materialize` -/

theorem mat_int {s : STy} (h : materialize .int = .ok s) : s = .prim "int" := by simp only [materialize] at h; cases h; rfl
theorem mat_str {s : STy} (h : materialize .str = .ok s) : s = .prim "str" := by simp only [materialize] at h; cases h; rfl
theorem mat_bool {s : STy} (h : materialize .bool = .ok s) : s = .prim "bool" := by simp only [materialize] at h; cases h; rfl
theorem mat_float {s : STy} (h : materialize .float = .ok s) : s = .prim "float" := by simp only [materialize] at h; cases h; rfl
theorem mat_enum {n : String} {ms : List (String × Val)} {s : STy} (h : materialize (.enum n ms) = .ok s) : s = .enum n ms := by
  simp only [materialize] at h; cases h; rfl
theorem mat_literal {vs : List Val} {s : STy} (h : materialize (.literal vs) = .ok s) : s = .literal vs := by
  simp only [materialize] at h; cases h; rfl
theorem mat_noneT {s : STy} (h : materialize .noneT = .ok s) : False := by simp [materialize] at h
theorem mat_blob {n : String} {s : STy} (h : materialize (.blob n) = .ok s) : False := by simp [materialize] at h
theorem mat_list {a : PyTy} {s : STy} (h : materialize (.list a) = .ok s) : ∃ t, materialize a = .ok t ∧ s = .list t := by
  simp only [materialize, bind, Except.bind, pure, Except.pure] at h
  cases h1 : materialize a with
  | error e => rw [h1] at h; exact (nomatch h)
  | ok q => rw [h1] at h; cases h; exact ⟨q, rfl, rfl⟩
theorem mat_tuple {as : List PyTy} {s : STy} (h : materialize (.tuple as) = .ok s) : ∃ ts, materializeL as = .ok ts ∧ s = .tuple ts := by
  simp only [materialize, bind, Except.bind, pure, Except.pure] at h
  cases h1 : materializeL as with
  | error e => rw [h1] at h; exact (nomatch h)
  | ok q => rw [h1] at h; cases h; exact ⟨q, rfl, rfl⟩
theorem mat_dict {k v : PyTy} {s : STy} (h : materialize (.dict k v) = .ok s) :
    ∃ a b, materialize k = .ok a ∧ materialize v = .ok b ∧ s = .dict a b := by
  simp only [materialize, bind, Except.bind, pure, Except.pure] at h
  cases h1 : materialize k with
  | error e => rw [h1] at h; exact (nomatch h)
  | ok q =>
    rw [h1] at h
    cases h2 : materialize v with
    | error e => rw [h2] at h; exact (nomatch h)
    | ok r => rw [h2] at h; cases h; exact ⟨q, r, rfl, rfl, rfl⟩
theorem mat_union {as : List PyTy} {s : STy} (h : materialize (.union as) = .ok s) :
    (∃ u t, as = [u, .noneT] ∧ materialize u = .ok t ∧ s = .option t) ∨
    (isOptionalArgs as = false ∧ ∃ ts, materializeL as = .ok ts ∧ s = .union ts) := by
  rw [materialize] at h
  by_cases ho : isOptionalArgs as = true
  · rw [if_pos ho] at h
    left
    unfold isOptionalArgs at ho
    split at ho
    · rename_i u b
      cases b <;> simp [PyTy.isNoneT] at ho
      simp only [materializeOpt, bind, Except.bind, pure, Except.pure] at h
      cases h1 : materialize u with
      | error e => rw [h1] at h; exact (nomatch h)
      | ok q => rw [h1] at h; cases h; exact ⟨u, q, rfl, h1, rfl⟩
    · exact (nomatch ho)
  · rw [if_neg ho] at h
    right
    refine ⟨by simpa using ho, ?_⟩
    simp only [bind, Except.bind, pure, Except.pure] at h
    cases h1 : materializeL as with
    | error e => rw [h1] at h; exact (nomatch h)
    | ok q => rw [h1] at h; cases h; exact ⟨q, rfl, rfl⟩
theorem mat_data {n : String} {fs : List Fld} {ver : Option VerInfo} {s : STy} (h : materialize (.data n fs ver) = .ok s) :
    ∃ t, materializeF fs = .ok t ∧ s = .struct n t (ver.map VerInfo.version) := by
  simp only [materialize, bind, Except.bind, pure, Except.pure] at h
  cases h1 : materializeF fs with
  | error e => rw [h1] at h; exact (nomatch h)
  | ok q => rw [h1] at h; cases h; exact ⟨q, rfl, rfl⟩
theorem matL_cons {a : PyTy} {as : List PyTy} {ts : List STy} (h : materializeL (a :: as) = .ok ts) :
    ∃ t us, materialize a = .ok t ∧ materializeL as = .ok us ∧ ts = t :: us := by
  simp only [materializeL, bind, Except.bind, pure, Except.pure] at h
  cases h1 : materialize a with
  | error e => rw [h1] at h; exact (nomatch h)
  | ok q =>
    rw [h1] at h
    cases h2 : materializeL as with
    | error e => rw [h2] at h; exact (nomatch h)
    | ok r => rw [h2] at h; cases h; exact ⟨q, r, rfl, rfl, rfl⟩

/-- which class has a given schema -/
theorem mat_prim_inv {ty : PyTy} {s : String} (h : materialize ty = .ok (.prim s)) :
    (ty = .int ∧ s = "int") ∨ (ty = .str ∧ s = "str") ∨ (ty = .bool ∧ s = "bool") ∨ (ty = .float ∧ s = "float") := by
  cases ty with
  | int => have := mat_int h; cases this; simp
  | str => have := mat_str h; cases this; simp
  | bool => have := mat_bool h; cases this; simp
  | float => have := mat_float h; cases this; simp
  | noneT => exact (mat_noneT h).elim
  | blob => exact (mat_blob h).elim
  | list => obtain ⟨_, _, h⟩ := mat_list h; exact (nomatch h)
  | tuple => obtain ⟨_, _, h⟩ := mat_tuple h; exact (nomatch h)
  | dict => obtain ⟨_, _, _, _, h⟩ := mat_dict h; exact (nomatch h)
  | union => rcases mat_union h with ⟨_, _, _, _, h⟩ | ⟨_, _, _, h⟩ <;> exact (nomatch h)
  | data => obtain ⟨_, _, h⟩ := mat_data h; exact (nomatch h)
  | enum => exact (nomatch mat_enum h)
  | literal => exact (nomatch mat_literal h)

theorem mat_list_inv {ty : PyTy} {t : STy} (h : materialize ty = .ok (.list t)) : ∃ a, ty = .list a ∧ materialize a = .ok t := by
  cases ty with
  | int => exact (nomatch mat_int h)
  | str => exact (nomatch mat_str h)
  | bool => exact (nomatch mat_bool h)
  | float => exact (nomatch mat_float h)
  | noneT => exact (mat_noneT h).elim
  | blob => exact (mat_blob h).elim
  | list a => obtain ⟨_, h1, h⟩ := mat_list h; cases h; exact ⟨a, rfl, h1⟩
  | tuple => obtain ⟨_, _, h⟩ := mat_tuple h; exact (nomatch h)
  | dict => obtain ⟨_, _, _, _, h⟩ := mat_dict h; exact (nomatch h)
  | union => rcases mat_union h with ⟨_, _, _, _, h⟩ | ⟨_, _, _, h⟩ <;> exact (nomatch h)
  | data => obtain ⟨_, _, h⟩ := mat_data h; exact (nomatch h)
  | enum => exact (nomatch mat_enum h)
  | literal => exact (nomatch mat_literal h)

theorem mat_tuple_inv {ty : PyTy} {ts : List STy} (h : materialize ty = .ok (.tuple ts)) :
    ∃ as, ty = .tuple as ∧ materializeL as = .ok ts := by
  cases ty with
  | int => exact (nomatch mat_int h)
  | str => exact (nomatch mat_str h)
  | bool => exact (nomatch mat_bool h)
  | float => exact (nomatch mat_float h)
  | noneT => exact (mat_noneT h).elim
  | blob => exact (mat_blob h).elim
  | list a => obtain ⟨_, h1, h⟩ := mat_list h; exact (nomatch h)
  | tuple as => obtain ⟨_, h1, h⟩ := mat_tuple h; cases h; exact ⟨as, rfl, h1⟩
  | dict => obtain ⟨_, _, _, _, h⟩ := mat_dict h; exact (nomatch h)
  | union => rcases mat_union h with ⟨_, _, _, _, h⟩ | ⟨_, _, _, h⟩ <;> exact (nomatch h)
  | data => obtain ⟨_, _, h⟩ := mat_data h; exact (nomatch h)
  | enum => exact (nomatch mat_enum h)
  | literal => exact (nomatch mat_literal h)

theorem mat_dict_inv {ty : PyTy} {k v : STy} (h : materialize ty = .ok (.dict k v)) :
    ∃ a b, ty = .dict a b ∧ materialize b = .ok v := by
  cases ty with
  | int => exact (nomatch mat_int h)
  | str => exact (nomatch mat_str h)
  | bool => exact (nomatch mat_bool h)
  | float => exact (nomatch mat_float h)
  | noneT => exact (mat_noneT h).elim
  | blob => exact (mat_blob h).elim
  | list a => obtain ⟨_, h1, h⟩ := mat_list h; exact (nomatch h)
  | tuple as => obtain ⟨_, h1, h⟩ := mat_tuple h; exact (nomatch h)
  | dict a b => obtain ⟨_, _, _, h1, h⟩ := mat_dict h; cases h; exact ⟨a, b, rfl, h1⟩
  | union => rcases mat_union h with ⟨_, _, _, _, h⟩ | ⟨_, _, _, h⟩ <;> exact (nomatch h)
  | data => obtain ⟨_, _, h⟩ := mat_data h; exact (nomatch h)
  | enum => exact (nomatch mat_enum h)
  | literal => exact (nomatch mat_literal h)

theorem mat_option_inv {ty : PyTy} {t : STy} (h : materialize ty = .ok (.option t)) :
    ∃ u, ty = .union [u, .noneT] ∧ materialize u = .ok t := by
  cases ty with
  | int => exact (nomatch mat_int h)
  | str => exact (nomatch mat_str h)
  | bool => exact (nomatch mat_bool h)
  | float => exact (nomatch mat_float h)
  | noneT => exact (mat_noneT h).elim
  | blob => exact (mat_blob h).elim
  | list a => obtain ⟨_, h1, h⟩ := mat_list h; exact (nomatch h)
  | tuple as => obtain ⟨_, h1, h⟩ := mat_tuple h; exact (nomatch h)
  | dict => obtain ⟨_, _, _, _, h⟩ := mat_dict h; exact (nomatch h)
  | union => rcases mat_union h with ⟨u, t, rfl, h1, h⟩ | ⟨_, _, _, h⟩
             · cases h; exact ⟨u, rfl, h1⟩
             · exact (nomatch h)
  | data => obtain ⟨_, _, h⟩ := mat_data h; exact (nomatch h)
  | enum => exact (nomatch mat_enum h)
  | literal => exact (nomatch mat_literal h)

theorem mat_enum_inv {ty : PyTy} {n : String} {vs : List (String × Val)} (h : materialize ty = .ok (.enum n vs)) : ty = .enum n vs := by
  cases ty with
  | int => exact (nomatch mat_int h)
  | str => exact (nomatch mat_str h)
  | bool => exact (nomatch mat_bool h)
  | float => exact (nomatch mat_float h)
  | noneT => exact (mat_noneT h).elim
  | blob => exact (mat_blob h).elim
  | list a => obtain ⟨_, h1, h⟩ := mat_list h; exact (nomatch h)
  | tuple as => obtain ⟨_, h1, h⟩ := mat_tuple h; exact (nomatch h)
  | dict => obtain ⟨_, _, _, _, h⟩ := mat_dict h; exact (nomatch h)
  | union => rcases mat_union h with ⟨_, _, _, _, h⟩ | ⟨_, _, _, h⟩ <;> exact (nomatch h)
  | data => obtain ⟨_, _, h⟩ := mat_data h; exact (nomatch h)
  | enum => cases mat_enum h; rfl
  | literal => exact (nomatch mat_literal h)

theorem mat_literal_inv {ty : PyTy} {vs : List Val} (h : materialize ty = .ok (.literal vs)) : ty = .literal vs := by
  cases ty with
  | int => exact (nomatch mat_int h)
  | str => exact (nomatch mat_str h)
  | bool => exact (nomatch mat_bool h)
  | float => exact (nomatch mat_float h)
  | noneT => exact (mat_noneT h).elim
  | blob => exact (mat_blob h).elim
  | list a => obtain ⟨_, h1, h⟩ := mat_list h; exact (nomatch h)
  | tuple as => obtain ⟨_, h1, h⟩ := mat_tuple h; exact (nomatch h)
  | dict => obtain ⟨_, _, _, _, h⟩ := mat_dict h; exact (nomatch h)
  | union => rcases mat_union h with ⟨_, _, _, _, h⟩ | ⟨_, _, _, h⟩ <;> exact (nomatch h)
  | data => obtain ⟨_, _, h⟩ := mat_data h; exact (nomatch h)
  | enum => exact (nomatch mat_enum h)
  | literal => cases mat_literal h; rfl

theorem mat_struct_inv {ty : PyTy} {n : String} {t : List (String × SFld)} {v : Option Int} (h : materialize ty = .ok (.struct n t v)) :
    ∃ fs ver, ty = .data n fs ver ∧ materializeF fs = .ok t ∧ v = ver.map VerInfo.version := by
  cases ty with
  | int => exact (nomatch mat_int h)
  | str => exact (nomatch mat_str h)
  | bool => exact (nomatch mat_bool h)
  | float => exact (nomatch mat_float h)
  | noneT => exact (mat_noneT h).elim
  | blob => exact (mat_blob h).elim
  | list a => obtain ⟨_, h1, h⟩ := mat_list h; exact (nomatch h)
  | tuple as => obtain ⟨_, h1, h⟩ := mat_tuple h; exact (nomatch h)
  | dict => obtain ⟨_, _, _, _, h⟩ := mat_dict h; exact (nomatch h)
  | union => rcases mat_union h with ⟨_, _, _, _, h⟩ | ⟨_, _, _, h⟩ <;> exact (nomatch h)
  | data n fs ver => obtain ⟨_, h1, h⟩ := mat_data h; cases h; exact ⟨fs, ver, rfl, h1, rfl⟩
  | enum => exact (nomatch mat_enum h)
  | literal => exact (nomatch mat_literal h)

/-! ## reflexivity -/

theorem styEqL_refl {ts : List STy} (h : ∀ t ∈ ts, styEq t t = true) : styEqL ts ts = true := by
  induction ts with
  | nil => rfl
  | cons t ts ih =>
    simp only [styEqL, Bool.and_eq_true]
    exact ⟨h t (by simp), ih (fun u hu => h u (List.mem_cons_of_mem _ hu))⟩

theorem dictEq_refl {vs : List (String × Val)} (hn : (vs.map Prod.fst).Nodup) (h : ∀ k v, (k, v) ∈ vs → pyEq v v = true) :
    dictEq vs vs = true := by
  simp only [dictEq, pyEq, Bool.and_eq_true, beq_iff_eq, true_and]
  exact (pyEqD_iff vs vs).2 (fun k v hm => ⟨v, dget_of_mem hn hm, h k v hm⟩)

theorem setEq_refl {vs : List Val} (h : ∀ v ∈ vs, pyEq v v = true) : setEq vs vs = true := by
  have : vs.all (pyMem · vs) = true := List.all_eq_true.2 (fun v hv => List.any_eq_true.2 ⟨v, hv, h v hv⟩)
  simp [setEq, this]

theorem styEqD_refl {gs : List (String × SFld)} (hn : (gs.map Prod.fst).Nodup) : ∀ fs : List (String × SFld),
    (∀ k f, (k, f) ∈ fs → (k, f) ∈ gs ∧ styEq f.type f.type = true ∧ pyEq f.dflt f.dflt = true) → styEqD fs gs = true
  | [], _ => rfl
  | (k, f) :: fs, h => by
    obtain ⟨h1, h2, h3⟩ := h k f (by simp)
    rw [styEqD, Bool.and_eq_true]
    refine ⟨?_, styEqD_refl hn fs (fun k g hg => h k g (List.mem_cons_of_mem _ hg))⟩
    rw [styEqP, dget_of_mem hn h1]
    cases f
    simp only [sfldEq, Bool.and_eq_true, beq_iff_eq]
    exact ⟨⟨⟨⟨rfl, h2⟩, h3⟩, rfl⟩, rfl⟩

theorem styEq_refl {t : STy} (h : SelfT t) : styEq t t = true := by
  induction h with
  | prim => simp [styEq]
  | list _ ih => simpa [styEq] using ih
  | tuple _ ih => simpa [styEq] using styEqL_refl ih
  | dict _ _ ih1 ih2 => simp [styEq, ih1, ih2]
  | union _ ih => simpa [styEq] using styEqL_refl ih
  | enum h1 h2 => simp [styEq, dictEq_refl h1 h2]
  | literal h1 => simpa [styEq] using setEq_refl h1
  | struct h1 h2 h3 ih =>
    simp [styEq, styEqD_refl h1 _ (fun k f hm => ⟨hm, ih k f hm, h3 k f hm⟩)]
  | option _ ih => simpa [styEq] using ih
  | nothing => rfl

theorem subZip_refl {ts : List STy} (h : ∀ t ∈ ts, isSubtype t t = true) : subZip ts ts = true := by
  induction ts with
  | nil => rw [subZip] <;> simp
  | cons t ts ih =>
    rw [subZip, Bool.and_eq_true]
    exact ⟨h t (by simp), ih (fun u hu => h u (List.mem_cons_of_mem _ hu))⟩

theorem subFields_iff (gs : List (String × SFld)) : ∀ fs : List (String × SFld), subFields fs gs = true ↔
    ∀ k f, (k, f) ∈ fs → ∃ g, dget gs k = some g ∧ isSubtype g.type f.type = true
  | [] => by simp [subFields]
  | (k, f) :: fs => by
    rw [subFields, Bool.and_eq_true, subFields_iff gs fs]
    constructor
    · rintro ⟨h1, h2⟩ k' f' hm
      rcases List.mem_cons.1 hm with hm | hm
      · cases hm
        split at h1
        · rename_i g hg; exact ⟨g, hg, h1⟩
        · exact (nomatch h1)
      · exact h2 k' f' hm
    · intro h
      refine ⟨?_, fun k' f' hm => h k' f' (List.mem_cons_of_mem _ hm)⟩
      obtain ⟨g, h1, h2⟩ := h k f (by simp)
      split
      · rename_i g' hg; rw [h1] at hg; cases hg; exact h2
      · rename_i hg; rw [h1] at hg; exact (nomatch hg)

/-- a type is a subtype of itself -/
theorem isSubtype_refl {t : STy} (h : SelfT t) : isSubtype t t = true := by
  have h0 := styEq_refl h
  induction h with
  | prim => simp [isSubtype]
  | list _ ih => simp [isSubtype, h0]
  | tuple _ ih => simp [isSubtype, h0]
  | dict _ _ ih1 ih2 => simp [isSubtype, h0]
  | union _ ih => simp [isSubtype, h0]
  | enum h1 h2 =>
    simp only [isSubtype, beq_self_eq_true, Bool.true_and, List.all_eq_true]
    rintro ⟨k, v⟩ hm
    rw [dget_of_mem h1 hm]
    exact h2 k v hm
  | literal h1 =>
    simp only [isSubtype, List.all_eq_true]
    exact fun v hv => List.any_eq_true.2 ⟨v, hv, h1 v hv⟩
  | struct h1 h2 h3 ih =>
    simp only [isSubtype]
    exact (subFields_iff _ _).2 (fun k f hm => ⟨f, dget_of_mem h1 hm, ih k f hm (styEq_refl (h2 k f hm))⟩)
  | option h1 ih => simp only [isSubtype]; exact ih (styEq_refl h1)
  | nothing => simp [isSubtype]

/-! ## equal flat types are subtypes -/

theorem styEq_sub {a : STy} (h : FlatS a) : ∀ b, styEq a b = true → isSubtype a b = true := by
  induction h with
  | prim => intro b hb; cases b <;> simp [styEq] at hb; simp [isSubtype, hb]
  | list _ ih => intro b hb; cases b <;> simp only [styEq, Bool.false_eq_true] at hb; simp [isSubtype, ih _ hb]
  | tuple _ ih => intro b hb; cases b <;> simp only [styEq, Bool.false_eq_true] at hb; simp [isSubtype, styEq, hb]
  | dict _ ih => intro b hb; cases b <;> simp only [styEq, Bool.false_eq_true] at hb; simp [isSubtype, styEq, hb]
  | enum h1 =>
    intro b hb
    cases b <;> simp only [styEq, Bool.false_eq_true, Bool.and_eq_true, beq_iff_eq] at hb
    obtain ⟨rfl, hb⟩ := hb
    simp only [isSubtype, beq_self_eq_true, Bool.true_and, List.all_eq_true]
    simp only [dictEq, pyEq, Bool.and_eq_true, beq_iff_eq] at hb
    rintro ⟨k, v⟩ hm
    obtain ⟨w, h2, h3⟩ := (pyEqD_iff _ _).1 hb.2 k v hm
    simp only [h2]
    exact pyEq_symm_scalar (h1 k v hm) h3
  | literal =>
    intro b hb
    cases b <;> simp only [styEq, Bool.false_eq_true] at hb
    simp only [setEq, Bool.and_eq_true] at hb
    simp only [isSubtype]
    exact hb.1

theorem styEqL_zip {ts : List STy} (hf : ∀ t ∈ ts, FlatS t) : ∀ us, styEqL ts us = true → subZip ts us = true ∧ ts.length = us.length := by
  induction ts with
  | nil => intro us h; cases us <;> simp [styEqL] at h; exact ⟨by rw [subZip] <;> simp, rfl⟩
  | cons t ts ih =>
    intro us h
    cases us with
    | nil => simp [styEqL] at h
    | cons u us =>
      simp only [styEqL, Bool.and_eq_true] at h
      obtain ⟨h1, h2⟩ := ih (fun t ht => hf t (List.mem_cons_of_mem _ ht)) us h.2
      rw [subZip, Bool.and_eq_true]
      exact ⟨⟨styEq_sub (hf t (by simp)) u h.1, h1⟩, by simp [h2]⟩

/-! ## loading -/

/-- elements of three lists of one length agree -/
def KeptL (xs ys zs : List Val) : Prop := ys.length = xs.length ∧ zs.length = xs.length ∧
  ∀ (i : Nat) a b c, xs[i]? = some a → ys[i]? = some b → zs[i]? = some c → Kept a b c

theorem keptL_nil : KeptL [] [] [] := ⟨rfl, rfl, by intro i a b c h; simp at h⟩

theorem keptL_cons {x y z : Val} {xs ys zs : List Val} (h : Kept x y z) (hs : KeptL xs ys zs) : KeptL (x :: xs) (y :: ys) (z :: zs) := by
  refine ⟨by simp [hs.1], by simp [hs.2.1], ?_⟩
  intro i a b c h1 h2 h3
  cases i with
  | zero => simp at h1 h2 h3; subst h1 h2 h3; exact h
  | succ i => exact hs.2.2 i a b c (by simpa using h1) (by simpa using h2) (by simpa using h3)

theorem evsLike_refl : ∀ es : List Ev, EvsLike es es
  | [] => trivial
  | _ :: es => ⟨.same, evsLike_refl es⟩

theorem evsLike_append : ∀ {as bs cs ds : List Ev}, EvsLike as bs → EvsLike cs ds → EvsLike (as ++ cs) (bs ++ ds)
  | [], [], _, _, _, h => h
  | _ :: as, _ :: bs, _, _, h1, h2 => ⟨h1.1, evsLike_append h1.2 h2⟩
  | [], _ :: _, _, _, h, _ => h.elim
  | _ :: _, [], _, _, h, _ => h.elim

/-- two loads of one document agree on what it contains, and find the same schedules and blobs -/
def KeptR (x : Val) (r r' : Val × List Ev) : Prop := Kept x r.1 r'.1 ∧ EvsLike r.2 r'.2

theorem keptR_refl (x : Val) {r : Val × List Ev} (h : ∀ n kvs, r.1 ≠ .inst n kvs) : KeptR x r r := ⟨.refl h, evsLike_refl _⟩

theorem primBranches_not_inst {e : Ext} {wi wf ws : Bool} {x : Val} {r : Val × List Ev} (h : primBranches e wi wf ws x = .ok (some r)) :
    ∀ n kvs, r.1 ≠ .inst n kvs := by
  rintro n kvs hr
  unfold primBranches at h
  simp only [toFloat, strToFloat, strToInt, bind, Except.bind, pure, Except.pure, throw, throwThe, MonadExceptOf.throw] at h
  repeat' split at h
  all_goals first
    | (cases h; done)
    | (cases h; cases hr; done)
    | (rename_i a _ b
       repeat' split at b
       all_goals first | (cases b; done) | (cases b; cases h; cases hr; done))

theorem schedHook_not_inst {e : Ext} {b : Bool} {path : String} {x : Val} {r : Val × List Ev} (h : schedHook e b path x = some (.ok r)) :
    ∀ n kvs, r.1 ≠ .inst n kvs := by
  rintro n kvs hr
  unfold schedHook at h
  split at h
  · split at h
    · simp only [Option.some.injEq, bind, Except.bind, pure, Except.pure] at h
      repeat' split at h
      all_goals first
        | (cases h; done)
        | (cases h; cases hr; done)
    · exact (nomatch h)
  · exact (nomatch h)

/-- scalars are not loaded as dataclass instances -/
theorem prim_not_inst {c : DCfg} {t : PyTy} (ht : t = .int ∨ t = .float ∨ t = .str ∨ t = .bool) {ig : Bool} {path : String} {x : Val}
    {r : Val × List Ev} (h : fromDict c t ig path x = .ok r) : ∀ n kvs, r.1 ≠ .inst n kvs := by
  have hp : ∀ wi wf ws x, (do match ← primBranches c.ext wi wf ws x with
      | some r => return r
      | .none => throw .deserType : Res) = .ok r → ∀ n kvs, r.1 ≠ .inst n kvs := by
    intro wi wf ws x h
    simp only [bind, Except.bind, pure, Except.pure, throw, throwThe, MonadExceptOf.throw] at h
    cases h1 : primBranches c.ext wi wf ws x with
    | error e => rw [h1] at h; exact (nomatch h)
    | ok q =>
      rw [h1] at h
      cases q with
      | none => exact (nomatch h)
      | some q =>
        cases h
        exact primBranches_not_inst h1
  rcases ht with rfl | rfl | rfl | rfl <;> simp only [fromDict] at h
  · cases h1 : schedHook c.ext true path x with
    | some q => rw [h1] at h; subst h; exact schedHook_not_inst h1
    | none =>
      rw [h1] at h
      cases x <;> first | (cases h; exact nofun) | exact hp _ _ _ _ h
  · cases h1 : schedHook c.ext false path x with
    | some q => rw [h1] at h; subst h; exact schedHook_not_inst h1
    | none =>
      rw [h1] at h
      cases x with
      | flt f => cases h; exact nofun
      | _ => exact hp _ _ _ _ h
  · cases x <;> first | (cases h; exact nofun) | exact hp _ _ _ _ h
  · cases x <;> cases h
    exact nofun

theorem mapIdx_mono {f g : Nat → Val → Res} : ∀ (xs : List Val) (i : Nat) (r : List Val × List Ev),
    (∀ j x r, x ∈ xs → f j x = .ok r → ∃ r', g j x = .ok r' ∧ KeptR x r r') → mapIdx f i xs = .ok r →
    ∃ r', mapIdx g i xs = .ok r' ∧ KeptL xs r.1 r'.1 ∧ EvsLike r.2 r'.2
  | [], _, r, _, hr => by
    simp only [mapIdx] at hr
    cases hr
    exact ⟨_, rfl, keptL_nil, trivial⟩
  | x :: xs, i, r, h, hr => by
    simp only [mapIdx, bind, Except.bind, pure, Except.pure] at hr ⊢
    cases h1 : f i x with
    | error e => rw [h1] at hr; exact (nomatch hr)
    | ok q =>
      rw [h1] at hr
      obtain ⟨q', hq, hk⟩ := h i x q (by simp) h1
      cases h2 : mapIdx f (i + 1) xs with
      | error e => rw [h2] at hr; exact (nomatch hr)
      | ok w =>
        obtain ⟨w', hw, hk'⟩ := mapIdx_mono xs (i + 1) w (fun j y r hy => h j y r (List.mem_cons_of_mem _ hy)) h2
        rw [hq, hw]
        rw [h2] at hr
        cases hr
        exact ⟨_, rfl, keptL_cons hk.1 hk'.1, evsLike_append hk.2 hk'.2⟩

theorem mapItems_mono {f g : String → Val → Res} : ∀ (xs : List (String × Val)) (r : List (String × Val) × List Ev),
    (∀ k x r, (k, x) ∈ xs → f k x = .ok r → ∃ r', g k x = .ok r' ∧ KeptR x r r') → mapItems f xs = .ok r →
    ∃ r', mapItems g xs = .ok r' ∧ dkeys r.1 = dkeys xs ∧ dkeys r'.1 = dkeys xs ∧
      KeptL (xs.map Prod.snd) (r.1.map Prod.snd) (r'.1.map Prod.snd) ∧ EvsLike r.2 r'.2
  | [], r, _, hr => by
    simp only [mapItems] at hr
    cases hr
    exact ⟨_, rfl, rfl, rfl, keptL_nil, trivial⟩
  | (k, x) :: xs, r, h, hr => by
    simp only [mapItems, bind, Except.bind, pure, Except.pure] at hr ⊢
    cases h1 : f k x with
    | error e => rw [h1] at hr; exact (nomatch hr)
    | ok q =>
      rw [h1] at hr
      obtain ⟨q', hq, hk⟩ := h k x q (by simp) h1
      cases h2 : mapItems f xs with
      | error e => rw [h2] at hr; exact (nomatch hr)
      | ok w =>
        obtain ⟨w', hw, a1, a2, hk'⟩ := mapItems_mono xs w (fun j y r hy => h j y r (List.mem_cons_of_mem _ hy)) h2
        rw [hq, hw]
        rw [h2] at hr
        cases hr
        refine ⟨_, rfl, ?_, ?_, keptL_cons hk.1 hk'.1, evsLike_append hk.2 hk'.2⟩
        · simpa [dkeys] using a1
        · simpa [dkeys] using a2

/-- the member found has an equal value -/
theorem enumByValue_inv {c : String} {v r : Val} {ms : List (String × Val)} (h : enumByValue c v ms = .ok r) :
    ∃ n w, (n, w) ∈ ms ∧ pyEq v w = true ∧ r = .enm c n w := by
  induction ms with
  | nil => simp [enumByValue] at h
  | cons m ms ih =>
    obtain ⟨n, w⟩ := m
    unfold enumByValue at h
    by_cases hv : pyEq v w = true
    · rw [if_pos hv] at h
      cases h
      exact ⟨n, w, by simp, hv, rfl⟩
    · rw [if_neg hv] at h
      obtain ⟨n', w', h1, h2, h3⟩ := ih h
      exact ⟨n', w', List.mem_cons_of_mem _ h1, h2, h3⟩

theorem enumByValue_of {c : String} {v : Val} {ms : List (String × Val)} {n : String} {w : Val} (h : (n, w) ∈ ms)
    (hw : pyEq v w = true) : ∃ r, enumByValue c v ms = .ok r := by
  induction ms with
  | nil => exact (nomatch h)
  | cons m ms ih =>
    obtain ⟨n', w'⟩ := m
    unfold enumByValue
    by_cases hv : pyEq v w' = true
    · rw [if_pos hv]; exact ⟨_, rfl⟩
    · rw [if_neg hv]
      rcases List.mem_cons.1 h with h | h
      · cases h; exact absurd hw hv
      · exact ih h

theorem toInt_of_eqv {i : Int} {f : Flt} (h : (Flt.fin i).eqv f = true) : f.toInt = .ok i := by
  cases f <;> simp [Flt.eqv] at h
  subst h
  simp [Flt.toInt]

/-- whatever loads as an int loads as a float, if ints in the document are not too large -/
theorem load_int_float (c : DCfg) (ig : Bool) (path : String) (x : Val) (r : Val × List Ev) (hx : IntsFit x)
    (h : fromDict c .int ig path x = .ok r) : ∃ r', fromDict c .float ig path x = .ok r' ∧ KeptR x r r' := by
  cases x with
  | int i =>
    obtain ⟨f, hf⟩ := hx i .refl
    simp only [fromDict, schedHook] at h
    cases h
    exact ⟨(.flt f, []), by simp only [fromDict, schedHook, primBranches, toFloat, hf, bind, Except.bind, pure, Except.pure]; rfl, .round hf, trivial⟩
  | bool b =>
    simp only [fromDict, schedHook] at h
    cases h
    refine ⟨(.flt (.fin (if b then 1 else 0)), []), ?_, .same nofun ?_, trivial⟩
    · have h0 : floatOfInt 0 = .ok (.fin 0) := by simp [floatOfInt, roundNat]
      have h1 : floatOfInt 1 = .ok (.fin 1) := by simp [floatOfInt, roundNat]
      cases b
      · simp [fromDict, schedHook, primBranches, toFloat, h0, bind, Except.bind, pure, Except.pure]
      · simp [fromDict, schedHook, primBranches, toFloat, h1, bind, Except.bind, pure, Except.pure]
    · simp [schemaVal, pyEq, Val.num?, Flt.eqv]
  | flt f =>
    simp only [fromDict, schedHook, primBranches, bind, Except.bind, pure, Except.pure] at h
    refine ⟨(.flt f, []), by simp only [fromDict, schedHook], ?_⟩
    cases h1 : f.toInt with
    | error e => simp [h1] at h
    | ok i =>
      simp only [h1, if_true] at h
      by_cases he : (Flt.fin (i : Rat)).eqv f = true
      · simp only [he, if_true] at h
        cases h
        exact ⟨.trunc h1, trivial⟩
      · simp [he, throw, throwThe, MonadExceptOf.throw] at h
  | str s =>
    simp only [fromDict, schedHook] at h ⊢
    by_cases hs : '@' ∈ s.toList
    · simp only [if_pos hs, bind, Except.bind, pure, Except.pure] at h ⊢
      cases h1 : c.ext.schedAt0 s with
      | error e => rw [h1] at h; exact (nomatch h)
      | ok f =>
        rw [h1] at h
        refine ⟨_, rfl, ?_⟩
        simp only [if_true] at h
        cases h2 : f.toInt with
        | error e => rw [h2] at h; exact (nomatch h)
        | ok i => rw [h2] at h; cases h; exact ⟨.trunc h2, .float, trivial⟩
    · simp only [if_neg hs, primBranches, bind, Except.bind, pure, Except.pure, strToInt, strToFloat] at h ⊢
      cases h1 : c.ext.parseFloat s with
      | none => rw [h1] at h; exact (nomatch h)
      | some f =>
        simp only [h1] at h
        refine ⟨_, rfl, ?_⟩
        cases h2 : f.toInt with
        | error e => simp [h2] at h
        | ok i =>
          simp only [h2] at h
          by_cases he : (Flt.fin (i : Rat)).eqv f = true
          · simp [he] at h
            subst h
            exact ⟨.trunc h2, trivial⟩
          · simp [he, throw, throwThe, MonadExceptOf.throw] at h
  | none => exact (nomatch h)
  | list xs => exact (nomatch h)
  | tup xs => exact (nomatch h)
  | dict xs => exact (nomatch h)
  | ntup n kvs => cases kvs <;> exact (nomatch h)
  | inst n kvs => exact (nomatch h)
  | enm a b d => exact (nomatch h)
  | ser a b => exact (nomatch h)

end HS
