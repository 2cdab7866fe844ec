import Verif.Props.Leaf

/-!
# Numbers, strings, None and lists in unions: C09
-/

namespace HS

/-- None, numbers and strings -/
def Val.isPrim : Val → Bool
  | .none | .bool _ | .int _ | .flt _ | .str _ => true
  | _ => false

/-- C09 is false for every union (other than an Optional of one type) and every number, string and None: what is loaded, if
anything, is never the value that was written. An int becomes a float, a float an int, a string a number; everything else
is rejected. -/
theorem C09_primitive_false (dc : DCfg) (ig : Bool) (path : String) (as : List PyTy) (hopt : isOptionalArgs as = false)
    (v : Val) (hv : v.isPrim = true) (w : Val) (es : List Ev) (h : fromDict dc (.union as) ig path v = .ok (w, es)) :
    w ≠ v ∧ match v with
      | .bool _ | .int _ => (∃ f, w = .flt f) ∧ as.any PyTy.isFloat = true
      | .flt _ => (∃ i, w = .int i) ∧ as.any PyTy.isInt = true
      | .str _ => ((∃ f, w = .flt f) ∧ as.any PyTy.isFloat = true) ∨ ((∃ i, w = .int i) ∧ as.any PyTy.isInt = true)
      | _ => False := by
  simp only [fromDict, hopt, Bool.false_eq_true, if_false, bind, Except.bind] at h
  cases v with
  | none => simp [primBranches, throw, throwThe, MonadExceptOf.throw] at h
  | bool b =>
    cases hf : as.any PyTy.isFloat <;> simp only [hf, primBranches, toFloat, bind, Except.bind, pure, Except.pure, throw, throwThe, MonadExceptOf.throw, if_true, Bool.false_eq_true, if_false] at h
    · exact (nomatch h)
    · cases hi : floatOfInt (if b = true then 1 else 0) <;> rw [hi] at h <;> cases h
      exact ⟨fun e => (nomatch e), ⟨_, rfl⟩, rfl⟩
  | int i =>
    cases hf : as.any PyTy.isFloat <;> simp only [hf, primBranches, toFloat, bind, Except.bind, pure, Except.pure, throw, throwThe, MonadExceptOf.throw, if_true, Bool.false_eq_true, if_false] at h
    · exact (nomatch h)
    · cases hi : floatOfInt i <;> rw [hi] at h <;> cases h
      exact ⟨fun e => (nomatch e), ⟨_, rfl⟩, rfl⟩
  | flt x =>
    cases hf : as.any PyTy.isInt <;> simp only [hf, primBranches, bind, Except.bind, pure, Except.pure, throw, throwThe, MonadExceptOf.throw, if_true, Bool.false_eq_true, if_false] at h
    · exact (nomatch h)
    · cases hi : x.toInt with
      | error e => rw [hi] at h; exact (nomatch h)
      | ok i =>
        rw [hi] at h
        simp only at h
        cases hq : (Flt.fin i).eqv x <;> simp only [hq, if_true, Bool.false_eq_true, if_false] at h <;> cases h
        exact ⟨fun e => (nomatch e), ⟨_, rfl⟩, rfl⟩
  | str s =>
    cases hf : as.any PyTy.isFloat with
    | true =>
      simp only [hf, primBranches, strToFloat, bind, Except.bind, pure, Except.pure, if_true] at h
      cases hp : dc.ext.parseFloat s <;> rw [hp] at h <;> cases h
      exact ⟨fun e => (nomatch e), .inl ⟨⟨_, rfl⟩, rfl⟩⟩
    | false =>
      cases hi : as.any PyTy.isInt with
      | false =>
        simp only [hf, hi, primBranches, throw, throwThe, MonadExceptOf.throw, Bool.false_eq_true, if_false] at h
        exact (nomatch h)
      | true =>
        simp only [hf, hi, primBranches, strToInt, bind, Except.bind, pure, Except.pure, throw, throwThe, MonadExceptOf.throw, if_true, Bool.false_eq_true, if_false] at h
        cases hp : dc.ext.parseFloat s with
        | none => rw [hp] at h; exact (nomatch h)
        | some x =>
          rw [hp] at h
          simp only at h
          cases hx : x.toInt with
          | error e => rw [hx] at h; exact (nomatch h)
          | ok i =>
            rw [hx] at h
            simp only at h
            cases hq : (Flt.fin i).eqv x <;> simp only [hq, if_true, Bool.false_eq_true, if_false] at h <;> cases h
            exact ⟨fun e => (nomatch e), .inr ⟨⟨_, rfl⟩, rfl⟩⟩
  | _ => exact (nomatch hv)

/-- C09 is false for lists: no list is accepted in the place of a union, whatever the alternatives are. -/
theorem C09_list_false (dc : DCfg) (ig : Bool) (path : String) (as : List PyTy) (hopt : isOptionalArgs as = false)
    (xs : List Val) : ∃ e, fromDict dc (.union as) ig path (.list xs) = .error e := by
  simp only [fromDict, hopt, Bool.false_eq_true, if_false, bind, Except.bind, primBranches]
  split <;> exact ⟨_, rfl⟩

/-- a union of four types, with the values 5, 2.5, 2.0 and None, and a list -/
example : let u : List PyTy := [.int, .float, .str, .list .int]
    isOptionalArgs u = false ∧
    (fromDict (Ex.world.dcfg false false) (.union u) false "" (.int 5)).toOption.isSome = true ∧
    (match fromDict (Ex.world.dcfg false false) (.union [.int, .str]) false "" (.flt (.fin 2)) with
      | .ok (.int 2, []) => true | _ => false) = true ∧
    (match fromDict (Ex.world.dcfg false false) (.union u) false "" (.flt (.fin (5 / 2))) with
      | .error .deserValue => true | _ => false) = true ∧
    fromDict (Ex.world.dcfg false false) (.union u) false "" .none = .error .deserValue ∧
    fromDict (Ex.world.dcfg false false) (.union u) false "" (.list [.int 1]) = .error .attributeError := by
  refine ⟨rfl, ?_, ?_, ?_, rfl, rfl⟩
  all_goals decide +kernel

end HS
