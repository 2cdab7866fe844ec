import Verif.Model.SchemaFile
/-!
# C32: schema files round trip
-/
namespace HS

mutual
/-- only the types that `schema_from_namedtuple` knows -/
def STy.supported : STy → Bool
  | .prim _ | .enum _ _ | .literal _ => true
  | .list t | .option t => t.supported
  | .struct _ fs _ => supportedF fs
  | .tuple _ | .dict _ _ | .union _ | .nothing => false
termination_by structural x => x
def supportedF : List (String × SFld) → Bool
  | [] => true
  | f :: fs => supportedP f && supportedF fs
termination_by structural x => x
def supportedP : String × SFld → Bool
  | (_, f) => supportedS f
termination_by structural x => x
def supportedS : SFld → Bool
  | .mk _ t _ _ _ => t.supported
termination_by structural x => x
end

mutual
/-- the schema without docstrings, with its values as they come back from the file -/
def STy.reload : STy → STy
  | .prim s => .prim s
  | .list t => .list t.reload
  | .option t => .option t.reload
  | .enum n vs => .enum n (ronStructD vs)
  | .literal vs => .literal (ronStructL vs)
  | .struct n fs v => .struct n (reloadF fs) v
  | .tuple ts => .tuple ts
  | .dict k v => .dict k v
  | .union ts => .union ts
  | .nothing => .nothing
termination_by structural x => x
def reloadF : List (String × SFld) → List (String × SFld)
  | [] => []
  | f :: fs => reloadP f :: reloadF fs
termination_by structural x => x
def reloadP : String × SFld → String × SFld
  | (k, f) => (k, reloadS k f)
termination_by structural x => x
def reloadS (k : String) : SFld → SFld
  | .mk _ t d h _ => .mk k t.reload (ronStruct d) h .none
termination_by structural x => x
end

mutual
theorem fromNT_obj : ∀ s : STy, fromNT (ronStruct s.obj) = if s.supported then .ok s.reload else .error .valueError
  | .prim s => by
    simp [STy.obj, ronStruct, ronStructD, ronStructP, fromNT, ntStr, ntAttr, dget, STy.supported, STy.reload, bind, Except.bind,
      pure, Except.pure]
  | .list t => by
    have ih := fromNT_obj t
    simp only [STy.obj, ronStruct, ronStructD, ronStructP]
    rw [fromNT]
    simp only [show ("List" = "Primitive") = False by decide, if_false, if_true, dget]
    split
    · rename_i v hv
      cases hv
      rw [ih, STy.supported, STy.reload]
      by_cases hs : t.supported = true
      · rw [if_pos hs, if_pos hs]; rfl
      · rw [if_neg hs, if_neg hs]; rfl
    · rename_i hv; exact (nomatch hv)
  | .option t => by
    have ih := fromNT_obj t
    simp only [STy.obj, ronStruct, ronStructD, ronStructP]
    rw [fromNT]
    simp only [show ("Option" = "Primitive") = False by decide, show ("Option" = "List") = False by decide,
      show ("Option" = "Struct") = False by decide, if_false, if_true, dget]
    split
    · rename_i v hv
      cases hv
      rw [ih, STy.supported, STy.reload]
      by_cases hs : t.supported = true
      · rw [if_pos hs, if_pos hs]; rfl
      · rw [if_neg hs, if_neg hs]; rfl
    · rename_i hv; exact (nomatch hv)
  | .struct n fs v => by
    have ih := fromNTF_obj fs
    simp only [STy.obj, ronStruct, ronStructD, ronStructP]
    rw [fromNT]
    simp only [show ("Struct" = "Primitive") = False by decide, show ("Struct" = "List") = False by decide,
      if_false, if_true, dget]
    split
    · rename_i v hv
      cases hv
      rw [ih, STy.supported, STy.reload]
      by_cases hs : supportedF fs = true
      · rw [if_pos hs, if_pos hs]
        cases v <;> simp [bind, Except.bind, pure, Except.pure, ntStr, ntVersion, ntAttr, dget, ronStruct]
      · rw [if_neg hs, if_neg hs]; rfl
    · rename_i hv
      exact absurd rfl (hv _)
  | .enum n vs => by
    simp [STy.obj, ronStruct, ronStructD, ronStructP, fromNT, ntStr, ntAttr, dget, STy.supported, STy.reload, bind, Except.bind,
      pure, Except.pure]
  | .literal vs => by
    simp [STy.obj, ronStruct, ronStructD, ronStructP, fromNT, ntStr, ntAttr, dget, STy.supported, STy.reload, bind, Except.bind,
      pure, Except.pure]
  | .tuple ts => by simp [STy.obj, ronStruct, fromNT, STy.supported]
  | .dict k v => by simp [STy.obj, ronStruct, fromNT, STy.supported]
  | .union ts => by simp [STy.obj, ronStruct, fromNT, STy.supported]
  | .nothing => by simp [STy.obj, ronStruct, fromNT, STy.supported]
termination_by structural x => x
theorem fromNTF_obj : ∀ fs : List (String × SFld),
    fromNTF (ronStructD (objF fs)) = if supportedF fs then .ok (reloadF fs) else .error .valueError
  | [] => by simp [objF, ronStructD, fromNTF, supportedF, reloadF]
  | f :: fs => by
    have ih := fromNTF_obj fs
    have ih1 := fromNTF_objP f (ronStructD (objF fs))
    rw [objF, ronStructD, ih1, ih, supportedF, reloadF]
    by_cases h1 : supportedP f = true
    · by_cases h2 : supportedF fs = true
      · simp [h1, h2, bind, Except.bind, pure, Except.pure]
      · simp [h1, h2, bind, Except.bind]
    · simp [h1]
termination_by structural x => x
theorem fromNTF_objP : ∀ (f : String × SFld) (rest : List (String × Val)),
    fromNTF (ronStructP (objP f) :: rest) = if supportedP f then (do return reloadP f :: (← fromNTF rest)) else .error .valueError
  | (k, f), rest => by
    have ih := fromNTF_objS f k rest
    rw [objP, ronStructP, ih, supportedP, reloadP]
termination_by structural x => x
theorem fromNTF_objS : ∀ (f : SFld) (k : String) (rest : List (String × Val)),
    fromNTF ((k, ronStruct f.obj) :: rest) = if supportedS f then (do return (k, reloadS k f) :: (← fromNTF rest)) else .error .valueError
  | .mk n t d h doc, k, rest => by
    have ih := fromNT_obj t
    simp only [SFld.obj, ronStruct, ronStructD, ronStructP]
    rw [fromNTF]
    split
    · rename_i t' ht
      simp only [dget] at ht
      have ht' : some (ronStruct t.obj) = some t' := ht
      cases ht'
      rw [ih, supportedS, reloadS]
      by_cases hs : t.supported = true
      · rw [if_pos hs, if_pos hs]
        simp [bind, Except.bind, pure, Except.pure, ntAttr, ntBool, dget, ronStruct]
      · rw [if_neg hs, if_neg hs]; rfl
    · rename_i hv; exact (nomatch hv)
termination_by structural x => x
end

/-! ## values that the file preserves -/

mutual
/-- no dataclass instance inside -/
def NoInst : Val → Prop
  | .list xs => NoInstL xs
  | .tup xs => NoInstL xs
  | .dict kvs => NoInstD kvs
  | .ntup _ kvs => NoInstD kvs
  | .inst _ _ => False
  | _ => True
termination_by structural x => x
def NoInstL : List Val → Prop
  | [] => True
  | x :: xs => NoInst x ∧ NoInstL xs
termination_by structural x => x
def NoInstD : List (String × Val) → Prop
  | [] => True
  | x :: xs => NoInstP x ∧ NoInstD xs
termination_by structural x => x
def NoInstP : String × Val → Prop
  | (_, v) => NoInst v
termination_by structural x => x
end

mutual
theorem ronStruct_id : ∀ v : Val, NoInst v → ronStruct v = v
  | .list xs, h => by rw [ronStruct, ronStructL_id xs h]
  | .tup xs, h => by rw [ronStruct, ronStructL_id xs h]
  | .dict kvs, h => by rw [ronStruct, ronStructD_id kvs h]
  | .ntup _ kvs, h => by rw [ronStruct, ronStructD_id kvs h]
  | .inst _ _, h => h.elim
  | .none, _ | .bool _, _ | .int _, _ | .flt _, _ | .str _, _ | .enm _ _ _, _ | .ser _ _, _ => by simp [ronStruct]
termination_by structural x => x
theorem ronStructL_id : ∀ xs : List Val, NoInstL xs → ronStructL xs = xs
  | [], _ => rfl
  | x :: xs, h => by rw [ronStructL, ronStruct_id x h.1, ronStructL_id xs h.2]
termination_by structural x => x
theorem ronStructD_id : ∀ xs : List (String × Val), NoInstD xs → ronStructD xs = xs
  | [], _ => rfl
  | x :: xs, h => by rw [ronStructD, ronStructP_id x h.1, ronStructD_id xs h.2]
termination_by structural x => x
theorem ronStructP_id : ∀ x : String × Val, NoInstP x → ronStructP x = x
  | (k, v), h => by rw [ronStructP, ronStruct_id v h]
termination_by structural x => x
end

mutual
/-- no dataclass instance among the defaults, enum values and Literal values of a class -/
def PlainTy : PyTy → Prop
  | .list a => PlainTy a
  | .tuple as => PlainTyL as
  | .dict k v => PlainTy k ∧ PlainTy v
  | .union as => PlainTyL as
  | .data _ fs _ => PlainTyF fs
  | .enum _ ms => NoInstD ms
  | .literal vs => NoInstL vs
  | _ => True
termination_by structural x => x
def PlainTyL : List PyTy → Prop
  | [] => True
  | t :: ts => PlainTy t ∧ PlainTyL ts
termination_by structural x => x
def PlainTyF : List Fld → Prop
  | [] => True
  | f :: fs => PlainTyF1 f ∧ PlainTyF fs
termination_by structural x => x
def PlainTyF1 : Fld → Prop
  | .mk _ t d => PlainTy t ∧ NoInst (schemaDefault d).1
termination_by structural x => x
end

mutual
theorem reload_materialize : ∀ (ty : PyTy) (s : STy), PlainTy ty → materialize ty = .ok s → s.supported = true → s.reload = s
  | .int, s, _, h, _ | .str, s, _, h, _ | .bool, s, _, h, _ | .float, s, _, h, _ => by cases h; rfl
  | .list a, s, hp, h, hs => by
    simp only [materialize, bind, Except.bind, pure, Except.pure] at h
    cases h1 : materialize a with
    | error e => rw [h1] at h; exact (nomatch h)
    | ok t =>
      rw [h1] at h
      cases h
      rw [STy.reload, reload_materialize a t hp h1 hs]
  | .tuple as, s, _, h, hs => by
    simp only [materialize, bind, Except.bind, pure, Except.pure] at h
    cases h1 : materializeL as with
    | error e => rw [h1] at h; exact (nomatch h)
    | ok t => rw [h1] at h; cases h; exact (nomatch hs)
  | .dict k v, s, _, h, hs => by
    simp only [materialize, bind, Except.bind, pure, Except.pure] at h
    cases h1 : materialize k with
    | error e => rw [h1] at h; exact (nomatch h)
    | ok t =>
      rw [h1] at h
      cases h2 : materialize v with
      | error e => rw [h2] at h; exact (nomatch h)
      | ok t => rw [h2] at h; cases h; exact (nomatch hs)
  | .union as, s, hp, h, hs => by
    simp only [materialize] at h
    split at h
    · exact reload_materializeOpt as s hp h hs
    · simp only [bind, Except.bind, pure, Except.pure] at h
      cases h1 : materializeL as with
      | error e => rw [h1] at h; exact (nomatch h)
      | ok t => rw [h1] at h; cases h; exact (nomatch hs)
  | .data n fs ver, s, hp, h, hs => by
    simp only [materialize, bind, Except.bind, pure, Except.pure] at h
    cases h1 : materializeF fs with
    | error e => rw [h1] at h; exact (nomatch h)
    | ok t =>
      rw [h1] at h
      cases h
      rw [STy.reload, reload_materializeF fs t hp h1 hs]
  | .enum n ms, s, hp, h, _ => by
    cases h
    rw [STy.reload, ronStructD_id ms hp]
  | .literal vs, s, hp, h, _ => by
    cases h
    rw [STy.reload, ronStructL_id vs hp]
  | .noneT, s, _, h, _ | .blob _, s, _, h, _ => by exact (nomatch h)
termination_by structural x => x
theorem reload_materializeOpt : ∀ (as : List PyTy) (s : STy), PlainTyL as → materializeOpt as = .ok s → s.supported = true → s.reload = s
  | [], s, _, h, _ => by exact (nomatch h)
  | t :: ts, s, hp, h, hs => by
    simp only [materializeOpt, bind, Except.bind, pure, Except.pure] at h
    cases h1 : materialize t with
    | error e => rw [h1] at h; exact (nomatch h)
    | ok u =>
      rw [h1] at h
      cases h
      rw [STy.reload, reload_materialize t u hp.1 h1 hs]
termination_by structural x => x
theorem reload_materializeF : ∀ (fs : List Fld) (s : List (String × SFld)), PlainTyF fs → materializeF fs = .ok s →
    supportedF s = true → reloadF s = s
  | [], s, _, h, _ => by cases h; rfl
  | f :: fs, s, hp, h, hs => by
    simp only [materializeF, bind, Except.bind, pure, Except.pure] at h
    cases h1 : materializeF1 f with
    | error e => rw [h1] at h; exact (nomatch h)
    | ok t =>
      rw [h1] at h
      cases h2 : materializeF fs with
      | error e => rw [h2] at h; exact (nomatch h)
      | ok ts =>
        rw [h2] at h
        cases h
        simp only [supportedF, Bool.and_eq_true] at hs
        rw [reloadF, reload_materializeF1 f t hp.1 h1 hs.1, reload_materializeF fs ts hp.2 h2 hs.2]
termination_by structural x => x
theorem reload_materializeF1 : ∀ (f : Fld) (s : String × SFld), PlainTyF1 f → materializeF1 f = .ok s →
    supportedP s = true → reloadP s = s
  | .mk n t d, s, hp, h, hs => by
    simp only [materializeF1, bind, Except.bind, pure, Except.pure] at h
    cases h1 : materialize t with
    | error e => rw [h1] at h; exact (nomatch h)
    | ok u =>
      rw [h1] at h
      cases h
      simp only [supportedP, supportedS] at hs
      rw [reloadP, reloadS, reload_materialize t u hp.1 h1 hs, ronStruct_id _ hp.2]
termination_by structural x => x
end

/-! ## C32 -/

/-- C32: for every schema (docstrings and mismatched names included), reading what was written gives the schema without
docstrings if every type in it is known to the loader, and a ValueError otherwise -/
theorem C32_any (s : STy) : fromNT (ronStruct s.obj) = if s.supported then .ok s.reload else .error .valueError := fromNT_obj s

/-- C32: loading the schema file of a class gives back the schema of the class, provided the loader knows the types in it and
no default contains a dataclass instance -/
theorem C32_class_partial (n : String) (fs : List Fld) (ver : Option VerInfo) (s : STy) (hp : PlainTy (.data n fs ver))
    (hm : materialize (.data n fs ver) = .ok s) (hs : s.supported = true) :
    ∃ v, dumpSchema (.data n fs ver) = .ok v ∧ loadSchema v = .ok s := by
  refine ⟨ronStruct s.obj, by simp [dumpSchema, hm, bind, Except.bind, pure, Except.pure], ?_⟩
  unfold loadSchema
  rw [fromNT_obj, if_pos hs, reload_materialize _ _ hp hm hs]
  simp only [materialize, bind, Except.bind, pure, Except.pure] at hm
  cases h1 : materializeF fs with
  | error e => rw [h1] at hm; exact (nomatch hm)
  | ok t => rw [h1] at hm; cases hm; rfl

/-- C32: a class with a type that the loader does not know (Tuple, Dict, Union) can be dumped, but loading the file fails -/
theorem C32_unsupported (ty : PyTy) (s : STy) (hm : materialize ty = .ok s) (hs : s.supported = false) :
    ∃ v, dumpSchema ty = .ok v ∧ loadSchema v = .error .valueError := by
  refine ⟨ronStruct s.obj, by simp [dumpSchema, hm, bind, Except.bind, pure, Except.pure], ?_⟩
  unfold loadSchema
  rw [fromNT_obj, if_neg (by simp [hs])]
  rfl

/-- C32: a default that is a dataclass instance is not preserved: it comes back as a namedtuple, which is not equal to it. So
"gives back the schema" does not hold for such classes. -/
theorem C32_instance_default_false : ∃ (ty : PyTy) (s t : STy) (v : Val), materialize ty = .ok s ∧ dumpSchema ty = .ok v ∧
    loadSchema v = .ok t ∧ styEq s t = false := by
  let ty : PyTy := .data "C" [.mk "net" (.data "Net" [.mk "n" .int (some (.int 4))] none) (some (.inst "Net" [("n", .int 4)]))] (some ⟨0, []⟩)
  have h : (match materialize ty, dumpSchema ty with
    | .ok s, .ok v => match loadSchema v with
      | .ok t => !(styEq s t)
      | _ => false
    | _, _ => false) = true := by decide +kernel
  split at h
  · rename_i s v h1 h2
    split at h
    · rename_i t h3
      exact ⟨ty, s, t, v, h1, h2, h3, by simpa using h⟩
    · exact (nomatch h)
  · exact (nomatch h)

/-- a class with nested structs, lists, Optionals, enums and Literals -/
def Ex.fileTy : PyTy := .data "C" [
  .mk "net" (.data "Net" [.mk "n" .int (some (.int 4)), .mk "act" (.literal [.str "relu", .int 5]) none] none) none,
  .mk "opt" (.optional (.list (.enum "Opt" [("ADAM", .str "adam")]))) (some (.list [])),
  .mk "best" (.enum "Opt" [("ADAM", .str "adam")]) (some (.enm "Opt" "ADAM" (.str "adam")))] (some ⟨3, []⟩)

example : PlainTy Ex.fileTy := by
  simp [Ex.fileTy, PlainTy, PlainTyF, PlainTyF1, PlainTyL, PyTy.optional, NoInst, NoInstL, NoInstD, NoInstP, schemaDefault]
example : ∃ s, materialize Ex.fileTy = .ok s ∧ s.supported = true := ⟨_, rfl, by decide +kernel⟩
example : ∃ s, materialize (.data "C" [.mk "d" (.list (.tuple [.int, .str])) none] none) = .ok s ∧ s.supported = false :=
  ⟨_, rfl, by decide +kernel⟩

end HS
