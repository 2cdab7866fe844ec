import Verif.Model.Blame
/-!
# The model with messages is the model without them
-/
namespace HS

/-- without the message -/
def drop : Except Fail α → Except Err α
  | .ok a => .ok a
  | .error e => .error e.1

@[simp] theorem drop_ok (a : α) : drop (.ok a : Except Fail α) = .ok a := rfl
@[simp] theorem drop_error (e : Err) (m : Msg) : drop (.error (e, m) : Except Fail α) = .error e := rfl
@[simp] theorem drop_pure (a : α) : drop (pure a : Except Fail α) = .ok a := rfl
@[simp] theorem drop_throw (e : Err) (m : Msg) : drop (throw (e, m) : Except Fail α) = .error e := rfl

theorem drop_located (m : Err → Msg) (r : Except Err α) : drop (located m r) = r := by
  cases r <;> rfl

@[simp] theorem drop_bare (r : Except Err α) : drop (bare r) = r := drop_located _ r

theorem drop_bind (x : Except Fail α) (f : α → Except Fail β) : drop (x >>= f) = (drop x >>= fun a => drop (f a)) := by
  cases x <;> rfl

/-- the order of a set is some order -/
def IsOrder (order : List Fld → List Fld) : Prop := ∀ l, (order l).Perm l

/-! ## missing values -/

mutual
theorem makeTy_fine : (t : PyTy) → (path : String) → (makeTy path t = .fine ↔ (createDefault t).isSome)
  | .data n fs _, path => by
    have h := makeFields_nil fs path
    simp only [makeTy, createDefault]
    cases hm : makeFields path fs with
    | error m => simp only [hm] at h; cases hc : createFields fs <;> simp_all
    | ok ps => cases ps <;> simp only [hm] at h <;> cases hc : createFields fs <;> simp_all
  | .int, _ | .float, _ | .str, _ | .bool, _ | .noneT, _ | .list _, _ | .tuple _, _ | .dict _ _, _ | .union _, _ | .enum _ _, _
  | .literal _, _ | .blob _, _ => by simp [makeTy, createDefault]
theorem makeFields_nil : (fs : List Fld) → (path : String) → (makeFields path fs = .ok [] ↔ (createFields fs).isSome)
  | [], _ => by simp [makeFields, createFields]
  | f :: fs, path => by
    have h1 := makeField_fine f path
    have h2 := makeFields_nil fs path
    simp only [makeFields, createFields]
    cases hm : makeField path f <;> cases hc : createField f <;> cases hf : makeFields path fs <;>
      cases hg : createFields fs <;> simp_all
theorem makeField_fine : (f : Fld) → (path : String) → (makeField path f = .fine ↔ (createField f).isSome)
  | .mk n t (some d), _ => by simp [makeField, createField]
  | .mk n t .none, path => by
    have h := makeTy_fine t (fieldPath path n)
    simp only [makeField, createField]
    rw [h]
    cases createDefault t <;> simp
end

/-- nothing is missing when every field is made -/
theorem makeFields_fine (path : String) : (fs : List Fld) → (makeFields path fs = .ok [] ↔ ∀ f ∈ fs, makeField path f = .fine)
  | [] => by simp [makeFields]
  | f :: fs => by
    have h := makeFields_fine path fs
    simp only [makeFields, List.mem_cons, forall_eq_or_imp]
    cases hm : makeField path f <;> cases hf : makeFields path fs <;> simp_all

theorem fillFields_err (kw : List (String × Val)) : (fs : List Fld) → (e : Err) → fillFields kw fs = .error e → e = .typeError
  | [], e, h => by simp [fillFields] at h
  | f :: fs, e, h => by
    simp only [fillFields, bind, Except.bind] at h
    cases hv : fieldValue kw f with
    | error e' =>
      rw [hv] at h; cases h
      unfold fieldValue at hv
      split at hv; cases hv
      split at hv; cases hv
      split at hv <;> cases hv
      rfl
    | ok v =>
      rw [hv] at h
      cases hr : fillFields kw fs with
      | error e' => rw [hr] at h; cases h; exact fillFields_err kw fs _ hr
      | ok r => rw [hr] at h; cases h

theorem fieldValue_ok (kw : List (String × Val)) (path : String) (f : Fld) :
    (∃ v, fieldValue kw f = .ok v) ↔ ((dget kw f.name).isSome ∨ makeField path f = .fine) := by
  unfold fieldValue
  cases hd : dget kw f.name with
  | some v => simp
  | none =>
    obtain ⟨n, t, d⟩ := f
    cases d with
    | some d => simp [Fld.dflt, makeField]
    | none =>
      have h := makeTy_fine t (fieldPath path n)
      simp only [Fld.dflt, Fld.ty, makeField, h]
      cases createDefault t <;> simp

theorem fillFields_ok (kw : List (String × Val)) (path : String) : (fs : List Fld) →
    ((∃ r, fillFields kw fs = .ok r) ↔ ∀ f ∈ fs, (dget kw f.name).isSome ∨ makeField path f = .fine)
  | [] => by simp [fillFields]
  | f :: fs => by
    have h1 := fieldValue_ok kw path f
    have h2 := fillFields_ok kw path fs
    simp only [List.mem_cons, forall_eq_or_imp, ← h1, ← h2, fillFields, bind, Except.bind]
    cases fieldValue kw f <;> cases fillFields kw fs <;> simp [pure, Except.pure]

theorem drop_fill (order : List Fld → List Fld) (ho : IsOrder order) (cls path : String) (kw : List (String × Val))
    (fs : List Fld) : drop (fillFieldsM order cls path kw fs) = fillFields kw fs := by
  have h := fillFields_ok kw path fs
  have h2 := makeFields_fine path (order (fs.filter (fun f => !(dget kw f.name).isSome)))
  have h3 : (∀ f ∈ order (fs.filter (fun f => !(dget kw f.name).isSome)), makeField path f = .fine) ↔
      ∀ f ∈ fs, (dget kw f.name).isSome ∨ makeField path f = .fine := by
    constructor
    · intro hh f hf
      cases hd : (dget kw f.name).isSome
      · right; exact hh f ((ho _).mem_iff.mpr (List.mem_filter.mpr ⟨hf, by rw [hd]; rfl⟩))
      · left; rfl
    · intro hh f hf
      have := (ho _).mem_iff.mp hf
      simp only [List.mem_filter] at this
      rcases hh f this.1 with h' | h'
      · simp [h'] at this
      · exact h'
  unfold fillFieldsM
  rw [h3, ← h] at h2
  cases hf : fillFields kw fs with
  | ok r =>
    rw [hf] at h2
    rw [h2.mpr ⟨r, rfl⟩]
    rfl
  | error e =>
    rw [hf] at h2
    cases fillFields_err kw fs e hf
    cases hm : makeFields path (order (fs.filter (fun f => !(dget kw f.name).isSome))) with
    | error m => rfl
    | ok ps =>
      cases ps with
      | nil => exact absurd (h2.mp hm) (by rintro ⟨r, hr⟩; cases hr)
      | cons p ps => rfl

/-! ## the loops -/

theorem drop_mapIdx (f : Nat → Val → ResM) (g : Nat → Val → Res) (h : ∀ i v, drop (f i v) = g i v) :
    (i : Nat) → (vs : List Val) → drop (mapIdxM f i vs) = mapIdx g i vs
  | _, [] => rfl
  | i, v :: vs => by
    simp only [mapIdxM, mapIdx, drop_bind, drop_mapIdx f g h (i + 1) vs, h]
    rfl

theorem drop_mapItems (f : String → Val → ResM) (g : String → Val → Res) (h : ∀ k v, drop (f k v) = g k v) :
    (vs : List (String × Val)) → drop (mapItemsM f vs) = mapItems g vs
  | [] => rfl
  | (k, v) :: vs => by
    simp only [mapItemsM, mapItems, drop_bind, drop_mapItems f g h vs, h]
    rfl

theorem drop_itemsLoop (cls : String) (ig : Bool) (f : String → Val → Option ResM) (g : String → Val → Option Res)
    (h : ∀ k v, (f k v).map drop = g k v) :
    (vs : List (String × Val)) → drop (itemsLoopM cls f ig vs) = itemsLoop g ig vs
  | [] => rfl
  | (k, v) :: vs => by
    have ih := drop_itemsLoop cls ig f g h vs
    simp only [itemsLoopM, itemsLoop]
    split
    · exact ih
    split
    · exact ih
    rw [← h k v]
    cases hf : f k v with
    | none => cases ig <;> simp [ih]
    | some r =>
      simp only [Option.map_some, drop_bind, ih]
      rfl

theorem drop_asRawDict (c : DCfg) (cls : String) (v : Val) : drop (asRawDictM c cls v) = asRawDict c v := by
  have hj : ∀ v : Val, drop (match v with
      | .tup [] => pure []
      | .ntup _ kvs => pure kvs
      | .dict d => pure d
      | v => throw (.deserValue, .notObj v cls) : Except Fail (List (String × Val))) = (match v with
      | .tup [] => pure []
      | .ntup _ kvs => pure kvs
      | .dict d => pure d
      | _ => throw .deserValue : Except Err (List (String × Val))) := by
    intro v
    cases v <;> try rfl
    rename_i xs
    cases xs <;> rfl
  unfold asRawDictM asRawDict
  cases v with
  | inst n kvs =>
    refine Eq.trans (drop_bind _ _) ?_
    rw [drop_bare]
    congr; funext r
    exact hj r.1
  | tup xs => exact hj (.tup xs)
  | _ => rfl

theorem drop_prim (e : Ext) (wi wf ws : Bool) (path : String) (v : Val) :
    drop (primBranchesM e wi wf ws path v) = primBranches e wi wf ws v := drop_located _ _

/-! ## `from_dict` -/

/-- the dataclass branch after the hook -/
theorem drop_object (c : DCfg) (order : List Fld → List Fld) (ho : IsOrder order) (name path : String) (ig : Bool) (fs : List Fld)
    (h : ∀ k p v, (fmField c order fs k p v).map drop = fdField c fs k p v) (v : Val) :
    drop (do
      let d ← asRawDictM c name v
      let (kwargs, es) ← itemsLoopM name (fun k x => fmField c order fs k (fieldPath path k) x) ig d
      let kvs ← fillFieldsM order name path kwargs fs
      return (.inst name kvs, es)) = (do
      let d ← asRawDict c v
      let (kwargs, es) ← itemsLoop (fun k x => fdField c fs k (fieldPath path k) x) ig d
      let kvs ← fillFields kwargs fs
      return (.inst name kvs, es) : Res) := by
  simp only [drop_bind, drop_asRawDict, drop_fill order ho,
    drop_itemsLoop name ig _ (fun k x => fdField c fs k (fieldPath path k) x) (fun k v => h k _ v)]
  rfl

set_option linter.unusedSimpArgs false in
mutual
/-- without the messages it is `fromDict` -/
theorem drop_fromDict (c : DCfg) (order : List Fld → List Fld) (ho : IsOrder order) : (t : PyTy) → (ig : Bool) →
    (path : String) → (v : Val) → drop (fromDictM c order t ig path v) = fromDict c t ig path v
  | .int, ig, path, v => by
    simp only [fromDictM, fromDict]
    generalize schedHook c.ext _ path v = s
    cases s with
    | some r => exact drop_bare r
    | none =>
      cases v
      all_goals
        dsimp only
        first
        | (rw [drop_bind, drop_prim]; congr; funext r; cases r <;> rfl)
        | exact drop_ok _
  | .float, ig, path, v => by
    simp only [fromDictM, fromDict]
    generalize schedHook c.ext _ path v = s
    cases s with
    | some r => exact drop_bare r
    | none =>
      cases v
      all_goals
        dsimp only
        first
        | (rw [drop_bind, drop_prim]; congr; funext r; cases r <;> rfl)
        | exact drop_ok _
  | .str, ig, path, v => by
    simp only [fromDictM, fromDict]
    cases v <;> try rfl
    all_goals
      dsimp only
      rw [drop_bind, drop_prim]
      congr; funext r; cases r <;> rfl
  | .bool, ig, path, v => by
    simp only [fromDictM, fromDict]
    cases v <;> rfl
  | .noneT, ig, path, v => by
    simp only [fromDictM, fromDict]
    cases v <;> rfl
  | .union as, ig, path, v => by
    simp only [fromDictM, fromDict]
    split
    · split
      · rfl
      · exact drop_head c order ho as ig path v
    · rw [drop_bind, drop_prim]
      congr; funext r
      cases r with
      | some r => rfl
      | none =>
        dsimp only
        cases v <;> try rfl
        case list => dsimp only; split <;> rfl
        case dict d =>
          dsimp only
          have h : ∀ n, (fmNamed c order as n ig path (.dict d)).map drop = fdNamed c as n ig path (.dict d) :=
            fun n => drop_named c order ho as n ig path (.dict d)
          cases hn : dget d NAME_KEY with
          | none => simp only [Option.bind_none]; split <;> rfl
          | some n =>
            simp only [Option.bind_some]
            rw [← h n]
            cases fmNamed c order as n ig path (.dict d) with
            | none => simp only [Option.map_none]; split <;> rfl
            | some r => rfl
  | .list a, ig, path, v => by
    simp only [fromDictM, fromDict]
    cases v <;> try rfl
    dsimp only
    rw [drop_bind, drop_mapIdx _ _ (fun i x => drop_fromDict c order ho a false _ x)]
    rfl
  | .tuple as, ig, path, v => by
    simp only [fromDictM, fromDict]
    cases v <;> try rfl
    all_goals
      dsimp only
      rw [drop_bind, drop_mapIdx _ _ (fun i x => drop_nth c order ho as i _ x)]
      rfl
  | .dict a b, ig, path, v => by
    simp only [fromDictM, fromDict]
    cases v <;> try rfl
    dsimp only
    rw [drop_bind, drop_mapItems _ _ (fun k x => drop_fromDict c order ho b false _ x)]
    rfl
  | .data name fs ver, ig, path, v => by
    have hf := fun k p v => drop_field c order ho fs k p v
    have hk : ∀ w : Val, drop (match w with
        | .inst cls kvs =>
          if cls = name then pure (.inst cls kvs, [])
          else do
            let d ← asRawDictM c name (.inst cls kvs)
            let (kwargs, es) ← itemsLoopM name (fun k x => fmField c order fs k (fieldPath path k) x) ig d
            let kvs ← fillFieldsM order name path kwargs fs
            return (.inst name kvs, es)
        | v => do
          let d ← asRawDictM c name v
          let (kwargs, es) ← itemsLoopM name (fun k x => fmField c order fs k (fieldPath path k) x) ig d
          let kvs ← fillFieldsM order name path kwargs fs
          return (.inst name kvs, es)) = (match w with
        | .inst cls kvs =>
          if cls = name then pure (.inst cls kvs, [])
          else do
            let d ← asRawDict c (.inst cls kvs)
            let (kwargs, es) ← itemsLoop (fun k x => fdField c fs k (fieldPath path k) x) ig d
            let kvs ← fillFields kwargs fs
            return (.inst name kvs, es)
        | v => do
          let d ← asRawDict c v
          let (kwargs, es) ← itemsLoop (fun k x => fdField c fs k (fieldPath path k) x) ig d
          let kvs ← fillFields kwargs fs
          return (.inst name kvs, es) : Res) := by
      intro w
      cases w with
      | inst cls kvs =>
        dsimp only
        split
        · rfl
        · exact drop_object c order ho name path ig fs hf _
      | _ => exact drop_object c order ho name path ig fs hf _
    simp only [fromDictM, fromDict]
    cases ver with
    | some vi =>
      dsimp only
      rw [drop_bind, drop_bare]
      congr; funext w
      exact hk w
    | none => exact hk v
  | .enum cls ms, ig, path, v => by
    simp only [fromDictM, fromDict]
    cases v <;> dsimp only
    all_goals try (rw [drop_bind, drop_bare]; rfl)
    split
    · rfl
    · rw [drop_bind, drop_bare]; rfl
  | .literal vals, ig, path, v => by
    simp only [fromDictM, fromDict]
    split
    · cases v
      case ntup n kvs => cases kvs <;> dsimp only <;> split <;> rfl
      all_goals (dsimp only; split <;> rfl)
    · rfl
  | .blob cls, ig, path, v => by
    simp only [fromDictM, fromDict]
    split
    · simp
    · cases v <;> try rfl
      dsimp only
      split <;> rfl
theorem drop_head (c : DCfg) (order : List Fld → List Fld) (ho : IsOrder order) : (as : List PyTy) → (ig : Bool) →
    (path : String) → (v : Val) → drop (fmHead c order as ig path v) = fdHead c as ig path v
  | [], _, _, _ => rfl
  | t :: _, ig, path, v => by
    simp only [fmHead, fdHead]
    exact drop_fromDict c order ho t ig path v
theorem drop_named (c : DCfg) (order : List Fld → List Fld) (ho : IsOrder order) : (as : List PyTy) → (n : Val) → (ig : Bool) →
    (path : String) → (v : Val) → (fmNamed c order as n ig path v).map drop = fdNamed c as n ig path v
  | [], _, _, _, _ => rfl
  | t :: ts, n, ig, path, v => by
    simp only [fmNamed, fdNamed]
    split
    · simp only [Option.map_some, drop_fromDict c order ho t ig path v]
    · exact drop_named c order ho ts n ig path v
theorem drop_nth (c : DCfg) (order : List Fld → List Fld) (ho : IsOrder order) : (as : List PyTy) → (i : Nat) →
    (path : String) → (v : Val) → drop (fmNth c order as i path v) = fdNth c as i path v
  | [], _, _, _ => rfl
  | t :: ts, i, path, v => by
    cases i with
    | zero => simp only [fmNth, fdNth]; exact drop_fromDict c order ho t false path v
    | succ i => simp only [fmNth, fdNth]; exact drop_nth c order ho ts i path v
theorem drop_field (c : DCfg) (order : List Fld → List Fld) (ho : IsOrder order) : (fs : List Fld) → (k : String) →
    (path : String) → (v : Val) → (fmField c order fs k path v).map drop = fdField c fs k path v
  | [], _, _, _ => rfl
  | f :: fs, k, path, v => by
    have h1 := drop_fld c order ho f k path v
    have h2 := drop_field c order ho fs k path v
    simp only [fmField, fdField]
    rw [← h1]
    cases fmFld c order f k path v with
    | none => simpa using h2
    | some r => rfl
theorem drop_fld (c : DCfg) (order : List Fld → List Fld) (ho : IsOrder order) : (f : Fld) → (k : String) →
    (path : String) → (v : Val) → (fmFld c order f k path v).map drop = fdFld c f k path v
  | .mk n t d, k, path, v => by
    simp only [fmFld, fdFld]
    split
    · simp only [Option.map_some, drop_fromDict c order ho t false path v]
    · rfl
end

end HS
