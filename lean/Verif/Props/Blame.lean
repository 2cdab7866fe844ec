import Verif.Proofs.Blame
import Verif.Spec.Blame
import Verif.Proofs.Dict
/-!
# C87: the place that the message of a failed load names
-/
namespace HS

/-! ## values that are refused as they stand -/

theorem whole_iff (q : Rat) : (Flt.fin ((q.num.tdiv q.den : Int) : Rat)).eqv (.fin q) = true ↔ q.den = 1 := by
  simp only [Flt.eqv, decide_eq_true_eq]
  constructor
  · intro h
    rw [← h]; rfl
  · intro h
    rw [h]
    apply Rat.ext
    · simp
    · simp [h]

theorem intOf_broken {q : Rat} (h : q.den ≠ 1) : (Flt.fin ((q.num.tdiv q.den : Int) : Rat)).eqv (.fin q) = false := by
  cases hb : (Flt.fin ((q.num.tdiv q.den : Int) : Rat)).eqv (.fin q)
  · rfl
  · exact absurd ((whole_iff q).mp hb) h

theorem fdNamed_none (c : DCfg) (n : Val) (ig : Bool) (path : String) (v : Val) : (as : List PyTy) →
    (fdNamed c as n ig path v = .none ↔ ∀ a ∈ as, pyEq n (.str a.pyName) = false)
  | [] => by simp [fdNamed]
  | a :: as => by
    have ih := fdNamed_none c n ig path v as
    simp only [fdNamed, List.mem_cons, forall_eq_or_imp]
    split <;> simp_all

/-- what is refused as it stands is refused everywhere -/
theorem wrong_refused (c : DCfg) (t : PyTy) (v : Val) (h : Wrong c t v) (ig : Bool) (path : String) :
    ∃ e, fromDict c t ig path v = .error e := by
  cases t with
  | int =>
    cases v <;> simp only [Wrong] at h <;> simp only [fromDict, schedHook]
    case flt f =>
      obtain ⟨q, rfl, hq⟩ := h
      simp [primBranches, Flt.toInt, bind, Except.bind, pure, Except.pure, intOf_broken hq, throw, throwThe, MonadExceptOf.throw]
    case str s =>
      obtain ⟨ha, q, hs, hq⟩ := h
      simp [ha, primBranches, strToInt, hs, Flt.toInt, bind, Except.bind, intOf_broken hq, throw, throwThe, MonadExceptOf.throw]
    case ntup n kvs => cases kvs <;> exact ⟨_, rfl⟩
    all_goals exact ⟨_, rfl⟩
  | float =>
    cases v <;> simp only [Wrong] at h <;> simp only [fromDict, schedHook]
    case ntup n kvs => cases kvs <;> exact ⟨_, rfl⟩
    all_goals exact ⟨_, rfl⟩
  | str =>
    cases v <;> try simp only [Wrong] at h
    case ntup n kvs =>
      cases kvs
      · simp [Wrong] at h
      · exact ⟨_, rfl⟩
    all_goals exact ⟨_, rfl⟩
  | bool => cases v <;> simp only [Wrong] at h <;> exact ⟨_, rfl⟩
  | noneT => cases v <;> simp only [Wrong] at h <;> exact ⟨_, rfl⟩
  | list a => cases v <;> simp only [Wrong] at h <;> exact ⟨.deserType, by simp only [fromDict]⟩
  | tuple as => cases v <;> simp only [Wrong] at h <;> exact ⟨.deserType, by simp only [fromDict]⟩
  | dict a b => cases v <;> simp only [Wrong] at h <;> exact ⟨.deserType, by simp only [fromDict]⟩
  | data n fs ver => simp [Wrong] at h
  | enum n ms => simp [Wrong] at h
  | literal vals =>
    cases v
    case ntup n kvs =>
      cases kvs
      · simp only [Wrong] at h
        exact ⟨.deserValue, by simp [fromDict, h.1, h.2]⟩
      · simp only [Wrong] at h
        exact ⟨.deserValue, by simp [fromDict, h.1, h.2]⟩
    all_goals
      simp only [Wrong] at h
      exact ⟨.deserValue, by simp [fromDict, h.1, h.2]⟩
  | blob cls =>
    cases v <;> simp only [Wrong] at h
    case ser n r => exact ⟨.deserType, by simp only [fromDict]; simp [h.1, h.2]⟩
    all_goals exact ⟨.deserType, by simp only [fromDict]; simp [h]⟩
  | union as =>
    simp only [Wrong] at h
    obtain ⟨ho, h⟩ := h
    simp only [fromDict, ho, Bool.false_eq_true, if_false]
    cases v <;> try dsimp only at h
    case ntup n kvs =>
      cases kvs
      · exact ⟨_, by simp [primBranches, h, bind, Except.bind]; rfl⟩
      · exact ⟨_, rfl⟩
    case int i => exact ⟨_, by simp [primBranches, h, bind, Except.bind]; rfl⟩
    case bool i => exact ⟨_, by simp [primBranches, h, bind, Except.bind]; rfl⟩
    case flt f =>
      by_cases hi : as.any PyTy.isInt = false
      · exact ⟨_, by simp [primBranches, hi, bind, Except.bind]; rfl⟩
      · rcases h with h | ⟨q, rfl, hq⟩
        · exact absurd h hi
        · exact ⟨_, by simp [primBranches, hi, Flt.toInt, intOf_broken hq, bind, Except.bind, pure, Except.pure]; rfl⟩
    case str s =>
      by_cases hi : as.any PyTy.isInt = false
      · exact ⟨_, by simp [primBranches, h.1, hi, bind, Except.bind]; rfl⟩
      · rcases h.2 with h' | ⟨q, hs, hq⟩
        · exact absurd h' hi
        · exact ⟨.deserValue, by simp [primBranches, h.1, hi, strToInt, hs, Flt.toInt, intOf_broken hq, bind, Except.bind,
            pure, Except.pure, throw, throwThe, MonadExceptOf.throw]⟩
    case dict d =>
      refine ⟨.deserValue, ?_⟩
      have hb : ((dget d NAME_KEY).bind fun n => fdNamed c as n ig path (.dict d)) = .none := by
        cases hn : dget d NAME_KEY with
        | none => rfl
        | some n => exact (fdNamed_none c n ig path _ as).mpr (h.2 n hn)
      simp [primBranches, bind, Except.bind, hb, h.1, throw, throwThe, MonadExceptOf.throw]
    case list xs => exact ⟨_, by simp [primBranches, h, bind, Except.bind]; rfl⟩
    all_goals exact ⟨_, rfl⟩

/-! ## what is inside is loaded on the way -/

theorem plain_inst (env : String → ClsInfo) (n : String) (kvs : List (String × Val)) (r : Val × List (String × Val))
    (h : asdict { plainCfg with env := env } "" (.inst n kvs) = .ok r) : ∃ d, r.1 = .dict d := by
  simp only [asdict, serHooks, plainCfg, schedFind, bind, Except.bind, pure, Except.pure] at h
  split at h
  · cases h
  · simp only [packAttrs] at h
    cases h
    exact ⟨_, rfl⟩

theorem entries_raw (c : DCfg) (v : Val) (d : List (String × Val)) : Entries c.env v d ↔ asRawDict c v = .ok d := by
  constructor
  · intro h
    cases h with
    | dict | ntup | unit => rfl
    | inst n kvs bs d h =>
      simp only [asRawDict, bind, Except.bind]
      rw [h]; rfl
  · intro h
    cases v with
    | inst n kvs =>
      simp only [asRawDict, bind, Except.bind] at h
      cases ha : asdict { plainCfg with env := c.env } "" (.inst n kvs) with
      | error e => rw [ha] at h; cases h
      | ok r =>
        rw [ha] at h
        obtain ⟨w, bs⟩ := r
        obtain ⟨d', hd⟩ := plain_inst c.env n kvs _ ha
        dsimp only at hd
        subst hd
        cases h
        exact .inst n kvs bs _ ha
    | tup xs =>
      cases xs with
      | nil => cases h; exact .unit
      | cons x xs => cases h
    | ntup n kvs => cases h; exact .ntup n d
    | dict kvs => cases h; exact .dict d
    | _ => cases h

theorem fdNth_at (c : DCfg) (p : String) (x : Val) : (as : List PyTy) → (i : Nat) →
    fdNth c as i p x = match as[i]? with
      | some a => fromDict c a false p x
      | .none => .error .indexError
  | [], _ => by simp [fdNth]
  | a :: as, 0 => by simp [fdNth]
  | a :: as, i + 1 => by simp [fdNth, fdNth_at c p x as i]

theorem fmNth_eq (c : DCfg) (order : List Fld → List Fld) (p : String) (x : Val) : (as : List PyTy) → (i : Nat) →
    fmNth c order as i p x = match as[i]? with
      | some a => fromDictM c order a false p x
      | .none => .error (.indexError, .other)
  | [], _ => by simp [fmNth]
  | a :: as, 0 => by simp [fmNth]
  | a :: as, i + 1 => by simp [fmNth, fmNth_eq c order p x as i]

theorem fdField_found (c : DCfg) (k p : String) (x : Val) : (fs : List Fld) →
    fdField c fs k p x = (fs.find? (fun g => g.name == k)).map (fun f => fromDict c f.ty false p x)
  | [] => rfl
  | .mk n t d :: fs => by
    by_cases h : n = k
    · simp [fdField, fdFld, h, Fld.ty, Fld.name]
    · have hb : ((Fld.mk n t d).name == k) = false := by simp [Fld.name, h]
      rw [List.find?_cons, hb]
      simp [fdField, fdFld, h, fdField_found c k p x fs]

theorem fmField_find (c : DCfg) (order : List Fld → List Fld) (k p : String) (x : Val) : (fs : List Fld) →
    fmField c order fs k p x = (fs.find? (fun g => g.name == k)).map (fun f => fromDictM c order f.ty false p x)
  | [] => rfl
  | .mk n t d :: fs => by
    by_cases h : n = k
    · simp [fmField, fmFld, h, Fld.ty, Fld.name]
    · have hb : ((Fld.mk n t d).name == k) = false := by simp [Fld.name, h]
      rw [List.find?_cons, hb]
      simp [fmField, fmFld, h, fmField_find c order k p x fs]

theorem fmNamed_some (c : DCfg) (order : List Fld → List Fld) (n : Val) (ig : Bool) (p : String) (v : Val) (r : ResM) :
    (as : List PyTy) → fmNamed c order as n ig p v = some r → ∃ pre a post, as = pre ++ a :: post ∧
      (∀ b ∈ pre, pyEq n (.str b.pyName) = false) ∧ pyEq n (.str a.pyName) = true ∧ r = fromDictM c order a ig p v
  | [], h => by simp [fmNamed] at h
  | a :: as, h => by
    simp only [fmNamed] at h
    split at h
    · rename_i ha
      cases h
      exact ⟨[], a, as, rfl, by simp, ha, rfl⟩
    · rename_i ha
      obtain ⟨pre, b, post, rfl, h1, h2, h3⟩ := fmNamed_some c order n ig p v r as h
      exact ⟨a :: pre, b, post, rfl, by simpa [ha] using h1, h2, h3⟩

theorem fmNamed_none (c : DCfg) (order : List Fld → List Fld) (n : Val) (ig : Bool) (p : String) (v : Val) :
    (as : List PyTy) → fmNamed c order as n ig p v = .none → ∀ a ∈ as, pyEq n (.str a.pyName) = false
  | [], h => by simp
  | a :: as, h => by
    simp only [fmNamed] at h
    split at h
    · cases h
    · rename_i ha
      have := fmNamed_none c order n ig p v as h
      simpa [ha] using this

theorem fdNamed_at (c : DCfg) (n : Val) (ig : Bool) (p : String) (v : Val) (a : PyTy) (post : List PyTy)
    (ha : pyEq n (.str a.pyName) = true) : (pre : List PyTy) → (∀ b ∈ pre, pyEq n (.str b.pyName) = false) →
    fdNamed c (pre ++ a :: post) n ig p v = some (fromDict c a ig p v)
  | [], _ => by simp [fdNamed, ha]
  | b :: pre, h => by
    simp only [List.mem_cons, forall_eq_or_imp] at h
    simp only [List.cons_append, fdNamed, h.1, Bool.false_eq_true, if_false]
    exact fdNamed_at c n ig p v a post ha pre h.2

theorem mapIdx_bad (f : Nat → Val → Res) (x : Val) (post : List Val) : (i : Nat) → (pre : List Val) →
    (∃ e, f (i + pre.length) x = .error e) → ∃ e, mapIdx f i (pre ++ x :: post) = .error e
  | i, [], ⟨e, h⟩ => ⟨e, by
    simp only [List.length_nil, Nat.add_zero] at h
    simp only [List.nil_append, mapIdx, bind, Except.bind, h]⟩
  | i, y :: pre, ⟨e, h⟩ => by
    obtain ⟨e', h'⟩ := mapIdx_bad f x post (i + 1) pre ⟨e, by rw [← h]; congr 1; simp only [List.length_cons]; omega⟩
    simp only [List.cons_append, mapIdx, bind, Except.bind]
    cases f i y with
    | error e => exact ⟨e, rfl⟩
    | ok r => exact ⟨e', by rw [h']⟩

theorem mapItems_bad (f : String → Val → Res) (k : String) (x : Val) (post : List (String × Val)) : (pre : List (String × Val)) →
    (∃ e, f k x = .error e) → ∃ e, mapItems f (pre ++ (k, x) :: post) = .error e
  | [], ⟨e, h⟩ => ⟨e, by simp only [List.nil_append, mapItems, bind, Except.bind, h]⟩
  | (k', y) :: pre, h => by
    obtain ⟨e', h'⟩ := mapItems_bad f k x post pre h
    simp only [List.cons_append, mapItems, bind, Except.bind]
    cases f k' y with
    | error e => exact ⟨e, rfl⟩
    | ok r => exact ⟨e', by rw [h']⟩

theorem itemsLoop_bad (f : String → Val → Option Res) (ig : Bool) (k : String) (x : Val) (post : List (String × Val))
    (hk : k ≠ NAME_KEY) (hw : x.isWeak = false) : (pre : List (String × Val)) →
    (∃ e, f k x = some (.error e)) → ∃ e, itemsLoop f ig (pre ++ (k, x) :: post) = .error e
  | [], ⟨e, h⟩ => ⟨e, by simp [itemsLoop, hk, hw, h, bind, Except.bind]⟩
  | (k', y) :: pre, h => by
    obtain ⟨e', h'⟩ := itemsLoop_bad f ig k x post hk hw pre h
    simp only [List.cons_append, itemsLoop]
    split
    · exact ⟨e', h'⟩
    split
    · exact ⟨e', h'⟩
    cases f k' y with
    | none => cases ig; exact ⟨_, rfl⟩; exact ⟨e', h'⟩
    | some r =>
      cases r with
      | error e => exact ⟨e, rfl⟩
      | ok r => exact ⟨e', by simp [bind, Except.bind, h']⟩

/-- a document is refused if a value in it is refused -/
theorem reach_refused (c : DCfg) (P : PyTy → Val → Prop) {t : PyTy} {v : Val} {q : List Hop} {t' : PyTy} {v' : Val}
    (h : ReachP c P t v q t' v') (hr : ∀ ig p, ∃ e, fromDict c t' ig p v' = .error e) :
    ∀ ig p, ∃ e, fromDict c t ig p v = .error e := by
  induction h with
  | here => exact hr
  | optional hn _ ih =>
    intro ig p
    obtain ⟨e, he⟩ := ih hr ig p
    refine ⟨e, ?_⟩
    rename_i a t' v v' q _
    have : v.isNone = false := by cases v <;> first | rfl | exact absurd rfl hn
    simp [fromDict, isOptionalArgs, PyTy.isNoneT, this, fdHead, he]
  | tagged ho hn hpre ha _ ih =>
    intro ig p
    obtain ⟨e, he⟩ := ih hr ig p
    refine ⟨e, ?_⟩
    simp only [fromDict, ho, Bool.false_eq_true, if_false, primBranches, hn, Option.bind_some,
      fdNamed_at c _ ig p _ _ _ ha _ hpre, he, bind, Except.bind]
  | elem hp _ ih =>
    intro ig p
    rename_i a t' pre post x v' q _
    obtain ⟨e, he⟩ := mapIdx_bad (fun i x => fromDict c a false (p ++ "[" ++ i.repr ++ "]") x) x post 0 pre (ih hr false _)
    exact ⟨e, by simp only [fromDict, he, bind, Except.bind]⟩
  | member ha hp _ ih =>
    intro ig p
    rename_i as a t' pre post x v' q _
    obtain ⟨e, he⟩ := mapIdx_bad (fun i x => fdNth c as i (p ++ "[" ++ i.repr ++ "]") x) x post 0 pre
      (by simp only [Nat.zero_add, fdNth_at, ha]; exact ih hr false _)
    exact ⟨e, by simp only [fromDict, he, bind, Except.bind]⟩
  | nmember hx ha hp _ ih =>
    intro ig p
    rename_i as a t' n kvs pre post x v' q _
    obtain ⟨e, he⟩ := mapIdx_bad (fun i x => fdNth c as i (p ++ "[" ++ i.repr ++ "]") x) x post 0 pre
      (by simp only [Nat.zero_add, fdNth_at, ha]; exact ih hr false _)
    exact ⟨e, by simp only [fromDict, hx, he, bind, Except.bind]⟩
  | item hp _ ih =>
    intro ig p
    rename_i a b t' pre post k x v' q _
    obtain ⟨e, he⟩ := mapItems_bad (fun k x => fromDict c b false (p ++ "." ++ k) x) k x post pre (ih hr false _)
    exact ⟨e, by simp only [fromDict, he, bind, Except.bind]⟩
  | field hf hd hk hw hfind hp _ ih =>
    intro ig p
    rename_i n fs t' v x v' pre post k f q _
    obtain ⟨e', he'⟩ := ih hr false (fieldPath p k)
    obtain ⟨e, he⟩ := itemsLoop_bad (fun k x => fdField c fs k (fieldPath p k) x) ig k x post hk hw pre
      ⟨e', by simp only [fdField_found, hfind, Option.map_some, he']⟩
    have hd' := (entries_raw c v _).mp hd
    refine ⟨e, ?_⟩
    cases v with
    | inst cls kvs =>
      simp only [NotOf] at hf
      simp only [fromDict, hf, if_false, bind, Except.bind, hd', he, pure, Except.pure]
    | _ => simp only [fromDict, bind, Except.bind, hd', he, pure, Except.pure]
  | upgraded hu _ ih =>
    intro ig p
    obtain ⟨e, he⟩ := ih hr ig p
    refine ⟨e, ?_⟩
    rw [← he]
    simp only [fromDict, hu, bind, Except.bind, pure, Except.pure]

/-! ## where an error comes from -/

theorem mapIdxM_err (f : Nat → Val → ResM) (e : Fail) : (i : Nat) → (xs : List Val) → mapIdxM f i xs = .error e →
    ∃ pre x post, xs = pre ++ x :: post ∧ f (i + pre.length) x = .error e ∧
      ∀ j y, pre[j]? = some y → ∃ r, f (i + j) y = .ok r
  | i, [], h => by simp [mapIdxM] at h
  | i, y :: xs, h => by
    simp only [mapIdxM, bind, Except.bind] at h
    cases hy : f i y with
    | error e' =>
      rw [hy] at h
      cases h
      exact ⟨[], y, xs, rfl, by simpa using hy, by simp⟩
    | ok r =>
      rw [hy] at h
      cases hr : mapIdxM f (i + 1) xs with
      | ok r' => rw [hr] at h; cases h
      | error e' =>
        rw [hr] at h
        cases h
        obtain ⟨pre, x, post, rfl, h1, h2⟩ := mapIdxM_err f e (i + 1) xs hr
        refine ⟨y :: pre, x, post, rfl, ?_, ?_⟩
        · rw [← h1]; congr 1; simp only [List.length_cons]; omega
        · intro j z hj
          cases j with
          | zero =>
            simp only [List.getElem?_cons_zero, Option.some.injEq] at hj
            subst hj
            exact ⟨r, hy⟩
          | succ j =>
            simp only [List.getElem?_cons_succ] at hj
            obtain ⟨r', hr'⟩ := h2 j z hj
            exact ⟨r', by rw [← hr']; congr 1; omega⟩

theorem mapItemsM_err (f : String → Val → ResM) (e : Fail) : (xs : List (String × Val)) → mapItemsM f xs = .error e →
    ∃ pre k x post, xs = pre ++ (k, x) :: post ∧ f k x = .error e ∧ ∀ y ∈ pre, ∃ r, f y.1 y.2 = .ok r
  | [], h => by simp [mapItemsM] at h
  | (k, y) :: xs, h => by
    simp only [mapItemsM, bind, Except.bind] at h
    cases hy : f k y with
    | error e' =>
      rw [hy] at h
      cases h
      exact ⟨[], k, y, xs, rfl, hy, by simp⟩
    | ok r =>
      rw [hy] at h
      cases hr : mapItemsM f xs with
      | ok r' => rw [hr] at h; cases h
      | error e' =>
        rw [hr] at h
        cases h
        obtain ⟨pre, k', x, post, rfl, h1, h2⟩ := mapItemsM_err f e xs hr
        refine ⟨(k, y) :: pre, k', x, post, rfl, h1, ?_⟩
        simp only [List.mem_cons, forall_eq_or_imp]
        exact ⟨⟨r, hy⟩, h2⟩

theorem itemsLoopM_err (cls : String) (f : String → Val → Option ResM) (ig : Bool) (e : Fail) : (xs : List (String × Val)) →
    itemsLoopM cls f ig xs = .error e →
    ∃ pre k x post, xs = pre ++ (k, x) :: post ∧ k ≠ NAME_KEY ∧ x.isWeak = false ∧
      (f k x = some (.error e) ∨ (f k x = .none ∧ ig = false ∧ e = (.deserType, .noAttr cls k))) ∧
      ∀ y ∈ pre, y.1 ≠ NAME_KEY → y.2.isWeak = false → ∀ r, f y.1 y.2 = some r → ∃ a, r = .ok a
  | [], h => by simp [itemsLoopM] at h
  | (k, y) :: xs, h => by
    simp only [itemsLoopM] at h
    split at h
    · rename_i hk
      obtain ⟨pre, k', x, post, rfl, h0, h1, h2, h3⟩ := itemsLoopM_err cls f ig e xs h
      refine ⟨(k, y) :: pre, k', x, post, rfl, h0, h1, h2, ?_⟩
      simp only [List.mem_cons, forall_eq_or_imp]
      exact ⟨fun hh => absurd hk hh, h3⟩
    rename_i hk
    split at h
    · rename_i hw
      obtain ⟨pre, k', x, post, rfl, h0, h1, h2, h3⟩ := itemsLoopM_err cls f ig e xs h
      refine ⟨(k, y) :: pre, k', x, post, rfl, h0, h1, h2, ?_⟩
      simp only [List.mem_cons, forall_eq_or_imp]
      exact ⟨fun _ hh => (by rw [hw] at hh; cases hh), h3⟩
    rename_i hw
    have hw : y.isWeak = false := by simpa using hw
    cases hy : f k y with
    | none =>
      rw [hy] at h
      cases ig with
      | false =>
        cases h
        exact ⟨[], k, y, xs, rfl, hk, hw, .inr ⟨hy, rfl, rfl⟩, by simp⟩
      | true =>
        obtain ⟨pre, k', x, post, rfl, h0, h1, h2, h3⟩ := itemsLoopM_err cls f true e xs h
        refine ⟨(k, y) :: pre, k', x, post, rfl, h0, h1, h2, ?_⟩
        simp only [List.mem_cons, forall_eq_or_imp]
        exact ⟨fun _ _ r hr => (by rw [hy] at hr; cases hr), h3⟩
    | some r =>
      rw [hy] at h
      cases r with
      | error e' =>
        cases h
        exact ⟨[], k, y, xs, rfl, hk, hw, .inl hy, by simp⟩
      | ok r =>
        simp only [bind, Except.bind] at h
        cases hr : itemsLoopM cls f ig xs with
        | ok r' => rw [hr] at h; cases h
        | error e' =>
          rw [hr] at h
          cases h
          obtain ⟨pre, k', x, post, rfl, h0, h1, h2, h3⟩ := itemsLoopM_err cls f ig e xs hr
          refine ⟨(k, y) :: pre, k', x, post, rfl, h0, h1, h2, ?_⟩
          simp only [List.mem_cons, forall_eq_or_imp]
          exact ⟨fun _ _ r' hr' => (by rw [hy] at hr'; cases hr'; exact ⟨r, rfl⟩), h3⟩

/-- `s` is printed for the object `v`: an object with a class name is printed with this name, the other entries as they are, any other value as it is -/
def PrintsNamed (v s : Val) : Prop :=
  (∀ d n, v = .dict d → dget d NAME_KEY = some (.str n) →
    ∃ kvs, s = .ntup n kvs ∧ ∀ k, dget kvs k = if k = NAME_KEY then none else dget d k) ∧
  ((∀ d n, v = .dict d → dget d NAME_KEY ≠ some (.str n)) → s = v)

/-- `s` is printed for the value `v`: as before, but an object with a class name and no entries is printed as its name -/
def Prints (v s : Val) : Prop :=
  (∀ d n, v = .dict d → dget d NAME_KEY = some (.str n) → (∀ k, k ≠ NAME_KEY → dget d k = none) → s = .str n) ∧
  (∀ d n k x, v = .dict d → dget d NAME_KEY = some (.str n) → k ≠ NAME_KEY → dget d k = some x → PrintsNamed v s) ∧
  (∀ n, v = .ntup n [] → s = .str n) ∧
  ((∀ d n, v = .dict d → dget d NAME_KEY ≠ some (.str n)) → (∀ n, v ≠ .ntup n []) → s = v)

theorem printsNamed_ok (v : Val) : PrintsNamed v (namedShown v) := by
  refine ⟨?_, fun h => ?_⟩
  · rintro d n rfl hn
    refine ⟨ddel d NAME_KEY, by simp only [namedShown, hn], fun k => ?_⟩
    split
    · rename_i e; rw [e, dget_ddel_self]
    · rename_i e; rw [dget_ddel_ne _ (fun h => e h.symm)]
  · cases v with
    | dict d =>
      simp only [namedShown]
      split
      · rename_i n hn; exact absurd hn (h d n rfl)
      · rfl
    | _ => rfl

theorem prints_ok (v : Val) : Prints v (shownAs v) := by
  refine ⟨?_, ?_, ?_, fun h h2 => ?_⟩
  · rintro d n rfl hn h0
    have : ddel d NAME_KEY = [] := by
      cases hd : ddel d NAME_KEY with
      | nil => rfl
      | cons p r =>
        obtain ⟨k, x⟩ := p
        have h1 : dget (ddel d NAME_KEY) k = some x := by rw [hd]; simp [dget]
        by_cases e : NAME_KEY = k
        · rw [← e, dget_ddel_self] at h1; cases h1
        · rw [dget_ddel_ne _ e, h0 k (fun h => e h.symm)] at h1; cases h1
    simp only [shownAs, namedShown, hn, this]
  · rintro d n k x rfl hn hk hx
    have hs : shownAs (.dict d) = namedShown (.dict d) := by
      simp only [shownAs, namedShown, hn]
      cases hd : ddel d NAME_KEY with
      | nil =>
        have h1 := dget_ddel_ne d (k := NAME_KEY) (q := k) (fun h => hk h.symm)
        rw [hd, hx] at h1
        cases h1
      | cons p r => rfl
    rw [hs]
    exact printsNamed_ok _
  · rintro n rfl; rfl
  · have h3 := (printsNamed_ok v).2 h
    simp only [shownAs, h3]

/-- What the message says of a load, in the value `v'`, declared as `t'`, at the place written `p`. -/
def Told (c : DCfg) (p : String) (t' : PyTy) (v' : Val) : Msg → Prop
  | .notA p' s ty => p' = p ∧ ty = t' ∧ Prints v' s ∧ Wrong c t' v'
  | .notInt p' s => p' = p ∧ s = v' ∧ (∃ text, v' = .str text) ∧ Wrong c t' v'
  | .notOneOf p' s as => p' = p ∧ t' = .union as ∧ PrintsNamed v' s ∧ Wrong c t' v'
  | .notLiteral p' s vals => p' = p ∧ t' = .literal vals ∧ (s = v' ∨ ∃ n, v' = .ntup n [] ∧ s = .str n) ∧ Wrong c t' v'
  | .noAttr cls k => ∃ fs d, t' = .data cls fs .none ∧ NotOf cls v' ∧ Entries c.env v' d ∧ Given d k ∧ ∀ f ∈ fs, f.name ≠ k
  | .notObj s cls => ∃ fs, t' = .data cls fs .none ∧ NotOf cls v' ∧ s = v' ∧ ∀ d, ¬ Entries c.env v' d
  | .missing cls ps => ∃ n fs d, t' = .data n fs .none ∧ NotOf n v' ∧ Entries c.env v' d ∧ ∃ rest p' gs,
      (∀ f, f ∈ rest ↔ f ∈ fs ∧ ¬ Given d f.name) ∧ Opens n p rest cls p' gs ∧
      ps = (gs.filter Fld.owed).map (fun f => Hop.onto p' (.field f.name)) ∧ ps ≠ []
  | .other => False

/-- what the message `m` says, of a load at place `base`, is about the first value that fails -/
def Blames (c : DCfg) (base : String) (t : PyTy) (v : Val) (m : Msg) : Prop :=
  ∃ q t' v', ReachP c (Loads c) t v q t' v' ∧ Told c (showFrom base q) t' v' m

/-- it says something about the place -/
def Msg.says : Msg → Bool
  | .other => false
  | _ => true

theorem located_path {r : Except Err α} {e : Err} {m : Msg} {f : Err → Msg} (h : located f r = .error (e, m)) :
    r = .error e ∧ m = f e := by
  cases r with
  | ok a => cases h
  | error e' => cases h; exact ⟨rfl, rfl⟩

theorem bare_path {r : Except Err α} {e : Err} {m : Msg} (h : bare r = .error (e, m)) : m = .other := (located_path h).2

/-- only the conversion of a text to an int names a place -/
theorem prim_blames (e : Ext) (wi wf ws : Bool) (path : String) (v : Val) (er : Err) (m : Msg)
    (h : primBranchesM e wi wf ws path v = .error (er, m)) (hm : m.says ≠ false) :
    m = .notInt path v ∧ wi = true ∧ wf = false ∧ ∃ s, v = .str s ∧ NotWhole e s := by
  obtain ⟨h1, h2⟩ := located_path h
  have her : er = .deserValue := by
    cases er <;> first | rfl | (subst h2; exact absurd rfl hm)
  subst her
  refine ⟨h2, ?_⟩
  clear h2 hm h
  have hfl : ∀ i : Int, toFloat i ≠ .error .deserValue := by
    intro i hh
    simp only [toFloat, bind, Except.bind, pure, Except.pure] at hh
    cases hf : floatOfInt i with
    | ok x => rw [hf] at hh; cases hh
    | error x =>
      rw [hf] at hh
      cases hh
      unfold floatOfInt at hf
      dsimp only at hf
      by_cases hb : 2 ^ 1024 ≤ roundNat i.natAbs
      · rw [if_pos hb] at hf; injection hf with hf; cases hf
      · rw [if_neg hb] at hf; injection hf
  cases v <;> simp only [primBranches] at h1
  case ntup n kvs => cases kvs <;> (try dsimp only at h1) <;> (try split at h1) <;> cases h1
  case int i =>
    split at h1
    · simp only [bind, Except.bind, pure, Except.pure] at h1
      cases hf : toFloat i with
      | ok x => rw [hf] at h1; cases h1
      | error x => rw [hf] at h1; cases h1; exact absurd hf (hfl i)
    · cases h1
  case bool i =>
    split at h1
    · simp only [bind, Except.bind, pure, Except.pure] at h1
      cases hf : toFloat (if i = true then 1 else 0) with
      | ok x => rw [hf] at h1; cases h1
      | error x => rw [hf] at h1; cases h1; exact absurd hf (hfl _)
    · cases h1
  case flt f =>
    split at h1
    · cases f <;> simp only [Flt.toInt, bind, Except.bind, pure, Except.pure] at h1
      · cases h1
      · cases h1
      · split at h1 <;> cases h1
    · cases h1
  case str s =>
    split at h1
    · simp only [strToFloat, bind, Except.bind] at h1
      cases hf : e.parseFloat s <;> rw [hf] at h1 <;> cases h1
    · rename_i hwf
      split at h1
      · rename_i hwi
        simp only [strToInt, bind, Except.bind] at h1
        refine ⟨hwi, by simpa using hwf, s, rfl, ?_⟩
        cases hf : e.parseFloat s with
        | none => rw [hf] at h1; cases h1
        | some f =>
          rw [hf] at h1
          cases f with
          | nan => cases h1
          | inf b => cases h1
          | fin q =>
            refine ⟨q, hf, ?_⟩
            intro hq
            simp only [Flt.toInt, (whole_iff q).mpr hq, if_true] at h1
            cases h1
      · cases h1
  all_goals cases h1

/-- nothing applies -/
theorem prim_none (e : Ext) (wi wf ws : Bool) (path : String) (v : Val) (h : primBranchesM e wi wf ws path v = .ok .none) :
    match v with
    | .ntup _ [] => ws = false
    | .int _ | .bool _ => wf = false
    | .flt f => wi = false ∨ ∃ q : Rat, f = .fin q ∧ q.den ≠ 1
    | .str _ => wf = false ∧ wi = false
    | _ => True := by
  have h1 : primBranches e wi wf ws v = .ok .none := by
    have := congrArg drop h
    rwa [drop_prim] at this
  cases v <;> simp only [primBranches] at h1 <;> try trivial
  case ntup n kvs => cases kvs <;> simp only [primBranches] at h1 <;> first | trivial | (split at h1 <;> simp_all)
  case int i =>
    split at h1
    · simp only [bind, Except.bind, pure, Except.pure] at h1
      split at h1 <;> cases h1
    · simp_all
  case bool i =>
    split at h1
    · simp only [bind, Except.bind, pure, Except.pure] at h1
      split at h1 <;> cases h1
    · simp_all
  case flt f =>
    split at h1
    · cases f <;> simp only [Flt.toInt, bind, Except.bind, pure, Except.pure] at h1
      · cases h1
      · cases h1
      · rename_i q
        refine .inr ⟨q, rfl, ?_⟩
        intro hq
        simp only [(whole_iff q).mpr hq, if_true] at h1
        cases h1
    · simp_all
  case str s =>
    split at h1
    · simp only [bind, Except.bind, pure, Except.pure] at h1
      split at h1 <;> cases h1
    · split at h1
      · simp only [bind, Except.bind, pure, Except.pure] at h1
        split at h1 <;> cases h1
      · simp_all

/-- the message lists the fields of `gs` that are owed -/
def Lists (m : Msg) (cls p : String) (gs : List Fld) : Prop :=
  m = .missing cls ((gs.filter Fld.owed).map (fun f => Hop.onto p (.field f.name))) ∧ gs.filter Fld.owed ≠ []

theorem makeTy_leaf : (t : PyTy) → (path : String) → (makeTy path t = .leaf ↔ ∀ n fs ver, t ≠ .data n fs ver)
  | .data n fs ver, path => by
    simp only [makeTy]
    constructor
    · intro h; split at h <;> cases h
    · intro h; exact absurd rfl (h n fs ver)
  | .int, _ | .float, _ | .str, _ | .bool, _ | .noneT, _ | .list _, _ | .tuple _, _ | .dict _ _, _ | .union _, _ | .enum _ _, _
  | .literal _, _ | .blob _, _ => by simp [makeTy]

theorem makeField_leaf (f : Fld) (path : String) : makeField path f = .leaf ↔ f.owed = true := by
  obtain ⟨n, t, d⟩ := f
  cases d with
  | some d => cases t <;> simp [makeField, Fld.owed]
  | none =>
    simp only [makeField, makeTy_leaf]
    cases t <;> simp [Fld.owed]

theorem makeFields_owed (path : String) : (fs : List Fld) → (ps : List String) → makeFields path fs = .ok ps →
    ps = (fs.filter Fld.owed).map (fun f => Hop.onto path (.field f.name))
  | [], ps, h => by simp [makeFields] at h; simp [h]
  | f :: fs, ps, h => by
    have hl := makeField_leaf f path
    simp only [makeFields] at h
    cases hm : makeField path f with
    | fine =>
      rw [hm] at h hl
      have : f.owed = false := by simpa using hl
      rw [List.filter_cons_of_neg (by simp [this])]
      exact makeFields_owed path fs ps h
    | leaf =>
      rw [hm] at h hl
      have : f.owed = true := by simpa using hl
      rw [List.filter_cons_of_pos this]
      cases hf : makeFields path fs with
      | error m' => simp only [hf] at h; cases h
      | ok qs =>
        simp only [hf] at h; cases h
        rw [makeFields_owed path fs qs hf]
        rfl
    | raised m' => rw [hm] at h; cases h

mutual
theorem makeTy_raised : (t : PyTy) → (path : String) → (m : Msg) → makeTy path t = .raised m →
    ∃ n fs ver cls p' gs, t = .data n fs ver ∧ Opens n path fs cls p' gs ∧ Lists m cls p' gs
  | .data n fs ver, path, m, h => by
    simp only [makeTy] at h
    cases hm : makeFields path fs with
    | error m' =>
      rw [hm] at h; cases h
      obtain ⟨k, n', gs0, ver', cls, p', gs, h1, h2, h3⟩ := makeFields_error fs path m hm
      exact ⟨n, fs, ver, cls, p', gs, rfl, .inside h1 h2, h3⟩
    | ok ps =>
      rw [hm] at h
      have ho := makeFields_owed path fs ps hm
      cases ps with
      | nil => cases h
      | cons p ps =>
        cases h
        exact ⟨n, fs, ver, n, path, fs, rfl, .here n path fs, by rw [ho], by intro hn; rw [hn] at ho; cases ho⟩
  | .int, _, _, h | .float, _, _, h | .str, _, _, h | .bool, _, _, h | .noneT, _, _, h | .list _, _, _, h | .tuple _, _, _, h
  | .dict _ _, _, _, h | .union _, _, _, h | .enum _ _, _, _, h | .literal _, _, _, h | .blob _, _, _, h => by
    simp [makeTy] at h
theorem makeFields_error : (fs : List Fld) → (path : String) → (m : Msg) → makeFields path fs = .error m →
    ∃ k n gs0 ver cls p' gs, Fld.mk k (.data n gs0 ver) .none ∈ fs ∧ Opens n (Hop.onto path (.field k)) gs0 cls p' gs ∧
      Lists m cls p' gs
  | [], _, _, h => by simp [makeFields] at h
  | f :: fs, path, m, h => by
    have skip : makeFields path fs = .error m → ∃ k n gs0 ver cls p' gs, Fld.mk k (.data n gs0 ver) .none ∈ f :: fs ∧
        Opens n (Hop.onto path (.field k)) gs0 cls p' gs ∧ Lists m cls p' gs := by
      intro h
      obtain ⟨k, n, gs0, ver, cls, p', gs, h1, h2⟩ := makeFields_error fs path m h
      exact ⟨k, n, gs0, ver, cls, p', gs, List.mem_cons_of_mem _ h1, h2⟩
    simp only [makeFields] at h
    cases hm : makeField path f with
    | fine => rw [hm] at h; exact skip h
    | leaf =>
      rw [hm] at h
      cases hf : makeFields path fs with
      | error m' => simp only [hf] at h; cases h; exact skip hf
      | ok ps => simp only [hf] at h; cases h
    | raised m' =>
      rw [hm] at h; cases h
      obtain ⟨k, n, gs0, ver, cls, p', gs, h1, h2⟩ := makeField_raised f path m hm
      exact ⟨k, n, gs0, ver, cls, p', gs, by rw [h1]; simp, h2⟩
theorem makeField_raised : (f : Fld) → (path : String) → (m : Msg) → makeField path f = .raised m →
    ∃ k n gs0 ver cls p' gs, f = Fld.mk k (.data n gs0 ver) .none ∧ Opens n (Hop.onto path (.field k)) gs0 cls p' gs ∧
      Lists m cls p' gs
  | .mk n t (some d), _, _, h => by simp [makeField] at h
  | .mk k t .none, path, m, h => by
    simp only [makeField] at h
    obtain ⟨n, fs, ver, cls, p', gs, h1, h2⟩ := makeTy_raised t _ m h
    exact ⟨k, n, fs, ver, cls, p', gs, by rw [h1], h2⟩
end

theorem fillM_says (order : List Fld → List Fld) (ho : IsOrder order) (cls0 path : String) (kw : List (String × Val)) (fs : List Fld) (e : Err) (m : Msg)
    (h : fillFieldsM order cls0 path kw fs = .error (e, m)) (hm : m.says ≠ false) : ∃ rest cls p' gs,
    (∀ f, f ∈ rest ↔ f ∈ fs ∧ (dget kw f.name).isSome = false) ∧ Opens cls0 path rest cls p' gs ∧ Lists m cls p' gs := by
  have hr : ∀ f, f ∈ order (fs.filter (fun f => !(dget kw f.name).isSome)) ↔ f ∈ fs ∧ (dget kw f.name).isSome = false := by
    intro f
    rw [(ho _).mem_iff]
    simp only [List.mem_filter, Bool.not_eq_true']
  unfold fillFieldsM at h
  split at h
  · rename_i m' hm'
    cases h
    obtain ⟨k, n, gs0, ver, cls, p', gs, h1, h2, h3⟩ := makeFields_error _ _ _ hm'
    exact ⟨_, cls, p', gs, hr, .inside h1 h2, h3⟩
  · exact absurd (bare_path h ▸ rfl) hm
  · rename_i ps hne hps
    cases h
    have ho := makeFields_owed path _ ps hps
    exact ⟨_, cls0, path, _, hr, .here _ _ _, by rw [ho], by intro hn; rw [hn] at ho; exact hne ho⟩

theorem rawM_ok (c : DCfg) (cls : String) (v : Val) (d : List (String × Val)) (h : asRawDictM c cls v = .ok d) :
    Entries c.env v d := by
  rw [entries_raw, ← drop_asRawDict c cls v, h]; rfl

theorem rawM_says (c : DCfg) (cls : String) (v : Val) (e : Err) (m : Msg) (h : asRawDictM c cls v = .error (e, m))
    (hm : m.says ≠ false) : m = .notObj v cls ∧ ∀ d, ¬ Entries c.env v d := by
  have hd : ∀ d, ¬ Entries c.env v d := by
    intro d hd
    have h1 := drop_asRawDict c cls v
    rw [(entries_raw c v d).mp hd, h] at h1
    cases h1
  refine ⟨?_, hd⟩
  cases v with
  | inst n kvs =>
    simp only [asRawDictM, bind, Except.bind] at h
    cases ha : asdict { plainCfg with env := c.env } "" (.inst n kvs) with
    | error e' =>
      rw [ha] at h; cases h
      exact absurd rfl hm
    | ok r =>
      obtain ⟨d, hr⟩ := plain_inst c.env n kvs r ha
      rw [ha] at h
      simp only [bare, located, pure, Except.pure, hr] at h
      cases h
  | tup xs => cases xs <;> cases h; rfl
  | _ => cases h <;> rfl

/-- the values that were taken from the document -/
theorem itemsLoopM_given (cls : String) (f : String → Val → Option ResM) (ig : Bool) : (xs : List (String × Val)) →
    (kw : List (String × Val)) → (es : List Ev) → itemsLoopM cls f ig xs = .ok (kw, es) →
    ∀ k, (dget kw k).isSome = true ↔ ∃ x, (k, x) ∈ xs ∧ k ≠ NAME_KEY ∧ x.isWeak = false ∧ (f k x).isSome = true
  | [], kw, es, h, k => by
    simp only [itemsLoopM] at h
    cases h
    simp [dget]
  | (k0, y) :: xs, kw, es, h, k => by
    simp only [itemsLoopM] at h
    split at h
    · rename_i hk
      rw [itemsLoopM_given cls f ig xs kw es h k]
      constructor
      · rintro ⟨x, h1, h2⟩; exact ⟨x, List.mem_cons_of_mem _ h1, h2⟩
      · rintro ⟨x, h1, h2⟩
        rcases List.mem_cons.mp h1 with h1 | h1
        · cases h1; exact absurd hk h2.1
        · exact ⟨x, h1, h2⟩
    rename_i hk
    split at h
    · rename_i hw
      rw [itemsLoopM_given cls f ig xs kw es h k]
      constructor
      · rintro ⟨x, h1, h2⟩; exact ⟨x, List.mem_cons_of_mem _ h1, h2⟩
      · rintro ⟨x, h1, h2⟩
        rcases List.mem_cons.mp h1 with h1 | h1
        · cases h1; rw [hw] at h2; cases h2.2.1
        · exact ⟨x, h1, h2⟩
    rename_i hw
    cases hy : f k0 y with
    | none =>
      rw [hy] at h
      cases ig with
      | false => cases h
      | true =>
        rw [itemsLoopM_given cls f true xs kw es h k]
        constructor
        · rintro ⟨x, h1, h2⟩; exact ⟨x, List.mem_cons_of_mem _ h1, h2⟩
        · rintro ⟨x, h1, h2⟩
          rcases List.mem_cons.mp h1 with h1 | h1
          · cases h1; rw [hy] at h2; cases h2.2.2
          · exact ⟨x, h1, h2⟩
    | some r =>
      rw [hy] at h
      simp only [bind, Except.bind] at h
      cases r with
      | error e => cases h
      | ok r =>
        cases hr : itemsLoopM cls f ig xs with
        | error e => rw [hr] at h; cases h
        | ok r' =>
          rw [hr] at h; cases h
          have ih := itemsLoopM_given cls f ig xs r'.1 r'.2 hr k
          simp only [dget]
          by_cases hkk : k0 = k
          · subst hkk
            simp only [if_true, Option.isSome_some, true_iff]
            exact ⟨y, by simp, hk, by simpa using hw, by rw [hy]; rfl⟩
          · simp only [hkk, if_false, ih]
            constructor
            · rintro ⟨x, h1, h2⟩; exact ⟨x, List.mem_cons_of_mem _ h1, h2⟩
            · rintro ⟨x, h1, h2⟩
              rcases List.mem_cons.mp h1 with h1 | h1
              · cases h1; exact absurd rfl hkk
              · exact ⟨x, h1, h2⟩

theorem loads_of {c : DCfg} {order : List Fld → List Fld} (ho : IsOrder order) {t : PyTy} {p : String} {v : Val} {r : Val × List Ev}
    (h : fromDictM c order t false p v = .ok r) : Loads c t v :=
  ⟨p, r, by rw [← drop_fromDict c order ho, h]; rfl⟩

/-- the dataclass branch -/
theorem object_blames (c : DCfg) (order : List Fld → List Fld) (ho : IsOrder order) (n : String) (fs : List Fld) (ig : Bool)
    (base : String) (v : Val) (e : Err) (m : Msg) (hv : NotOf n v)
    (ih : ∀ f ∈ fs, ∀ ig base v e m, fromDictM c order f.ty ig base v = .error (e, m) → m.says ≠ false → Blames c base f.ty v m)
    (h : (do
      let d ← asRawDictM c n v
      let (kwargs, es) ← itemsLoopM n (fun k x => fmField c order fs k (fieldPath base k) x) ig d
      let kvs ← fillFieldsM order n base kwargs fs
      return (.inst n kvs, es) : ResM) = .error (e, m)) (hm : m.says ≠ false) : Blames c base (.data n fs .none) v m := by
  simp only [bind, Except.bind, pure, Except.pure] at h
  cases hd : asRawDictM c n v with
  | error er =>
    obtain ⟨e1, m1⟩ := er
    rw [hd] at h; cases h
    obtain ⟨rfl, h1⟩ := rawM_says c n v _ _ hd hm
    exact ⟨[], .data n fs .none, v, .here _ _, fs, rfl, hv, rfl, h1⟩
  | ok d =>
    rw [hd] at h
    dsimp only at h
    cases hl : itemsLoopM n (fun k x => fmField c order fs k (fieldPath base k) x) ig d with
    | error er =>
      rw [hl] at h; cases h
      obtain ⟨pre, k, x, post, rfl, hk, hw, hx, hpre⟩ := itemsLoopM_err n _ ig (e, m) d hl
      rcases hx with hx | ⟨hx0, _, hx⟩
      · simp only [fmField_find] at hx
        cases hf : fs.find? (fun g => g.name == k) with
        | none => rw [hf] at hx; simp at hx
        | some f =>
          rw [hf] at hx
          simp only [Option.map_some, Option.some.injEq] at hx
          obtain ⟨q, t', v', h1, h2⟩ := ih f (List.mem_of_find?_eq_some hf) _ _ _ _ _ hx hm
          refine ⟨.field k :: q, t', v', .field hv (rawM_ok c n v _ hd) hk hw hf ?_ h1, h2⟩
          intro y hy hyk hyw g hg
          obtain ⟨a, ha⟩ := hpre y hy hyk hyw (fromDictM c order g.ty false (fieldPath base y.1) y.2)
            (by rw [fmField_find, hg]; rfl)
          exact loads_of ho ha
      · cases hx
        refine ⟨[], .data n fs .none, v, .here _ _, fs, _, rfl, hv, rawM_ok c n v _ hd, ⟨x, by simp, hk, hw⟩, ?_⟩
        rw [fmField_find] at hx0
        have hx0 : fs.find? (fun g => g.name == k) = .none := by simpa using hx0
        intro f hf
        have := List.find?_eq_none.mp hx0 f hf
        simpa using this
    | ok r =>
      rw [hl] at h
      dsimp only at h
      cases hfl : fillFieldsM order n base r.1 fs with
      | error er =>
        obtain ⟨e1, m1⟩ := er
        rw [hfl] at h; cases h
        obtain ⟨rest, cls, p', gs, h1, h2, rfl, h3⟩ := fillM_says order ho n base r.1 fs _ _ hfl hm
        refine ⟨[], .data n fs .none, v, .here _ _, n, fs, d, rfl, hv, rawM_ok c n v _ hd, rest, p', gs, ?_, h2, rfl, by simpa using h3⟩
        intro f
        rw [h1 f]
        have hg := itemsLoopM_given n _ ig d r.1 r.2 hl f.name
        refine and_congr_right (fun hf => ?_)
        rw [← Bool.not_eq_true, hg]
        refine not_congr ?_
        simp only [fmField_find, Option.isSome_map]
        constructor
        · rintro ⟨x, a1, a2, a3, _⟩; exact ⟨x, a1, a2, a3⟩
        · rintro ⟨x, a1, a2, a3⟩
          exact ⟨x, a1, a2, a3, by rw [List.find?_isSome]; exact ⟨f, hf, by simp⟩⟩
      | ok r' => rw [hfl] at h; cases h

theorem sizeOf_ty_lt {f : Fld} {fs : List Fld} (h : f ∈ fs) (n : String) (ver : Option VerInfo) :
    sizeOf f.ty < sizeOf (PyTy.data n fs ver) := by
  have h1 := List.sizeOf_lt_of_mem h
  obtain ⟨a, t, d⟩ := f
  simp only [Fld.mk.sizeOf_spec] at h1
  simp only [PyTy.data.sizeOf_spec, Fld.ty]
  omega

theorem optional_args {as : List PyTy} (h : isOptionalArgs as = true) : ∃ a, as = [a, .noneT] := by
  match as, h with
  | [a, b], h =>
    have hb : b = .noneT := by cases b <;> first | rfl | cases h
    exact ⟨a, by rw [hb]⟩

theorem blames_here (c : DCfg) (base : String) (t : PyTy) (v : Val) (m : Msg) (s : Val) (hm : m = .notA base s t)
    (hs : s = shownAs v) (hw : Wrong c t v) : Blames c base t v m := by
  subst hm hs
  exact ⟨[], t, v, .here t v, rfl, rfl, prints_ok v, hw⟩

/-- every message with a place blames the value there -/
theorem blames (c : DCfg) (order : List Fld → List Fld) (ho : IsOrder order) : (t : PyTy) → (ig : Bool) →
    (base : String) → (v : Val) → (e : Err) → (m : Msg) → fromDictM c order t ig base v = .error (e, m) → m.says ≠ false →
    Blames c base t v m
  | .int, ig, base, v, e, m, h, hm => by
    have here := blames_here c base (.int) v m
    simp only [fromDictM] at h
    cases hs : schedHook c.ext true base v with
    | some r =>
      rw [hs] at h
      exact absurd (bare_path h ▸ rfl) hm
    | none =>
      rw [hs] at h
      have key : (do match ← primBranchesM c.ext true false false base v with
          | some r => return r
          | .none => throw (.deserType, .notA base (shownAs v) .int) : ResM) = .error (e, m) → (∀ i, v ≠ .int i) → (∀ b, v ≠ .bool b) →
          Blames c base .int v m := by
        intro h hi hb
        simp only [bind, Except.bind] at h
        cases hp : primBranchesM c.ext true false false base v with
        | error er =>
          rw [hp] at h; cases h
          obtain ⟨rfl, _, _, s, rfl, hbr⟩ := prim_blames _ _ _ _ _ _ _ _ hp hm
          refine ⟨[], .int, .str s, .here _ _, rfl, rfl, ⟨s, rfl⟩, ?_, hbr⟩
          intro hat
          simp [schedHook, hat] at hs
        | ok o =>
          rw [hp] at h
          cases o with
          | some r => cases h
          | none =>
            cases h
            have hn := prim_none _ _ _ _ _ _ hp
            refine here _ rfl rfl ?_
            cases v <;> simp_all [Wrong]
      cases v
      case int => cases h
      case bool => cases h
      all_goals exact key h (by simp) (by simp)
  | .float, ig, base, v, e, m, h, hm => by
    have here := blames_here c base (.float) v m
    simp only [fromDictM] at h
    cases hs : schedHook c.ext false base v with
    | some r =>
      rw [hs] at h
      exact absurd (bare_path h ▸ rfl) hm
    | none =>
      rw [hs] at h
      have key : (do match ← primBranchesM c.ext false true false base v with
          | some r => return r
          | .none => throw (.deserType, .notA base (shownAs v) .float) : ResM) = .error (e, m) → (∀ i, v ≠ .flt i) →
          Blames c base .float v m := by
        intro h hi
        simp only [bind, Except.bind] at h
        cases hp : primBranchesM c.ext false true false base v with
        | error er =>
          rw [hp] at h; cases h
          obtain ⟨rfl, hwi, _⟩ := prim_blames _ _ _ _ _ _ _ _ hp hm
          cases hwi
        | ok o =>
          rw [hp] at h
          cases o with
          | some r => cases h
          | none =>
            cases h
            have hn := prim_none _ _ _ _ _ _ hp
            refine here _ rfl rfl ?_
            cases v <;> simp_all [Wrong]
      cases v
      case flt => cases h
      all_goals exact key h (by simp)
  | .str, ig, base, v, e, m, h, hm => by
    have here := blames_here c base (.str) v m
    simp only [fromDictM] at h
    have key : (do match ← primBranchesM c.ext false false true base v with
          | some r => return r
          | .none => throw (.deserType, .notA base (shownAs v) .str) : ResM) = .error (e, m) → (∀ i, v ≠ .str i) →
          Blames c base .str v m := by
      intro h hi
      simp only [bind, Except.bind] at h
      cases hp : primBranchesM c.ext false false true base v with
      | error er =>
        rw [hp] at h; cases h
        obtain ⟨rfl, hwi, _⟩ := prim_blames _ _ _ _ _ _ _ _ hp hm
        cases hwi
      | ok o =>
        rw [hp] at h
        cases o with
        | some r => cases h
        | none =>
          cases h
          have hn := prim_none _ _ _ _ _ _ hp
          refine here _ rfl rfl ?_
          cases v
          case ntup n kvs => cases kvs <;> simp_all [Wrong]
          all_goals simp_all [Wrong]
    cases v
    case str => cases h
    all_goals exact key h (by simp)
  | .bool, ig, base, v, e, m, h, hm => by
    have here := blames_here c base (.bool) v m
    simp only [fromDictM] at h
    cases v <;> cases h <;> exact here _ rfl rfl trivial
  | .noneT, ig, base, v, e, m, h, hm => by
    have here := blames_here c base (.noneT) v m
    simp only [fromDictM] at h
    cases v <;> cases h <;> exact here _ rfl rfl trivial
  | .union as, ig, base, v, e, m, h, hm => by
    have here := blames_here c base (.union as) v m
    simp only [fromDictM] at h
    split at h
    · rename_i hopt
      split at h
      · cases h
      · rename_i hn
        obtain ⟨a, has⟩ := optional_args hopt
        have hlt : sizeOf a < sizeOf as := by
          rw [has]; simp only [List.cons.sizeOf_spec]; omega
        have h' : fromDictM c order a ig base v = .error (e, m) := by rw [has] at h; simpa only [fmHead] using h
        obtain ⟨q, t', v', h1, h2⟩ := blames c order ho a ig base v e m h' hm
        refine ⟨q, t', v', ?_, h2⟩
        rw [has]
        exact .optional (fun hv => hn (by rw [hv]; rfl)) h1
    · rename_i hopt
      have hopt : isOptionalArgs as = false := by simpa using hopt
      simp only [bind, Except.bind] at h
      cases hp : primBranchesM c.ext (as.any PyTy.isInt) (as.any PyTy.isFloat) (as.any PyTy.isStr) base v with
      | error er =>
        rw [hp] at h; cases h
        obtain ⟨rfl, hwi, hwf, s, rfl, hbr⟩ := prim_blames _ _ _ _ _ _ _ _ hp hm
        exact ⟨[], .union as, .str s, .here _ _, rfl, rfl, ⟨s, rfl⟩, hopt, hwf, .inr hbr⟩
      | ok o =>
        rw [hp] at h
        cases o with
        | some r => cases h
        | none =>
          have hn := prim_none _ _ _ _ _ _ hp
          have one : m = .notOneOf base (namedShown v) as → Wrong c (.union as) v → Blames c base (.union as) v m := by
            rintro rfl hw
            exact ⟨[], .union as, v, .here _ _, rfl, rfl, printsNamed_ok v, hw⟩
          simp only [throw, throwThe, MonadExceptOf.throw] at h
          cases v
          case dict d =>
            dsimp only at h
            cases hb : (dget d NAME_KEY).bind (fun n => fmNamed c order as n ig base (.dict d)) with
            | some r =>
              rw [hb] at h
              dsimp only at h
              subst h
              cases hd : dget d NAME_KEY with
              | none => rw [hd] at hb; cases hb
              | some n =>
                rw [hd] at hb
                simp only [Option.bind_some] at hb
                obtain ⟨pre, a, post, has, h1, h2, h3⟩ := fmNamed_some c order n ig base _ _ as hb
                have hlt : sizeOf a < sizeOf as := List.sizeOf_lt_of_mem (by rw [has]; simp)
                obtain ⟨q, t', v', g1, g2⟩ := blames c order ho a ig base _ e m h3.symm hm
                refine ⟨q, t', v', ?_, g2⟩
                rw [has]
                exact .tagged (by rw [← has]; exact hopt) hd h1 h2 g1
            | none =>
              rw [hb] at h
              dsimp only at h
              split at h
              · cases h; exact absurd rfl hm
              · rename_i hargs
                cases h
                refine one rfl ⟨hopt, by simpa using hargs, ?_⟩
                intro n hd
                rw [hd] at hb
                exact fmNamed_none c order n ig base _ as hb
          case list xs =>
            dsimp only at h
            split at h
            · cases h; exact absurd rfl hm
            · rename_i hargs
              cases h
              exact one rfl ⟨hopt, by simpa using hargs⟩
          case ntup n kvs =>
            cases h
            cases kvs
            · exact one rfl ⟨hopt, hn⟩
            · exact one rfl ⟨hopt, trivial⟩
          case str s =>
            cases h
            exact one rfl ⟨hopt, hn.1, .inl hn.2⟩
          all_goals
            cases h
            exact one rfl ⟨hopt, hn⟩
  | .list a, ig, base, v, e, m, h, hm => by
    have here := blames_here c base (.list a) v m
    simp only [fromDictM] at h
    cases v
    case list xs =>
      simp only [bind, Except.bind] at h
      cases hl : mapIdxM (fun i x => fromDictM c order a false (base ++ "[" ++ i.repr ++ "]") x) 0 xs with
      | ok r => rw [hl] at h; cases h
      | error er =>
        rw [hl] at h; cases h
        obtain ⟨pre, x, post, rfl, h1, h2⟩ := mapIdxM_err _ _ 0 xs hl
        rw [Nat.zero_add] at h1
        obtain ⟨q, t', v', g1, g2⟩ := blames c order ho a _ _ _ e m h1 hm
        refine ⟨.elem pre.length :: q, t', v', .elem ?_ g1, g2⟩
        intro y hy
        obtain ⟨j, hj⟩ := List.getElem?_of_mem hy
        obtain ⟨r, hr⟩ := h2 j y hj
        exact loads_of ho hr
    all_goals cases h; exact here _ rfl rfl trivial
  | .tuple as, ig, base, v, e, m, h, hm => by
    have here := blames_here c base (.tuple as) v m
    simp only [fromDictM] at h
    have key : ∀ xs e' , mapIdxM (fun i x => fmNth c order as i (base ++ "[" ++ i.repr ++ "]") x) 0 xs = .error e' → e' = (e, m) →
        ∃ pre x post a q t' v', xs = pre ++ x :: post ∧ as[pre.length]? = some a ∧
        (∀ (j : Nat) (y : Val) (b : PyTy), pre[j]? = some y → as[j]? = some b → Loads c b y) ∧ ReachP c (Loads c) a x q t' v' ∧
        Told c (showFrom base (.elem pre.length :: q)) t' v' m := by
      rintro xs e' hl rfl
      obtain ⟨pre, x, post, hxs, h1, h2⟩ := mapIdxM_err _ _ 0 xs hl
      rw [Nat.zero_add, fmNth_eq] at h1
      cases ha : as[pre.length]? with
      | none => rw [ha] at h1; cases h1; exact absurd rfl hm
      | some a =>
        rw [ha] at h1
        have hlt : sizeOf a < sizeOf as := List.sizeOf_lt_of_mem (List.mem_of_getElem? ha)
        obtain ⟨q, t', v', g1, g2⟩ := blames c order ho a _ _ _ e m h1 hm
        refine ⟨pre, x, post, a, q, t', v', hxs, ha, ?_, g1, g2⟩
        intro j y b hj hb
        obtain ⟨r, hr⟩ := h2 j y hj
        simp only [Nat.zero_add, fmNth_eq, hb] at hr
        exact loads_of ho hr
    cases v
    case tup xs =>
      simp only [bind, Except.bind] at h
      cases hl : mapIdxM (fun i x => fmNth c order as i (base ++ "[" ++ i.repr ++ "]") x) 0 xs with
      | ok r => rw [hl] at h; cases h
      | error er =>
        rw [hl] at h; cases h
        obtain ⟨pre, x, post, a, q, t', v', rfl, g0, g1, g2, g3⟩ := key xs _ hl rfl
        exact ⟨_, t', v', .member g0 g1 g2, g3⟩
    case ntup n kvs =>
      simp only [bind, Except.bind] at h
      cases hl : mapIdxM (fun i x => fmNth c order as i (base ++ "[" ++ i.repr ++ "]") x) 0 (kvs.map Prod.snd) with
      | ok r => rw [hl] at h; cases h
      | error er =>
        rw [hl] at h; cases h
        obtain ⟨pre, x, post, a, q, t', v', hx, g0, g1, g2, g3⟩ := key _ _ hl rfl
        exact ⟨_, t', v', .nmember hx g0 g1 g2, g3⟩
    all_goals cases h; exact here _ rfl rfl trivial
  | .dict a b, ig, base, v, e, m, h, hm => by
    have here := blames_here c base (.dict a b) v m
    simp only [fromDictM] at h
    cases v
    case dict xs =>
      simp only [bind, Except.bind] at h
      cases hl : mapItemsM (fun k x => fromDictM c order b false (base ++ "." ++ k) x) xs with
      | ok r => rw [hl] at h; cases h
      | error er =>
        rw [hl] at h; cases h
        obtain ⟨pre, k, x, post, rfl, h1, h2⟩ := mapItemsM_err _ _ xs hl
        obtain ⟨q, t', v', g1, g2⟩ := blames c order ho b _ _ _ e m h1 hm
        refine ⟨.key k :: q, t', v', .item ?_ g1, g2⟩
        intro y hy
        obtain ⟨r, hr⟩ := h2 y hy
        exact loads_of ho hr
    all_goals cases h; exact here _ rfl rfl trivial
  | .data n fs ver, ig, base, v, e, m, h, hm => by
    have here := blames_here c base (.data n fs ver) v m
    have ih : ∀ f ∈ fs, ∀ ig base v e m, fromDictM c order f.ty ig base v = .error (e, m) → m.says ≠ false →
        Blames c base f.ty v m := by
      intro f hf
      have hlt := sizeOf_ty_lt hf n ver
      exact blames c order ho f.ty
    simp only [fromDictM] at h
    have key : ∀ w : Val, (match w with
        | .inst cls kvs =>
          if cls = n then pure (.inst cls kvs, [])
          else do
            let d ← asRawDictM c n (.inst cls kvs)
            let (kwargs, es) ← itemsLoopM n (fun k x => fmField c order fs k (fieldPath base k) x) ig d
            let kvs ← fillFieldsM order n base kwargs fs
            return (.inst n kvs, es)
        | v => do
          let d ← asRawDictM c n v
          let (kwargs, es) ← itemsLoopM n (fun k x => fmField c order fs k (fieldPath base k) x) ig d
          let kvs ← fillFieldsM order n base kwargs fs
          return (.inst n kvs, es) : ResM) = .error (e, m) → Blames c base (.data n fs .none) w m := by
      intro w hw
      cases w
      case inst cls kvs =>
        dsimp only at hw
        split at hw
        · cases hw
        · rename_i hne
          exact object_blames c order ho n fs ig base _ e m hne ih hw hm
      all_goals exact object_blames c order ho n fs ig base _ e m trivial ih hw hm
    cases ver with
    | none => exact key v h
    | some vi =>
      dsimp only at h
      cases hv : versionHook c.allowMissing vi v with
      | error er =>
        rw [hv] at h
        cases h
        exact absurd rfl hm
      | ok w =>
        rw [hv] at h
        obtain ⟨q, t', v', g1, g2⟩ := key w h
        exact ⟨q, t', v', .upgraded hv g1, g2⟩
  | .enum cls ms, ig, base, v, e, m, h, hm => by
    have here := blames_here c base (.enum cls ms) v m
    exfalso
    simp only [fromDictM] at h
    have key : ∀ r : Except Err Val, (do return (← bare r, []) : ResM) = .error (e, m) → False := by
      intro r hr
      cases r with
      | ok a => cases hr
      | error er => cases hr; exact hm rfl
    cases v
    case enm =>
      dsimp only at h
      split at h
      · cases h
      · exact key _ h
    all_goals exact key _ h
  | .literal vals, ig, base, v, e, m, h, hm => by
    have here := blames_here c base (.literal vals) v m
    simp only [fromDictM] at h
    split at h
    · rename_i hok
      have key : ∀ w : Val, ((w = v ∧ ∀ n, v ≠ .ntup n []) ∨ ∃ n, v = .ntup n [] ∧ w = .str n) →
          (if pyMem w vals = true then Except.ok (w, []) else .error (.deserValue, .notLiteral base w vals) : ResM) = .error (e, m) →
          Blames c base (.literal vals) v m := by
        intro w hw h
        split at h
        · cases h
        · rename_i hmem
          cases h
          refine ⟨[], .literal vals, v, .here _ _, rfl, rfl, hw.imp And.left id, ?_⟩
          replace hmem : pyMem w vals = false := by simpa using hmem
          rcases hw with ⟨rfl, hno⟩ | ⟨n, rfl, rfl⟩
          · cases w
            case ntup n kvs =>
              cases kvs
              · exact absurd rfl (hno n)
              · exact ⟨hok, hmem⟩
            all_goals exact ⟨hok, hmem⟩
          · exact ⟨hok, hmem⟩
      cases v
      case ntup n kvs =>
        cases kvs
        · exact key _ (.inr ⟨n, rfl, rfl⟩) h
        · exact key _ (.inl ⟨rfl, by simp⟩) h
      all_goals exact key _ (.inl ⟨rfl, by simp⟩) h
    · cases h; exact absurd rfl hm
  | .blob cls, ig, base, v, e, m, h, hm => by
    have here := blames_here c base (.blob cls) v m
    simp only [fromDictM] at h
    split at h
    · exact absurd (bare_path h ▸ rfl) hm
    · rename_i hfile
      have hfile : c.file = false := by simpa using hfile
      cases v
      case ser cls' r =>
        dsimp only at h
        split at h
        · cases h
        · rename_i hne
          cases h
          exact here _ rfl rfl ⟨hfile, hne⟩
      all_goals cases h; exact here _ rfl rfl hfile
termination_by t => sizeOf t
decreasing_by
  all_goals first
    | (simp only [PyTy.union.sizeOf_spec, PyTy.tuple.sizeOf_spec, PyTy.list.sizeOf_spec, PyTy.dict.sizeOf_spec,
        List.cons.sizeOf_spec]; omega)
    | assumption

end HS
