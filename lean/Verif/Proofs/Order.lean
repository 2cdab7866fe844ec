import Verif.Proofs.Frame
import Verif.Proofs.PyEq
/-!
# Values that differ in the order of dict entries only
-/
namespace HS

/-- not a dict, list or tuple -/
def Val.isAtom : Val → Bool
  | .dict _ | .list _ | .tup _ => false
  | _ => true

/-- The same value up to the order of the entries of the dicts inside, at any depth. In a document (`o = false`) every dict has
distinct keys; among loaded values (`o = true`) dicts inside objects are considered too, and any value is related to itself. -/
inductive VPerm (o : Bool) : Val → Val → Prop
  | refl (ho : o = true) (v : Val) : VPerm o v v
  | atom {v : Val} (h : v.isAtom = true) : VPerm o v v
  | dict {d d' : List (String × Val)} (nd : (dkeys d).Nodup) (nd' : (dkeys d').Nodup) (hs : ∀ k, dhas d k = dhas d' k)
      (h : ∀ k x y, dget d k = some x → dget d' k = some y → VPerm o x y) : VPerm o (.dict d) (.dict d')
  | list {xs ys : List Val} (hl : xs.length = ys.length) (h : ∀ (i : Nat) x y, xs[i]? = some x → ys[i]? = some y → VPerm o x y) :
      VPerm o (.list xs) (.list ys)
  | tup {xs ys : List Val} (hl : xs.length = ys.length) (h : ∀ (i : Nat) x y, xs[i]? = some x → ys[i]? = some y → VPerm o x y) :
      VPerm o (.tup xs) (.tup ys)
  | inst (ho : o = true) {c : String} {a b : List (String × Val)} (hk : dkeys a = dkeys b)
      (h : ∀ (i : Nat) (x y : String × Val), a[i]? = some x → b[i]? = some y → VPerm o x.2 y.2) : VPerm o (.inst c a) (.inst c b)

theorem VPerm.mono {v w : Val} (h : VPerm false v w) : VPerm true v w := by
  induction h with
  | refl ho v => exact .refl rfl v
  | atom h => exact .atom h
  | dict nd nd' hs _ ih => exact .dict nd nd' hs ih
  | list hl _ ih => exact .list hl ih
  | tup hl _ ih => exact .tup hl ih
  | inst ho => exact (nomatch ho)

theorem VPerm.symm {o : Bool} {v w : Val} (h : VPerm o v w) : VPerm o w v := by
  induction h with
  | refl ho v => exact .refl ho v
  | atom h => exact .atom h
  | dict nd nd' hs _ ih => exact .dict nd' nd (fun k => (hs k).symm) (fun k x y hx hy => ih k y x hy hx)
  | list hl _ ih => exact .list hl.symm (fun i x y hx hy => ih i y x hy hx)
  | tup hl _ ih => exact .tup hl.symm (fun i x y hx hy => ih i y x hy hx)
  | inst ho hk _ ih => exact .inst ho hk.symm (fun i x y hx hy => ih i y x hy hx)

/-- both absent, or both present and related -/
inductive ORel (o : Bool) : Option Val → Option Val → Prop
  | none : ORel o .none .none
  | some {x y : Val} (h : VPerm o x y) : ORel o (Option.some x) (Option.some y)

theorem ORel.of {o : Bool} {d d' : List (String × Val)} (hs : ∀ k, dhas d k = dhas d' k)
    (h : ∀ k x y, dget d k = Option.some x → dget d' k = Option.some y → VPerm o x y) (k : String) : ORel o (dget d k) (dget d' k) := by
  have := hs k
  simp only [dhas] at this
  cases h1 : dget d k <;> cases h2 : dget d' k <;> rw [h1, h2] at this <;> simp at this
  · exact .none
  · exact .some (h k _ _ h1 h2)

theorem VPerm.ofORel {o : Bool} {d d' : List (String × Val)} (nd : (dkeys d).Nodup) (nd' : (dkeys d').Nodup)
    (h : ∀ k, ORel o (dget d k) (dget d' k)) : VPerm o (.dict d) (.dict d') := by
  refine .dict nd nd' (fun k => ?_) (fun k x y hx hy => ?_)
  · have := h k
    simp only [dhas]
    generalize dget d k = a at this; generalize dget d' k = b at this
    cases this <;> rfl
  · have := h k
    rw [hx, hy] at this
    cases this; assumption

theorem VPerm.isWeak {o : Bool} {v w : Val} (h : VPerm o v w) : v.isWeak = w.isWeak := by
  cases h <;> simp_all [Val.isWeak]

theorem VPerm.isNone {o : Bool} {v w : Val} (h : VPerm o v w) : v.isNone = w.isNone := by
  cases h <;> simp_all [Val.isNone]

theorem length_of_keys {α : Type} {d d' : List (String × α)} (nd : (dkeys d).Nodup) (nd' : (dkeys d').Nodup) (hs : ∀ k, dhas d k = dhas d' k) :
    d.length = d'.length := by
  have : (dkeys d).Perm (dkeys d') := by
    refine (List.perm_ext_iff_of_nodup nd nd').2 (fun k => ?_)
    have h1 := dget_eq_none_iff d k
    have h2 := dget_eq_none_iff d' k
    have := hs k
    simp only [dhas] at this
    cases e1 : dget d k <;> cases e2 : dget d' k <;> rw [e1, e2] at this <;> simp_all
  simpa [dkeys] using this.length_eq

theorem pyEqL_rel {R : Val → Val → Prop} (hR : ∀ x y, R x y → ∀ w, pyEq x w = pyEq y w) : ∀ {xs ys : List Val}, xs.length = ys.length →
    (∀ (i : Nat) x y, xs[i]? = some x → ys[i]? = some y → R x y) → ∀ ws, pyEqL xs ws = pyEqL ys ws
  | [], [], _, _, _ => rfl
  | [], _ :: _, hl, _, _ => by simp at hl
  | _ :: _, [], hl, _, _ => by simp at hl
  | x :: xs, y :: ys, hl, h, ws => by
    cases ws with
    | nil => rfl
    | cons w ws =>
      simp only [pyEqL]
      rw [hR x y (h 0 x y rfl rfl) w, pyEqL_rel hR (by simpa using hl) (fun i x y hx hy => h (i + 1) x y hx hy) ws]

/-- `==` does not see the order of dict entries -/
theorem VPerm.pyEq {o : Bool} {v v' : Val} (h : VPerm o v v') : ∀ w, pyEq v w = pyEq v' w := by
  induction h with
  | refl ho v => intro w; rfl
  | atom => intro w; rfl
  | @dict d d' nd nd' hs h ih =>
    intro w
    cases w <;> simp only [HS.pyEq]
    rename_i e
    rw [length_of_keys nd nd' hs]
    congr 1
    have key : ∀ {d d' : List (String × Val)}, (dkeys d).Nodup → (dkeys d').Nodup → (∀ k, dhas d k = dhas d' k) →
        (∀ k x y, dget d k = some x → dget d' k = some y → ∀ w, HS.pyEq x w = HS.pyEq y w) → pyEqD d e = true → pyEqD d' e = true := by
      intro d d' nd nd' hs h hd
      rw [pyEqD_iff] at hd ⊢
      intro k y hy
      have hy' := dget_of_mem nd' hy
      have := hs k
      simp only [dhas, hy'] at this
      obtain ⟨x, hx⟩ := Option.isSome_iff_exists.1 (by simpa using this)
      obtain ⟨w, h1, h2⟩ := hd k x (dget_mem hx)
      exact ⟨w, h1, by rw [← h k x y hx hy' w]; exact h2⟩
    rw [Bool.eq_iff_iff]
    exact ⟨key nd nd' hs ih, key nd' nd (fun k => (hs k).symm) (fun k x y hx hy w => (ih k y x hy hx w).symm)⟩
  | list hl h ih =>
    intro w
    cases w <;> simp only [HS.pyEq]
    exact pyEqL_rel (R := fun x y => ∀ w, HS.pyEq x w = HS.pyEq y w) (fun _ _ h => h) hl ih _
  | tup hl h ih =>
    intro w
    cases w <;> simp only [HS.pyEq] <;> exact pyEqL_rel (R := fun x y => ∀ w, HS.pyEq x w = HS.pyEq y w) (fun _ _ h => h) hl ih _
  | @inst ho c a b hk h ih =>
    intro w
    cases w <;> simp only [HS.pyEq]
    rename_i c' e
    congr 1
    rw [pyEqV_eq, pyEqV_eq]
    refine pyEqL_rel (R := fun x y => ∀ w, HS.pyEq x w = HS.pyEq y w) (fun _ _ h => h) ?_ ?_ _
    · have := congrArg List.length hk
      simpa [dkeys] using this
    · intro i x y hx hy
      simp only [List.getElem?_map, Option.map_eq_some_iff] at hx hy
      obtain ⟨x', hx', rfl⟩ := hx
      obtain ⟨y', hy', rfl⟩ := hy
      exact ih i x' y' hx' hy'

theorem VPerm.pyMem {o : Bool} {v v' : Val} (h : VPerm o v v') (ws : List Val) : pyMem v ws = pyMem v' ws := by
  have : HS.pyEq v = HS.pyEq v' := funext h.pyEq
  simp only [HS.pyMem, this]

theorem str_pyEq {o : Bool} {v v' : Val} (h : VPerm o v v') (s : String) : pyEq (.str s) v = pyEq (.str s) v' := by
  cases h <;> simp [pyEq]

theorem VPerm.hashable {o : Bool} {v v' : Val} (h : VPerm o v v') : hashable v = hashable v' := by
  induction h with
  | refl ho v => rfl
  | atom => rfl
  | dict => rfl
  | list => rfl
  | inst => rfl
  | @tup xs ys hl h ih =>
    simp only [HS.hashable]
    clear h
    induction xs generalizing ys with
    | nil => cases ys <;> simp_all
    | cons x xs ihx =>
      cases ys with
      | nil => simp at hl
      | cons y ys =>
        simp only [hashableL]
        rw [ih 0 x y rfl rfl, ihx (by simpa using hl) (fun i x y hx hy => ih (i + 1) x y hx hy)]

theorem VPerm.inSet {o : Bool} {v v' : Val} (h : VPerm o v v') (s : List Val) : inSet v s = inSet v' s := by
  simp only [HS.inSet, h.hashable, h.pyMem]

theorem VPerm.pyIn {o : Bool} {v v' : Val} (h : VPerm o v v') (k : String) : pyIn k v = pyIn k v' := by
  have key : ∀ {xs ys : List Val}, xs.length = ys.length → (∀ (i : Nat) x y, xs[i]? = some x → ys[i]? = some y → VPerm o x y) →
      HS.pyMem (.str k) xs = HS.pyMem (.str k) ys := by
    intro xs
    induction xs with
    | nil => intro ys hl _; cases ys <;> simp_all
    | cons x xs ih =>
      intro ys hl h
      cases ys with
      | nil => simp at hl
      | cons y ys =>
        have h1 := str_pyEq (h 0 x y rfl rfl) k
        have h2 := ih (by simpa using hl) (fun i x y hx hy => h (i + 1) x y hx hy)
        simp only [HS.pyMem, List.any_cons] at h2 ⊢
        rw [h1, h2]
  cases h with
  | refl => rfl
  | atom => rfl
  | dict nd nd' hs h => simp only [HS.pyIn, hs]
  | list hl h => simp only [HS.pyIn, key hl h]
  | tup hl h => simp only [HS.pyIn, key hl h]
  | inst => rfl

theorem VPerm.getItem {o : Bool} {v v' : Val} (h : VPerm o v v') {k : String} {x : Val} (hx : pyGetItem k v = .ok x) :
    ∃ x', pyGetItem k v' = .ok x' ∧ VPerm o x x' := by
  cases h with
  | refl ho => exact ⟨x, hx, .refl ho x⟩
  | atom h => cases v <;> simp [pyGetItem, Val.isAtom] at hx h
  | @dict d d' nd nd' hs h =>
    have := ORel.of hs h k
    simp only [pyGetItem] at hx ⊢
    generalize dget d k = o1 at this hx
    generalize dget d' k = o2 at this
    cases this with
    | none => exact (nomatch hx)
    | some h => cases hx; exact ⟨_, rfl, h⟩
  | list => exact (nomatch hx)
  | tup => exact (nomatch hx)
  | inst => exact (nomatch hx)

theorem VPerm.dget {d d' : List (String × Val)} (h : VPerm false (.dict d) (.dict d')) :
    (dkeys d).Nodup ∧ (dkeys d').Nodup ∧ ∀ k, ORel false (dget d k) (dget d' k) := by
  generalize hv : Val.dict d = v at h
  generalize hw : Val.dict d' = w at h
  cases h with
  | refl ho => exact (nomatch ho)
  | atom h => subst hv; exact (nomatch h)
  | dict nd nd' hs h => cases hv; cases hw; exact ⟨nd, nd', ORel.of hs h⟩
  | list => exact (nomatch hv)
  | tup => exact (nomatch hv)
  | inst ho => exact (nomatch ho)

theorem VPerm.dset {d d' : List (String × Val)} (h : VPerm false (.dict d) (.dict d')) {x x' : Val} (hx : VPerm false x x') (k : String) :
    VPerm false (.dict (dset d k x)) (.dict (dset d' k x')) := by
  obtain ⟨nd, nd', h⟩ := h.dget
  refine .ofORel (nodup_dset _ _ _ nd) (nodup_dset _ _ _ nd') (fun j => ?_)
  by_cases e : k = j
  · subst e; simpa using ORel.some hx
  · rw [dget_dset_ne _ _ e, dget_dset_ne _ _ e]; exact h j

theorem VPerm.ddel {d d' : List (String × Val)} (h : VPerm false (.dict d) (.dict d')) (k : String) :
    VPerm false (.dict (ddel d k)) (.dict (ddel d' k)) := by
  obtain ⟨nd, nd', h⟩ := h.dget
  refine .ofORel (nodup_ddel _ _ nd) (nodup_ddel _ _ nd') (fun j => ?_)
  by_cases e : k = j
  · subst e; simp; exact .none
  · rw [dget_ddel_ne _ e, dget_ddel_ne _ e]; exact h j

/-- a value related to a dict is one -/
theorem VPerm.dictL {o : Bool} {d : List (String × Val)} {w : Val} (h : VPerm o (.dict d) w) : ∃ d', w = .dict d' := by
  cases h <;> exact ⟨_, rfl⟩

theorem VPerm.isDict {o : Bool} {v w : Val} (h : VPerm o v w) : v.isDict = w.isDict := by cases h <;> rfl

theorem VPerm.setItem {v v' : Val} (h : VPerm false v v') {k : String} {x x' w : Val} (hx : VPerm false x x') (hw : pySetItem k x v = .ok w) :
    ∃ w', pySetItem k x' v' = .ok w' ∧ VPerm false w w' := by
  cases v <;> simp only [pySetItem, reduceCtorEq] at hw
  cases hw
  obtain ⟨d', rfl⟩ := h.dictL
  exact ⟨_, rfl, h.dset hx k⟩

/-! ## rewrite rules -/

theorem removePath_perm : ∀ (p : List String) {sd sd' a : Val} {r : Option Val}, VPerm false sd sd' → removePath sd p = .ok (a, r) →
    ∃ a' r', removePath sd' p = .ok (a', r') ∧ VPerm false a a' ∧ ORel false r r'
  | [], _, _, _, _, _, h => by simp [removePath] at h
  | [k], sd, sd', a, r, hs, h => by
    cases hd : sd.isDict
    · have hd' : sd'.isDict = false := by rw [← hs.isDict]; exact hd
      have h1 : ∀ {v : Val}, v.isDict = false → removePath v [k] = .ok (v, .none) := by
        intro v hv; cases v <;> first | rfl | exact (nomatch hv)
      rw [h1 hd] at h
      rw [h1 hd']
      cases h
      exact ⟨_, _, rfl, hs, .none⟩
    · cases sd <;> simp [Val.isDict] at hd
      rename_i d
      obtain ⟨d', rfl⟩ := hs.dictL
      have hr := hs.dget.2.2 k
      simp only [removePath] at h ⊢
      generalize dget d k = o1 at hr h
      generalize dget d' k = o2 at hr
      cases hr with
      | none => cases h; exact ⟨_, _, rfl, hs, .none⟩
      | some hx => cases h; exact ⟨_, _, rfl, hs.ddel k, .some hx⟩
  | k :: k' :: ks, sd, sd', a, r, hs, h => by
    simp only [removePath, bind, Except.bind, pure, Except.pure, ← hs.pyIn] at h ⊢
    split at h
    · exact (nomatch h)
    split at h
    · cases h; rename_i h1; simp only [h1, if_true]; exact ⟨_, _, rfl, hs, .none⟩
    rename_i h1
    simp only [h1, if_false]
    cases hg : pyGetItem k sd with
    | error e => rw [hg] at h; exact (nomatch h)
    | ok x =>
      obtain ⟨x', hx', hxx⟩ := hs.getItem hg
      rw [hg] at h
      simp only [hx'] at h ⊢
      rw [← hxx.isNone]
      split at h
      · cases h; rename_i h2; simp only [h2, if_true]; exact ⟨_, _, rfl, hs, .none⟩
      rename_i h2
      simp only [h2]
      cases hc : removePath x (k' :: ks) with
      | error e => rw [hc] at h; exact (nomatch h)
      | ok y =>
        obtain ⟨c', r', h3, h4, h5⟩ := removePath_perm (k' :: ks) hxx (a := y.1) (r := y.2) hc
        rw [hc] at h
        simp only [h3] at h ⊢
        cases hset : pySetItem k y.1 sd with
        | error e => rw [hset] at h; exact (nomatch h)
        | ok z =>
          obtain ⟨z', h6, h7⟩ := hs.setItem h4 hset
          rw [hset] at h
          cases h
          simp only [h6]
          exact ⟨_, _, rfl, h7, h5⟩

theorem getPath_perm : ∀ (p : List String) {sd sd' : Val} {r : Option Val}, VPerm false sd sd' → getPath sd p = .ok r →
    ∃ r', getPath sd' p = .ok r' ∧ ORel false r r'
  | [], _, _, _, _, h => by simp [getPath] at h
  | [k], sd, sd', r, hs, h => by
    simp only [getPath, bind, Except.bind, pure, Except.pure, ← hs.pyIn] at h ⊢
    split at h
    · exact (nomatch h)
    split at h
    · cases h; rename_i h1; simp only [h1, if_true]; exact ⟨_, rfl, .none⟩
    rename_i h1
    simp only [h1]
    cases hg : pyGetItem k sd with
    | error e => rw [hg] at h; exact (nomatch h)
    | ok x =>
      obtain ⟨x', hx', hxx⟩ := hs.getItem hg
      rw [hg] at h
      cases h
      simp only [hx']
      exact ⟨_, rfl, .some hxx⟩
  | k :: k' :: ks, sd, sd', r, hs, h => by
    simp only [getPath, bind, Except.bind, pure, Except.pure, ← hs.pyIn] at h ⊢
    split at h
    · exact (nomatch h)
    split at h
    · cases h; rename_i h1; simp only [h1, if_true]; exact ⟨_, rfl, .none⟩
    rename_i h1
    simp only [h1]
    cases hg : pyGetItem k sd with
    | error e => rw [hg] at h; exact (nomatch h)
    | ok x =>
      obtain ⟨x', hx', hxx⟩ := hs.getItem hg
      rw [hg] at h
      simp only [hx'] at h ⊢
      exact getPath_perm (k' :: ks) hxx h

theorem insertPath_perm {x x' : Val} (hx : VPerm false x x') (b : Bool) : ∀ (p : List String) {sd sd' a : Val}, VPerm false sd sd' →
    insertPath x b sd p = .ok a → ∃ a', insertPath x' b sd' p = .ok a' ∧ VPerm false a a'
  | [], _, _, _, _, h => by simp [insertPath] at h
  | [k], sd, sd', a, hs, h => by
    simp only [insertPath] at h ⊢
    exact hs.setItem hx h
  | k :: k' :: ks, sd, sd', a, hs, h => by
    cases hd : sd.isDict
    · cases sd <;> simp [insertPath, pyGetItem, bind, Except.bind, Val.isDict] at h hd
    cases sd <;> simp [Val.isDict] at hd
    rename_i d
    obtain ⟨d', rfl⟩ := hs.dictL
    have hfresh : VPerm false (freshObj b) (freshObj b) := by
      cases b
      · exact .ofORel (by simp [dkeys]) (by simp [dkeys]) (fun j => by
          simp only [HS.dget]
          split
          · exact .some (.atom rfl)
          · exact .none)
      · exact .ofORel (by simp [dkeys]) (by simp [dkeys]) (fun j => .none)
    have hhas : dhas d k = dhas d' k := by simpa [HS.pyIn] using hs.pyIn k
    simp only [insertPath, bind, Except.bind, pure, Except.pure, ← hhas] at h ⊢
    -- the dict with the child in place
    obtain ⟨e, e', he, he', hee⟩ : ∃ e e', (if dhas d k = true then Val.dict d else .dict (HS.dset d k (freshObj b))) = .dict e ∧
        (if dhas d k = true then Val.dict d' else .dict (HS.dset d' k (freshObj b))) = .dict e' ∧ VPerm false (.dict e) (.dict e') := by
      split
      · exact ⟨_, _, rfl, rfl, hs⟩
      · exact ⟨_, _, rfl, rfl, hs.dset hfresh k⟩
    rw [he] at h
    rw [he']
    cases hg : pyGetItem k (.dict e) with
    | error er => rw [hg] at h; exact (nomatch h)
    | ok y =>
      obtain ⟨y', hy', hyy⟩ := hee.getItem hg
      rw [hg] at h
      simp only [hy'] at h ⊢
      cases hyd : y.isDict
      · have hyd' : y'.isDict = false := by rw [← hyy.isDict]; exact hyd
        have : a = .dict e := by
          cases y <;> first | (cases h; rfl) | exact (nomatch hyd)
        subst this
        refine ⟨.dict e', ?_, hee⟩
        cases y' <;> first | rfl | exact (nomatch hyd')
      · cases y <;> simp [Val.isDict] at hyd
        rename_i dc
        obtain ⟨dc', rfl⟩ := hyy.dictL
        have hhw : dhas dc WEAK_REF = dhas dc' WEAK_REF := by simpa [HS.pyIn] using hyy.pyIn WEAK_REF
        simp only [← hhw] at h ⊢
        have hyy2 : VPerm false (.dict (if (b && dhas dc WEAK_REF) = true then HS.ddel dc WEAK_REF else dc))
            (.dict (if (b && dhas dc WEAK_REF) = true then HS.ddel dc' WEAK_REF else dc')) := by
          split
          · exact hyy.ddel _
          · exact hyy
        split at h
        · exact (nomatch h)
        rename_i c hc
        obtain ⟨c', h1, h2⟩ := insertPath_perm hx b (k' :: ks) hyy2 hc
        rw [h1]
        exact hee.setItem h2 h

/-- The constants of a rule have distinct keys, and a function given in a rule does not look at the order of dict entries. -/
def Rule.orderFree : Rule → Prop
  | .mapValue _ f _ => ∀ v v' w, VPerm false v v' → f v = .ok w → ∃ w', f v' = .ok w' ∧ VPerm false w w'
  | .changeDefault _ old _ => VPerm false old old
  | .addDefault _ d => VPerm false d d
  | _ => True

theorem apply_perm {r : Rule} (hr : r.orderFree) {sd sd' a : Val} (hs : VPerm false sd sd') (h : r.apply sd = .ok a) :
    ∃ a', r.apply sd' = .ok a' ∧ VPerm false a a' := by
  -- rules that begin by removing the value
  have step : ∀ (p : List String) (F : Val → Option Val → Except Err Val),
      (∀ b b' x x', VPerm false b b' → ORel false x x' → F b x = .ok a → ∃ a', F b' x' = .ok a' ∧ VPerm false a a') →
      (removePath sd p >>= fun y => F y.1 y.2) = .ok a → ∃ a', (removePath sd' p >>= fun y => F y.1 y.2) = .ok a' ∧ VPerm false a a' := by
    intro p F hF h
    simp only [bind, Except.bind] at h ⊢
    split at h
    · exact (nomatch h)
    rename_i y hy
    obtain ⟨b', r', h1, h2, h3⟩ := removePath_perm p hs (a := y.1) (r := y.2) hy
    rw [h1]
    exact hF _ _ _ _ h2 h3 h
  cases r with
  | rename old new =>
    refine step old (fun b x => match x with | some v => insertPath v true b new | .none => pure b) ?_ h
    intro b b' x x' hb hx h
    cases hx with
    | none => cases h; exact ⟨_, rfl, hb⟩
    | some hx => exact insertPath_perm hx true new hb h
  | delete p =>
    refine step p (fun b _ => pure b) ?_ h
    intro b b' x x' hb hx h
    cases h; exact ⟨_, rfl, hb⟩
  | mapValue p f rd =>
    refine step p (fun b x => match x with | some v => (do insertPath (← f v) true b p) | .none => pure b) ?_ h
    intro b b' x x' hb hx h
    cases hx with
    | none => cases h; exact ⟨_, rfl, hb⟩
    | some hx =>
      simp only [bind, Except.bind] at h ⊢
      split at h
      · exact (nomatch h)
      rename_i w hw
      obtain ⟨w', h1, h2⟩ := hr _ _ _ hx hw
      rw [h1]
      exact insertPath_perm h2 true p hb h
  | changeDefault p old new =>
    refine step p (fun b x => match x with
      | some v => if v.isWeak then insertPath old false b p else insertPath v true b p
      | .none => insertPath old false b p) ?_ h
    intro b b' x x' hb hx h
    cases hx with
    | none => exact insertPath_perm hr false p hb h
    | some hx =>
      simp only [← hx.isWeak] at h ⊢
      split at h
      · rename_i h1; simp only [h1, if_true]; exact insertPath_perm hr false p hb h
      · rename_i h1; simp only [h1]; exact insertPath_perm hx true p hb h
  | addDefault p d =>
    refine step p (fun b x => match x with
      | some v => insertPath v false b p
      | .none => insertPath d false b p) ?_ h
    intro b b' x x' hb hx h
    cases hx with
    | none => exact insertPath_perm hr false p hb h
    | some hx => exact insertPath_perm hx false p hb h
  | checkValue p allowed =>
    simp only [Rule.apply, bind, Except.bind, pure, Except.pure] at h ⊢
    split at h
    · exact (nomatch h)
    rename_i x hx
    obtain ⟨x', h1, h2⟩ := getPath_perm p hs hx
    rw [h1]
    cases h2 with
    | none => cases h; exact ⟨_, rfl, hs⟩
    | @some x y h2 =>
      have hin := h2.inSet allowed
      cases hb : HS.inSet x allowed with
      | error e => simp only [hb] at h; exact (nomatch h)
      | ok b =>
        rw [hb] at hin
        simp only [hb] at h
        simp only [← hin]
        cases b
        · exact (nomatch h)
        · cases h; exact ⟨_, rfl, hs⟩
  | rejectValues p dis =>
    refine step p (fun b x => match x with
      | some v => (do if (← inSet v dis) then throw .valueError else return b)
      | .none => pure b) ?_ h
    intro b b' x x' hb hx h
    cases hx with
    | none => cases h; exact ⟨_, rfl, hb⟩
    | @some x y hx =>
      have hin := hx.inSet dis
      simp only [bind, Except.bind, pure, Except.pure] at h ⊢
      cases hb1 : HS.inSet x dis with
      | error e => simp only [hb1] at h; exact (nomatch h)
      | ok b1 =>
        rw [hb1] at hin
        simp only [hb1] at h
        simp only [← hin]
        cases b1
        · cases h; exact ⟨_, rfl, hb⟩
        · exact (nomatch h)

theorem applyRules_perm : ∀ {rs : List Rule}, (∀ r ∈ rs, r.orderFree) → ∀ {sd sd' a : Val}, VPerm false sd sd' → applyRules rs sd = .ok a →
    ∃ a', applyRules rs sd' = .ok a' ∧ VPerm false a a'
  | [], _, sd, sd', a, hs, h => by simp only [applyRules] at h ⊢; cases h; exact ⟨_, rfl, hs⟩
  | r :: rs, hr, sd, sd', a, hs, h => by
    simp only [applyRules, bind, Except.bind] at h ⊢
    split at h
    · exact (nomatch h)
    rename_i b hb
    obtain ⟨b', h1, h2⟩ := apply_perm (hr r (by simp)) hs hb
    rw [h1]
    exact applyRules_perm (fun r h => hr r (by simp [h])) h2 h

def VerInfo.orderFree (vi : VerInfo) : Prop := ∀ e ∈ vi.rules, ∀ r ∈ e.2, r.orderFree

theorem upgradeLoop_perm {vi : VerInfo} (hvi : vi.orderFree) : ∀ (is : List Int) {sd sd' a : Val}, VPerm false sd sd' →
    upgradeLoop vi is sd = .ok a → ∃ a', upgradeLoop vi is sd' = .ok a' ∧ VPerm false a a'
  | [], sd, sd', a, hs, h => by simp only [upgradeLoop] at h ⊢; cases h; exact ⟨_, rfl, hs⟩
  | i :: is, sd, sd', a, hs, h => by
    simp only [upgradeLoop, bind, Except.bind] at h ⊢
    split at h
    · exact (nomatch h)
    rename_i b hb
    have hr : ∀ r ∈ vi.rulesAt i, r.orderFree := by
      intro r hr
      simp only [VerInfo.rulesAt] at hr
      split at hr
      · rename_i e he; exact hvi e (List.mem_of_find?_eq_some he) r hr
      · simp at hr
    obtain ⟨b', h1, h2⟩ := applyRules_perm hr hs hb
    rw [h1]
    exact upgradeLoop_perm hvi is h2 h

theorem upgradeAny_perm {vi : VerInfo} (hvi : vi.orderFree) {sd sd' ver a : Val} (hs : VPerm false sd sd') (h : vi.upgradeAny sd ver = .ok a) :
    ∃ a', vi.upgradeAny sd' ver = .ok a' ∧ VPerm false a a' := by
  simp only [VerInfo.upgradeAny] at h ⊢
  split at h
  · rename_i h1
    simp only [h1, if_true, bind, Except.bind, VerInfo.applyUpgrades] at h ⊢
    split at h
    · exact (nomatch h)
    rename_i i hi
    exact upgradeLoop_perm hvi _ hs h
  · exact (nomatch h)

theorem versionHook_perm {am : Bool} {vi : VerInfo} (hvi : vi.orderFree) {v v' a : Val} (hs : VPerm false v v')
    (h : versionHook am vi v = .ok a) : ∃ a', versionHook am vi v' = .ok a' ∧ VPerm false a a' := by
  have key : ∀ {v v' : Val}, VPerm false v v' → v.isDict = false → v.isAtom = false → (if am then Except.ok v else .error .valueError : Except Err Val) = .ok a →
      ∃ a', (if am then Except.ok v' else .error .valueError : Except Err Val) = .ok a' ∧ VPerm false a a' := by
    intro v v' hs _ _ h
    split at h
    · rename_i h1; cases h; exact ⟨_, by simp [h1], hs⟩
    · exact (nomatch h)
  cases hs with
  | refl ho => exact (nomatch ho)
  | inst ho => exact (nomatch ho)
  | atom hat =>
    refine ⟨a, h, ?_⟩
    have : a = v := by
      cases v with
      | ntup n kvs =>
        simp only [versionHook, bind, Except.bind, pure, Except.pure] at h
        split at h
        · split at h
          · cases h; rfl
          · exact (nomatch h)
        · split at h
          · cases h; rfl
          · exact (nomatch h)
        · split at h
          · exact (nomatch h)
          · cases h; rfl
      | dict => exact (nomatch hat)
      | list => exact (nomatch hat)
      | tup => exact (nomatch hat)
      | _ =>
        simp only [versionHook] at h
        split at h
        · cases h; rfl
        · exact (nomatch h)
    subst this
    exact .atom hat
  | list hl h0 => exact key (.list hl h0) rfl rfl h
  | tup hl h0 => exact key (.tup hl h0) rfl rfl h
  | @dict d d' nd nd' hh h0 =>
    have hs : VPerm false (.dict d) (.dict d') := .dict nd nd' hh h0
    have hv := hs.dget.2.2 "version"
    simp only [versionHook] at h ⊢
    generalize HS.dget d "version" = o1 at hv h
    generalize HS.dget d' "version" = o2 at hv
    cases hv with
    | none =>
      simp only at h ⊢
      split at h
      · rename_i h1; cases h; exact ⟨_, by simp [h1], hs.ddel _⟩
      · exact (nomatch h)
    | @some x y hxy =>
      cases hxy with
      | refl ho => exact (nomatch ho)
      | inst ho => exact (nomatch ho)
      | atom hat =>
        cases x <;> simp only at h ⊢ <;> first | exact upgradeAny_perm hvi (hs.ddel _) h | skip
        split at h
        · rename_i h1; cases h; exact ⟨_, by simp [h1], hs.ddel _⟩
        · exact (nomatch h)
      | dict => simp only [VerInfo.upgradeAny, Val.asRangeInt, bind, Except.bind] at h; split at h <;> exact (nomatch h)
      | list => simp only [VerInfo.upgradeAny, Val.asRangeInt, bind, Except.bind] at h; split at h <;> exact (nomatch h)
      | tup => simp only [VerInfo.upgradeAny, Val.asRangeInt, bind, Except.bind] at h; split at h <;> exact (nomatch h)

end HS
