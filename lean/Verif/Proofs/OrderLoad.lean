import Verif.Proofs.Order
/-!
# `from_dict` on documents that differ in the order of entries only
-/
namespace HS

mutual
/-- the upgrade rules of all versioned classes in the type are `orderFree` -/
def PyTy.orderFree : PyTy → Prop
  | .union as => orderFreeL as
  | .list a => a.orderFree
  | .tuple as => orderFreeL as
  | .dict _ b => b.orderFree
  | .data _ fs ver => (∀ vi, ver = some vi → vi.orderFree) ∧ orderFreeF fs
  | _ => True
termination_by structural x => x
def orderFreeL : List PyTy → Prop
  | [] => True
  | t :: ts => t.orderFree ∧ orderFreeL ts
termination_by structural x => x
def orderFreeF : List Fld → Prop
  | [] => True
  | f :: fs => orderFreeP f ∧ orderFreeF fs
termination_by structural x => x
def orderFreeP : Fld → Prop
  | .mk _ t _ => t.orderFree
termination_by structural x => x
end

theorem mapIdx_rel {f g : Nat → Val → Res} {R S : Val → Val → Prop}
    (h : ∀ i x y w es, R x y → f i x = .ok (w, es) → ∃ w' es', g i y = .ok (w', es') ∧ S w w') :
    ∀ {xs ys : List Val} (n : Nat) {ws es}, xs.length = ys.length → (∀ (i : Nat) x y, xs[i]? = some x → ys[i]? = some y → R x y) →
      mapIdx f n xs = .ok (ws, es) → ∃ ws' es', mapIdx g n ys = .ok (ws', es') ∧ ws.length = ws'.length ∧
        ∀ (i : Nat) x y, ws[i]? = some x → ws'[i]? = some y → S x y
  | [], [], n, ws, es, _, _, hm => by
    simp only [mapIdx] at hm ⊢
    cases hm
    exact ⟨_, _, rfl, rfl, by simp⟩
  | [], _ :: _, _, _, _, hl, _, _ => by simp at hl
  | _ :: _, [], _, _, _, hl, _, _ => by simp at hl
  | x :: xs, y :: ys, n, ws, es, hl, hR, hm => by
    simp only [mapIdx, bind, Except.bind, pure, Except.pure] at hm ⊢
    split at hm
    · exact (nomatch hm)
    rename_i w hw
    split at hm
    · exact (nomatch hm)
    rename_i rest hrest
    cases hm
    obtain ⟨w', e1, h1, h2⟩ := h n x y w.1 w.2 (hR 0 x y rfl rfl) hw
    obtain ⟨ws', e2, h3, h4, h5⟩ := mapIdx_rel h (n + 1) (ws := rest.1) (es := rest.2) (by simpa using hl)
      (fun i x y hx hy => hR (i + 1) x y hx hy) hrest
    rw [h1, h3]
    refine ⟨_, _, rfl, by simp [h4], ?_⟩
    intro i a b ha hb
    cases i with
    | zero => simp at ha hb; subst ha; subst hb; exact h2
    | succ i => exact h5 i a b (by simpa using ha) (by simpa using hb)

/-- a comprehension over items, entry by entry -/
theorem mapItems_iff {f : String → Val → Res} : ∀ {d ws es}, mapItems f d = .ok (ws, es) →
    dkeys ws = dkeys d ∧ ∀ k x, dget d k = some x → ∃ w es', f k x = .ok (w, es') ∧ dget ws k = some w
  | [], ws, es, h => by simp only [mapItems] at h; cases h; exact ⟨rfl, by simp⟩
  | (j, y) :: d, ws, es, h => by
    simp only [mapItems, bind, Except.bind, pure, Except.pure] at h
    split at h
    · exact (nomatch h)
    rename_i w hw
    split at h
    · exact (nomatch h)
    rename_i rest hrest
    cases h
    obtain ⟨h1, h2⟩ := mapItems_iff (ws := rest.1) (es := rest.2) hrest
    refine ⟨by simpa [dkeys] using h1, ?_⟩
    intro k x hk
    simp only [dget] at hk ⊢
    split at hk
    · rename_i e; subst e; cases hk; exact ⟨w.1, w.2, hw, by simp⟩
    · rename_i e; simp only [e, if_false]; exact h2 k x hk

theorem mapItems_all {f : String → Val → Res} : ∀ {d : List (String × Val)}, (∀ k x, (k, x) ∈ d → ∃ w es', f k x = .ok (w, es')) →
    ∃ ws es, mapItems f d = .ok (ws, es)
  | [], _ => ⟨_, _, rfl⟩
  | (j, y) :: d, h => by
    obtain ⟨w, e1, h1⟩ := h j y (by simp)
    obtain ⟨ws, e2, h2⟩ := mapItems_all (f := f) (d := d) (fun k x hx => h k x (by simp [hx]))
    exact ⟨(j, w) :: ws, e1 ++ e2, by simp only [mapItems, h1, h2, bind, Except.bind, pure, Except.pure]⟩

/-- the loop over the items, entry by entry: what is accepted -/
theorem itemsLoop_all {f : String → Val → Option Res} {ig : Bool} : ∀ {d : List (String × Val)},
    (∀ k x, (k, x) ∈ d → k ≠ NAME_KEY → x.isWeak = false → (f k x = .none ∧ ig = true) ∨ ∃ w es', f k x = some (.ok (w, es'))) →
    ∃ kw es, itemsLoop f ig d = .ok (kw, es)
  | [], _ => ⟨_, _, rfl⟩
  | (j, y) :: d, h => by
    obtain ⟨kw, e2, h2⟩ := itemsLoop_all (f := f) (ig := ig) (d := d) (fun k x hx => h k x (by simp [hx]))
    simp only [itemsLoop]
    split
    · exact ⟨_, _, h2⟩
    · rename_i hn
      split
      · exact ⟨_, _, h2⟩
      · rename_i hw
        rcases h j y (by simp) hn (by simpa using hw) with ⟨h1, h3⟩ | ⟨w, e1, h1⟩
        · simp only [h1, h3, if_true]; exact ⟨_, _, by simpa [h3] using h2⟩
        · simp only [h1, h2, bind, Except.bind, pure, Except.pure]; exact ⟨_, _, rfl⟩

/-- and what it gives -/
theorem itemsLoop_iff {f : String → Val → Option Res} {ig : Bool} : ∀ {d kw es}, (dkeys d).Nodup → itemsLoop f ig d = .ok (kw, es) →
    (∀ k x, dget d k = some x → k ≠ NAME_KEY → x.isWeak = false →
      (f k x = .none ∧ ig = true ∧ dget kw k = .none) ∨ ∃ w es', f k x = some (.ok (w, es')) ∧ dget kw k = some w) ∧
    (∀ k, dget d k = .none ∨ k = NAME_KEY ∨ (∃ x, dget d k = some x ∧ x.isWeak = true) → dget kw k = .none)
  | [], kw, es, _, h => by simp only [itemsLoop] at h; cases h; exact ⟨by simp, by simp⟩
  | (j, y) :: d, kw, es, hnd, h => by
    have hnd' : (dkeys d).Nodup := by simp [dkeys] at hnd ⊢; exact hnd.2
    have hj : dget d j = .none := by
      rw [dget_eq_none_iff]; simp [dkeys] at hnd ⊢; exact hnd.1
    have skip : itemsLoop f ig d = .ok (kw, es) → (j = NAME_KEY ∨ y.isWeak = true ∨ (f j y = .none ∧ ig = true)) →
        (∀ k x, dget ((j, y) :: d) k = some x → k ≠ NAME_KEY → x.isWeak = false →
          (f k x = .none ∧ ig = true ∧ dget kw k = .none) ∨ ∃ w es', f k x = some (.ok (w, es')) ∧ dget kw k = some w) ∧
        (∀ k, dget ((j, y) :: d) k = .none ∨ k = NAME_KEY ∨ (∃ x, dget ((j, y) :: d) k = some x ∧ x.isWeak = true) → dget kw k = .none) := by
      intro h hc
      obtain ⟨h1, h2⟩ := itemsLoop_iff hnd' h
      refine ⟨?_, ?_⟩
      · intro k x hk hn hw
        simp only [dget] at hk
        split at hk
        · rename_i e
          subst e; cases hk
          rcases hc with hc | hc | hc
          · exact absurd hc hn
          · rw [hw] at hc; exact (nomatch hc)
          · exact .inl ⟨hc.1, hc.2, h2 _ (.inl hj)⟩
        · exact h1 k x hk hn hw
      · intro k hk
        by_cases e : j = k
        · subst e; exact h2 _ (.inl hj)
        · simp only [dget, e, if_false] at hk; exact h2 k hk
    simp only [itemsLoop] at h
    split at h
    · rename_i hn; exact skip h (.inl hn)
    · rename_i hn
      split at h
      · rename_i hw; exact skip h (.inr (.inl hw))
      · rename_i hw
        split at h
        · rename_i hf
          split at h
          · rename_i hi; exact skip h (.inr (.inr ⟨hf, hi⟩))
          · exact (nomatch h)
        · rename_i r hf
          simp only [bind, Except.bind, pure, Except.pure] at h
          split at h
          · exact (nomatch h)
          rename_i _ w
          split at h
          · exact (nomatch h)
          rename_i rest hrest
          cases h
          obtain ⟨h1, h2⟩ := itemsLoop_iff (kw := rest.1) (es := rest.2) hnd' hrest
          refine ⟨?_, ?_⟩
          · intro k x hk hn' hw'
            simp only [dget] at hk ⊢
            split at hk
            · rename_i e
              subst e; cases hk
              simp only [if_true]
              exact .inr ⟨w.1, w.2, hf, rfl⟩
            · rename_i e; simp only [e, if_false]; exact h1 k x hk hn' hw'
          · intro k hk
            by_cases e : j = k
            · subst e
              simp only [dget, if_true, Option.some.injEq, reduceCtorEq, false_or] at hk
              rcases hk with hk | ⟨x, rfl, hk⟩
              · exact absurd hk hn
              · exact absurd hk hw
            · simp only [dget, e, if_false] at hk ⊢; exact h2 k hk

theorem fillFields_perm {kw kw' : List (String × Val)} (h : ∀ k, ORel true (dget kw k) (dget kw' k)) : ∀ {fs kvs}, fillFields kw fs = .ok kvs →
    ∃ kvs', fillFields kw' fs = .ok kvs' ∧ dkeys kvs = dkeys kvs' ∧
      ∀ (i : Nat) (x y : String × Val), kvs[i]? = some x → kvs'[i]? = some y → VPerm true x.2 y.2
  | [], kvs, hf => by simp only [fillFields] at hf ⊢; cases hf; exact ⟨_, rfl, rfl, by simp⟩
  | f :: fs, kvs, hf => by
    simp only [fillFields, bind, Except.bind, pure, Except.pure] at hf ⊢
    split at hf
    · exact (nomatch hf)
    rename_i v hv
    split at hf
    · exact (nomatch hf)
    rename_i rest hrest
    cases hf
    obtain ⟨kvs', h1, h2, h3⟩ := fillFields_perm h hrest
    obtain ⟨v', hv', hvv⟩ : ∃ v', fieldValue kw' f = .ok v' ∧ VPerm true v v' := by
      have := h f.name
      simp only [fieldValue] at hv ⊢
      generalize dget kw f.name = o1 at this hv
      generalize dget kw' f.name = o2 at this
      cases this with
      | none => exact ⟨v, hv, .refl rfl v⟩
      | some hx => cases hv; exact ⟨_, rfl, hx⟩
    rw [h1, hv']
    refine ⟨_, rfl, by simpa [dkeys] using h2, ?_⟩
    intro i a b ha hb
    cases i with
    | zero => simp at ha hb; subst ha; subst hb; exact hvv
    | succ i => exact h3 i a b (by simpa using ha) (by simpa using hb)

/-- what this file proves of a type -/
def FdPerm (c : DCfg) (t : PyTy) : Prop := ∀ (ig : Bool) (p : String) (v v' w : Val) (es : List Ev), VPerm false v v' →
  fromDict c t ig p v = .ok (w, es) → ∃ w' es', fromDict c t ig p v' = .ok (w', es') ∧ VPerm true w w'

theorem FdPerm.atomic {c : DCfg} {t : PyTy} (h : ∀ (ig : Bool) (p : String) (v w : Val) (es : List Ev), v.isAtom = false →
    fromDict c t ig p v ≠ .ok (w, es)) : FdPerm c t := by
  intro ig p v v' w es hs hv
  cases hat : v.isAtom
  · exact absurd hv (h ig p v w es hat)
  · have : v = v' := by
      cases hs with
      | refl => rfl
      | atom => rfl
      | dict => exact (nomatch hat)
      | list => exact (nomatch hat)
      | tup => exact (nomatch hat)
      | inst ho => exact (nomatch ho)
    subst this
    exact ⟨w, es, hv, .refl rfl w⟩

mutual
theorem fromDict_perm (c : DCfg) : ∀ (t : PyTy), t.orderFree → FdPerm c t
  | .int, _ => FdPerm.atomic (by
      intro ig p v w es hv h
      cases v <;> simp [Val.isAtom, fromDict, schedHook, primBranches, bind, Except.bind] at hv h <;> exact (nomatch h))
  | .float, _ => FdPerm.atomic (by
      intro ig p v w es hv h
      cases v <;> simp [Val.isAtom, fromDict, schedHook, primBranches, bind, Except.bind] at hv h <;> exact (nomatch h))
  | .str, _ => FdPerm.atomic (by
      intro ig p v w es hv h
      cases v <;> simp [Val.isAtom, fromDict, primBranches, bind, Except.bind] at hv h <;> exact (nomatch h))
  | .bool, _ => FdPerm.atomic (by
      intro ig p v w es hv h
      cases v <;> simp [Val.isAtom, fromDict] at hv h)
  | .noneT, _ => FdPerm.atomic (by
      intro ig p v w es hv h
      cases v <;> simp [Val.isAtom, fromDict] at hv h)
  | .blob cls, _ => FdPerm.atomic (by
      intro ig p v w es hv h
      cases v <;> simp only [Val.isAtom, fromDict, lazyHook, reduceCtorEq] at hv h <;> split at h <;> exact (nomatch h))
  | .union as, ho => by
    have ih := fromDict_permL c as (by simpa [PyTy.orderFree] using ho)
    intro ig p v v' w es hs h
    simp only [fromDict] at h ⊢
    split at h
    · rename_i hopt
      simp only [hopt, if_true, ← hs.isNone] at h ⊢
      split at h
      · rename_i hn; cases h; simp only [hn, if_true]; exact ⟨_, _, rfl, .refl rfl _⟩
      · rename_i hn
        simp only [hn]
        cases as with
        | nil => exact (nomatch h)
        | cons t ts => simp only [fdHead] at h ⊢; exact ih t (by simp) _ _ _ _ _ _ hs h
    · rename_i hopt
      simp only [hopt] at h ⊢
      cases hs with
      | refl ho => exact (nomatch ho)
      | inst ho => exact (nomatch ho)
      | atom => exact ⟨w, es, h, .refl rfl w⟩
      | list => simp only [primBranches, bind, Except.bind] at h; split at h <;> exact (nomatch h)
      | tup => simp only [primBranches, bind, Except.bind] at h; exact (nomatch h)
      | @dict d d' nd nd' hh h0 =>
        have hs : VPerm false (.dict d) (.dict d') := .dict nd nd' hh h0
        have hn := hs.dget.2.2 NAME_KEY
        simp only [primBranches, bind, Except.bind] at h ⊢
        generalize dget d NAME_KEY = o1 at hn h
        generalize dget d' NAME_KEY = o2 at hn
        cases hn with
        | none => simp only [Option.bind_none] at h; split at h <;> exact (nomatch h)
        | @some n n' hn =>
          have key : ∀ (ts : List PyTy), (∀ t ∈ ts, FdPerm c t) → ∀ r, fdNamed c ts n ig p (.dict d) = some r → r = .ok (w, es) →
              ∃ w' es', fdNamed c ts n' ig p (.dict d') = some (.ok (w', es')) ∧ VPerm true w w' := by
            intro ts
            induction ts with
            | nil => intro _ r h; exact (nomatch h)
            | cons t ts iht =>
              intro hts r h hr
              simp only [fdNamed, ← hn.pyEq] at h ⊢
              split at h
              · rename_i e
                cases h
                obtain ⟨w', es', h1, h2⟩ := hts t (by simp) _ _ _ _ _ _ hs hr
                exact ⟨w', es', by simp [e, h1], h2⟩
              · rename_i e
                obtain ⟨w', es', h1, h2⟩ := iht (fun t ht => hts t (by simp [ht])) r h hr
                exact ⟨w', es', by simp [e, h1], h2⟩
          simp only [Option.bind_some] at h ⊢
          split at h
          · rename_i r hr
            obtain ⟨w', es', h1, h2⟩ := key as ih r hr h
            rw [h1]
            exact ⟨w', es', rfl, h2⟩
          · split at h <;> exact (nomatch h)
  | .list a, ho => by
    have ih := fromDict_perm c a (by simpa [PyTy.orderFree] using ho)
    intro ig p v v' w es hs h
    cases hs with
    | refl ho => exact (nomatch ho)
    | inst ho => exact (nomatch ho)
    | atom => exact ⟨w, es, h, .refl rfl w⟩
    | dict => simp [fromDict] at h
    | tup => simp [fromDict] at h
    | @list xs ys hl h0 =>
      simp only [fromDict, bind, Except.bind, pure, Except.pure] at h ⊢
      split at h
      · exact (nomatch h)
      rename_i y hy
      cases h
      obtain ⟨ws', es', h1, h2, h3⟩ := mapIdx_rel (f := fun i x => fromDict c a false (p ++ "[" ++ i.repr ++ "]") x) (R := VPerm false) (S := VPerm true)
        (g := fun i x => fromDict c a false (p ++ "[" ++ i.repr ++ "]") x)
        (fun i x y w es hxy hx => ih _ _ x y w es hxy hx) 0 (ws := y.1) (es := y.2) hl h0 hy
      rw [h1]
      exact ⟨_, _, rfl, .list h2 h3⟩
  | .tuple as, ho => by
    have ih := fromDict_permL c as (by simpa [PyTy.orderFree] using ho)
    intro ig p v v' w es hs h
    cases hs with
    | refl ho => exact (nomatch ho)
    | inst ho => exact (nomatch ho)
    | atom => exact ⟨w, es, h, .refl rfl w⟩
    | dict => simp [fromDict] at h
    | list => simp [fromDict] at h
    | @tup xs ys hl h0 =>
      have hn : ∀ (ts : List PyTy), (∀ t ∈ ts, FdPerm c t) → ∀ (i : Nat) (p : String) (x y w : Val) (es : List Ev), VPerm false x y →
          fdNth c ts i p x = .ok (w, es) → ∃ w' es', fdNth c ts i p y = .ok (w', es') ∧ VPerm true w w' := by
        intro ts
        induction ts with
        | nil => intro _ i p x y w es _ h; exact (nomatch h)
        | cons t ts iht =>
          intro hts i p x y w es hxy h
          cases i with
          | zero => simp only [fdNth] at h ⊢; exact hts t (by simp) _ _ _ _ _ _ hxy h
          | succ i => simp only [fdNth] at h ⊢; exact iht (fun t ht => hts t (by simp [ht])) i _ _ _ _ _ hxy h
      simp only [fromDict, bind, Except.bind, pure, Except.pure] at h ⊢
      split at h
      · exact (nomatch h)
      rename_i y hy
      cases h
      obtain ⟨ws', es', h1, h2, h3⟩ := mapIdx_rel (f := fun i x => fdNth c as i (p ++ "[" ++ i.repr ++ "]") x) (R := VPerm false) (S := VPerm true)
        (g := fun i x => fdNth c as i (p ++ "[" ++ i.repr ++ "]") x)
        (fun i x y w es hxy hx => hn as ih i _ x y w es hxy hx) 0 (ws := y.1) (es := y.2) hl h0 hy
      rw [h1]
      exact ⟨_, _, rfl, .tup h2 h3⟩
  | .dict a b, ho => by
    have ih := fromDict_perm c b (by simpa [PyTy.orderFree] using ho)
    intro ig p v v' w es hs h
    cases hs with
    | refl ho => exact (nomatch ho)
    | inst ho => exact (nomatch ho)
    | atom => exact ⟨w, es, h, .refl rfl w⟩
    | list => simp [fromDict] at h
    | tup => simp [fromDict] at h
    | @dict d d' nd nd' hh h0 =>
      have hs : VPerm false (.dict d) (.dict d') := .dict nd nd' hh h0
      have hor := hs.dget.2.2
      simp only [fromDict, bind, Except.bind, pure, Except.pure] at h ⊢
      split at h
      · exact (nomatch h)
      rename_i y hy
      cases h
      obtain ⟨h1, h2⟩ := mapItems_iff (ws := y.1) (es := y.2) hy
      have hall : ∀ k x, (k, x) ∈ d' → ∃ w es', fromDict c b false (p ++ "." ++ k) x = .ok (w, es') := by
        intro k x hx
        have hx := dget_of_mem nd' hx
        have := hor k
        rw [hx] at this
        generalize hd : dget d k = o1 at this
        cases this with
        | some hxx =>
          obtain ⟨w, es', h3, _⟩ := h2 k _ hd
          obtain ⟨w', es'', h4, _⟩ := ih _ _ _ _ _ _ hxx h3
          exact ⟨w', es'', h4⟩
      obtain ⟨ws', es', h3⟩ := mapItems_all hall
      obtain ⟨h4, h5⟩ := mapItems_iff h3
      simp only [h3]
      refine ⟨_, _, rfl, .ofORel (by rw [h1]; exact nd) (by rw [h4]; exact nd') ?_⟩
      intro k
      have := hor k
      generalize hd : dget d k = o1 at this
      generalize hd' : dget d' k = o2 at this
      cases this with
      | none =>
        rw [(dget_eq_none_iff y.1 k).2 (by rw [h1, ← dget_eq_none_iff]; exact hd), (dget_eq_none_iff ws' k).2 (by rw [h4, ← dget_eq_none_iff]; exact hd')]
        exact .none
      | some hxx =>
        obtain ⟨w, e1, h6, h7⟩ := h2 k _ hd
        obtain ⟨w', e2, h8, h9⟩ := h5 k _ hd'
        obtain ⟨w2, e3, h10, h11⟩ := ih _ _ _ _ _ _ hxx h6
        rw [h8] at h10
        cases h10
        rw [h7, h9]
        exact .some h11
  | .data n fs ver, ho => by
    have ih := fromDict_permF c fs (by simp only [PyTy.orderFree] at ho; exact ho.2)
    intro ig p v v' w es hs h
    -- after the upgrade
    have body : ∀ v v', VPerm false v v' → fromDict c (.data n fs .none) ig p v = .ok (w, es) →
        ∃ w' es', fromDict c (.data n fs .none) ig p v' = .ok (w', es') ∧ VPerm true w w' := by
      intro v v' hs h
      cases hs with
      | refl ho => exact (nomatch ho)
      | inst ho => exact (nomatch ho)
      | atom => exact ⟨w, es, h, .refl rfl w⟩
      | list => simp [fromDict, asRawDict, bind, Except.bind, pure, Except.pure, throw, throwThe, MonadExceptOf.throw] at h
      | @tup xs ys hl h0 =>
        cases xs with
        | nil =>
          have : ys = [] := by cases ys <;> simp_all
          subst this
          exact ⟨w, es, h, .refl rfl w⟩
        | cons x xs => simp [fromDict, asRawDict, bind, Except.bind, pure, Except.pure, throw, throwThe, MonadExceptOf.throw] at h
      | @dict d d' nd nd' hh h0 =>
        have hs : VPerm false (.dict d) (.dict d') := .dict nd nd' hh h0
        have hor := hs.dget.2.2
        have simp1 : ∀ d, fromDict c (.data n fs .none) ig p (.dict d) = (do
            let (kwargs, es) ← itemsLoop (fun k x => fdField c fs k (fieldPath p k) x) ig d
            let kvs ← fillFields kwargs fs
            return (.inst n kvs, es)) := by
          intro d; simp [fromDict, asRawDict, bind, Except.bind, pure, Except.pure]
        rw [simp1] at h ⊢
        simp only [bind, Except.bind, pure, Except.pure] at h ⊢
        split at h
        · exact (nomatch h)
        rename_i kw hkw
        split at h
        · exact (nomatch h)
        rename_i kvs hkvs
        cases h
        obtain ⟨h1, h2⟩ := itemsLoop_iff (kw := kw.1) (es := kw.2) nd hkw
        have hall : ∀ k x, (k, x) ∈ d' → k ≠ NAME_KEY → x.isWeak = false → (fdField c fs k (fieldPath p k) x = .none ∧ ig = true) ∨
            ∃ w es', fdField c fs k (fieldPath p k) x = some (.ok (w, es')) := by
          intro k x hx hn hw
          have hx := dget_of_mem nd' hx
          have := hor k
          rw [hx] at this
          generalize hd : dget d k = o1 at this
          cases this with
          | some hxx =>
            rcases h1 k _ hd hn (by rw [hxx.isWeak]; exact hw) with ⟨h3, h4, _⟩ | ⟨w, e1, h3, _⟩
            · exact .inl ⟨(ih k (fieldPath p k) _ _ hxx).1 h3, h4⟩
            · obtain ⟨w', e2, h5, _⟩ := (ih k (fieldPath p k) _ _ hxx).2 w e1 h3
              exact .inr ⟨w', e2, h5⟩
        obtain ⟨kw', es', hkw'⟩ := itemsLoop_all hall
        obtain ⟨h3, h4⟩ := itemsLoop_iff nd' hkw'
        have hkk : ∀ k, ORel true (dget kw.1 k) (dget kw' k) := by
          intro k
          have := hor k
          generalize hd : dget d k = o1 at this
          generalize hd' : dget d' k = o2 at this
          cases this with
          | none => rw [h2 k (.inl hd), h4 k (.inl hd')]; exact .none
          | @some x y hxx =>
            by_cases hn : k = NAME_KEY
            · rw [h2 k (.inr (.inl hn)), h4 k (.inr (.inl hn))]; exact .none
            cases hw : x.isWeak
            · have hw' : y.isWeak = false := by rw [← hxx.isWeak]; exact hw
              rcases h1 k x hd hn hw with ⟨h5, h6, h7⟩ | ⟨w, e1, h5, h6⟩ <;>
                rcases h3 k y hd' hn hw' with ⟨h8, h9, h10⟩ | ⟨w', e2, h8, h9⟩
              · rw [h7, h10]; exact .none
              · rw [(ih k (fieldPath p k) _ _ hxx).1 h5] at h8; exact (nomatch h8)
              · obtain ⟨w2, e3, h11, h12⟩ := (ih k (fieldPath p k) _ _ hxx).2 w e1 h5
                rw [h8] at h11; exact (nomatch h11)
              · obtain ⟨w2, e3, h11, h12⟩ := (ih k (fieldPath p k) _ _ hxx).2 w e1 h5
                rw [h8] at h11
                cases h11
                rw [h6, h9]
                exact .some h12
            · have hw' : y.isWeak = true := by rw [← hxx.isWeak]; exact hw
              rw [h2 k (.inr (.inr ⟨x, hd, hw⟩)), h4 k (.inr (.inr ⟨y, hd', hw'⟩))]; exact .none
        obtain ⟨kvs', h5, h6, h7⟩ := fillFields_perm hkk hkvs
        simp only [hkw', h5]
        exact ⟨_, _, rfl, .inst rfl h6 h7⟩
    cases ver with
    | none => exact body v v' hs h
    | some vi =>
      have hvi : vi.orderFree := by simp only [PyTy.orderFree] at ho; exact ho.1 vi rfl
      cases hv : versionHook c.allowMissing vi v with
      | error e => simp only [fromDict, hv, bind, Except.bind] at h; exact (nomatch h)
      | ok u =>
        obtain ⟨u', h1, h2⟩ := versionHook_perm hvi hs hv
        obtain ⟨w', es', h3, h4⟩ := body u u' h2 (by
          simp only [fromDict, hv, bind, Except.bind, pure, Except.pure] at h ⊢; exact h)
        refine ⟨w', es', ?_, h4⟩
        simp only [fromDict, h1, bind, Except.bind, pure, Except.pure] at h3 ⊢
        exact h3
  | .enum cls ms, _ => by
    intro ig p v v' w es hs h
    have hby : ∀ (ms : List (String × Val)), enumByValue cls v ms = enumByValue cls v' ms := by
      intro ms
      induction ms with
      | nil => rfl
      | cons m ms ih => simp only [enumByValue, hs.pyEq, ih]
    cases hs with
    | refl ho => exact (nomatch ho)
    | inst ho => exact (nomatch ho)
    | atom => exact ⟨w, es, h, .refl rfl w⟩
    | list => simp only [fromDict] at h ⊢; rw [← hby]; exact ⟨w, es, h, .refl rfl w⟩
    | tup => simp only [fromDict] at h ⊢; rw [← hby]; exact ⟨w, es, h, .refl rfl w⟩
    | dict => simp only [fromDict] at h ⊢; rw [← hby]; exact ⟨w, es, h, .refl rfl w⟩
  | .literal vals, _ => by
    intro ig p v v' w es hs h
    have hm := hs.pyMem vals
    have hs' := hs
    cases hs with
    | refl ho => exact (nomatch ho)
    | inst ho => exact (nomatch ho)
    | atom => exact ⟨w, es, h, .refl rfl w⟩
    | list | tup | dict =>
      simp only [fromDict, ← hm] at h ⊢
      split at h
      · rename_i h1
        split at h
        · rename_i h2; cases h; simp only [h1, h2, if_true]; exact ⟨_, _, rfl, hs'.mono⟩
        · exact (nomatch h)
      · exact (nomatch h)
termination_by structural x => x
theorem fromDict_permL (c : DCfg) : ∀ (ts : List PyTy), orderFreeL ts → ∀ t ∈ ts, FdPerm c t
  | [], _, t, ht => by simp at ht
  | t' :: ts, ho, t, ht => by
    have h1 := fromDict_perm c t' (by simp only [orderFreeL] at ho; exact ho.1)
    have h2 := fromDict_permL c ts (by simp only [orderFreeL] at ho; exact ho.2)
    rcases List.mem_cons.1 ht with rfl | ht
    · exact h1
    · exact h2 t ht
termination_by structural x => x
theorem fromDict_permF (c : DCfg) : ∀ (fs : List Fld), orderFreeF fs → ∀ (k p : String) (x y : Val), VPerm false x y →
    (fdField c fs k p x = .none → fdField c fs k p y = .none) ∧
    ∀ w es, fdField c fs k p x = some (.ok (w, es)) → ∃ w' es', fdField c fs k p y = some (.ok (w', es')) ∧ VPerm true w w'
  | [], _, k, p, x, y, _ => ⟨fun _ => rfl, fun _ _ h => (nomatch h)⟩
  | f :: fs, ho, k, p, x, y, hxy => by
    have h1 := fromDict_permP c f (by simp only [orderFreeF] at ho; exact ho.1) k p x y hxy
    have h2 := fromDict_permF c fs (by simp only [orderFreeF] at ho; exact ho.2) k p x y hxy
    simp only [fdField]
    constructor
    · intro h
      cases hf : fdFld c f k p x with
      | none => rw [hf] at h; rw [h1.1 hf]; exact h2.1 h
      | some r => rw [hf] at h; exact (nomatch h)
    · intro w es h
      cases hf : fdFld c f k p x with
      | none => rw [hf] at h; rw [h1.1 hf]; exact h2.2 w es h
      | some r =>
        rw [hf] at h
        simp only [Option.some.injEq] at h
        rw [h] at hf
        obtain ⟨w', es', h3, h4⟩ := h1.2 w es hf
        rw [h3]
        exact ⟨w', es', rfl, h4⟩
termination_by structural x => x
theorem fromDict_permP (c : DCfg) : ∀ (f : Fld), orderFreeP f → ∀ (k p : String) (x y : Val), VPerm false x y →
    (fdFld c f k p x = .none → fdFld c f k p y = .none) ∧
    ∀ w es, fdFld c f k p x = some (.ok (w, es)) → ∃ w' es', fdFld c f k p y = some (.ok (w', es')) ∧ VPerm true w w'
  | .mk n t d, ho, k, p, x, y, hxy => by
    have h := fromDict_perm c t (by simpa only [orderFreeP] using ho) false p x y
    simp only [fdFld]
    split
    · refine ⟨fun h => (nomatch h), fun w es h1 => ?_⟩
      simp only [Option.some.injEq] at h1
      obtain ⟨w', es', h2, h3⟩ := h w es hxy h1
      exact ⟨w', es', by rw [h2], h3⟩
    · exact ⟨fun _ => rfl, fun _ _ h => (nomatch h)⟩
termination_by structural x => x
end

end HS
