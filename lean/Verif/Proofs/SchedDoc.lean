import Verif.Spec.SchedDoc
import Verif.Proofs.RestoreLoad
import Verif.Props.Typed
/-!
# The schedules a load finds are those in the document
-/
namespace HS

/-- the dataclass branch of `from_dict` on a document -/
theorem fromDict_data_inv {c : DCfg} {n : String} {fs : List Fld} {ver : Option VerInfo} {ig : Bool} {path : String}
    {doc v : Val} {es : List Ev} (h : fromDict c (.data n fs ver) ig path doc = .ok (v, es))
    (hi : ∀ v', upgraded c.allowMissing ver doc = .ok v' → v'.isInst = false) :
    ∃ doc' kw kvs, upgraded c.allowMissing ver doc = .ok doc' ∧
      itemsLoop (fun k x => fdField c fs k (fieldPath path k) x) ig (docEntries doc') = .ok (kw, es) ∧
      fillFields kw fs = .ok kvs ∧ v = .inst n kvs := by
  have hu : fromDict c (.data n fs ver) ig path doc = (do
      let v ← upgraded c.allowMissing ver doc
      match v with
      | .inst cls kvs =>
        if cls = n then return (.inst cls kvs, [])
        else do
          let d ← asRawDict c (.inst cls kvs)
          let (kwargs, es) ← itemsLoop (fun k x => fdField c fs k (fieldPath path k) x) ig d
          let kvs ← fillFields kwargs fs
          return (.inst n kvs, es)
      | v => do
        let d ← asRawDict c v
        let (kwargs, es) ← itemsLoop (fun k x => fdField c fs k (fieldPath path k) x) ig d
        let kvs ← fillFields kwargs fs
        return (.inst n kvs, es)) := by
    cases ver <;> rfl
  rw [hu] at h
  simp only [bind, Except.bind] at h
  cases h1 : upgraded c.allowMissing ver doc with
  | error e => rw [h1] at h; exact (nomatch h)
  | ok doc' =>
    rw [h1] at h
    dsimp only at h
    have hni := hi doc' h1
    have key : ∀ d, asRawDict c doc' = .ok d → d = docEntries doc' := by
      intro d hd
      cases doc' with
      | inst _ _ => simp [Val.isInst] at hni
      | tup xs =>
        cases xs <;> simp [asRawDict, bind, Except.bind, pure, Except.pure, throw, throwThe, MonadExceptOf.throw] at hd
        subst hd; rfl
      | _ => simp [asRawDict, bind, Except.bind, pure, Except.pure, throw, throwThe, MonadExceptOf.throw] at hd <;>
          (subst hd; rfl)
    have h' : (do
        let d ← asRawDict c doc'
        let (kwargs, es) ← itemsLoop (fun k x => fdField c fs k (fieldPath path k) x) ig d
        let kvs ← fillFields kwargs fs
        return (Val.inst n kvs, es)) = Except.ok (v, es) := by
      simp only [bind, Except.bind]
      cases doc' with
      | inst _ _ => simp [Val.isInst] at hni
      | _ => exact h
    simp only [bind, Except.bind, pure, Except.pure] at h'
    cases h2 : asRawDict c doc' with
    | error e => rw [h2] at h'; exact (nomatch h')
    | ok d =>
      rw [h2] at h'
      dsimp only at h'
      have hd := key d h2
      cases h3 : itemsLoop (fun k x => fdField c fs k (fieldPath path k) x) ig d with
      | error e => rw [h3] at h'; exact (nomatch h')
      | ok x =>
        rw [h3] at h'
        dsimp only at h'
        cases h4 : fillFields x.1 fs with
        | error e => rw [h4] at h'; exact (nomatch h')
        | ok kvs =>
          rw [h4] at h'
          simp only [Except.ok.injEq, Prod.mk.injEq] at h'
          exact ⟨doc', x.1, kvs, rfl, by rw [← hd, h3, ← h'.2], h4, h'.1.symm⟩

theorem fdField_inv (c : DCfg) (k path : String) (v : Val) : ∀ (fs : List Fld) (r : Res),
    fdField c fs k path v = some r → ∃ t d, Fld.mk k t d ∈ fs ∧ r = fromDict c t false path v := by
  intro fs
  induction fs with
  | nil => intro r h; simp [fdField] at h
  | cons f fs ih =>
    intro r h
    obtain ⟨n, t, d⟩ := f
    simp only [fdField, fdFld] at h
    split at h
    · rename_i r' h'
      split at h'
      · rename_i hn
        simp only [Option.some.injEq] at h h'
        subst hn
        exact ⟨t, d, by simp, by rw [← h, ← h']⟩
      · exact (nomatch h')
    · obtain ⟨t', d', h1, h2⟩ := ih r h
      exact ⟨t', d', List.mem_cons_of_mem _ h1, h2⟩

/-- a property of the events that holds for each entry holds for the loop -/
theorem itemsLoop_noSched {f : String → Val → Option Res} {ig : Bool} : ∀ {d kw es}, itemsLoop f ig d = .ok (kw, es) →
    (∀ k x w es', (k, x) ∈ d → f k x = some (.ok (w, es')) → schedsOf es' = []) → schedsOf es = [] := by
  intro d
  induction d with
  | nil => intro kw es h _; simp [itemsLoop] at h; simp [h.2, schedsOf]
  | cons a d ih =>
    obtain ⟨k, x⟩ := a
    intro kw es h hf
    have hf' : ∀ k x w es', (k, x) ∈ d → f k x = some (.ok (w, es')) → schedsOf es' = [] :=
      fun k x w es' hm => hf k x w es' (List.mem_cons_of_mem _ hm)
    simp only [itemsLoop] at h
    split at h
    · exact ih h hf'
    · split at h
      · exact ih h hf'
      · split at h
        · split at h
          · exact ih h hf'
          · exact (nomatch h)
        · rename_i r hr
          simp only [bind, Except.bind, pure, Except.pure] at h
          cases r with
          | error e => exact (nomatch h)
          | ok q =>
            dsimp only at h
            cases h2 : itemsLoop f ig d with
            | error e => rw [h2] at h; exact (nomatch h)
            | ok q2 =>
              rw [h2] at h
              simp only [Except.ok.injEq, Prod.mk.injEq] at h
              rw [← h.2, schedsOf_append, hf k x q.1 q.2 (by simp) hr, ih h2 hf']
              rfl

theorem mapIdx_noSched {f : Nat → Val → Res} : ∀ {xs : List Val} {j : Nat} {ys : List Val} {es : List Ev},
    mapIdx f j xs = .ok (ys, es) →
    (∀ (i : Nat) x y es', xs[i]? = some x → f (j + i) x = .ok (y, es') → schedsOf es' = []) → schedsOf es = [] := by
  intro xs
  induction xs with
  | nil => intro j ys es h _; simp [mapIdx] at h; simp [h.2, schedsOf]
  | cons x xs ih =>
    intro j ys es h hf
    simp only [mapIdx, bind, Except.bind, pure, Except.pure] at h
    cases h1 : f j x with
    | error e => rw [h1] at h; exact (nomatch h)
    | ok q =>
      rw [h1] at h
      dsimp only at h
      cases h2 : mapIdx f (j + 1) xs with
      | error e => rw [h2] at h; exact (nomatch h)
      | ok q2 =>
        rw [h2] at h
        simp only [Except.ok.injEq, Prod.mk.injEq] at h
        rw [← h.2, schedsOf_append, hf 0 x q.1 q.2 (by simp) h1, ih h2 ?_]
        · rfl
        · intro i x y es' hx hy
          refine hf (i + 1) x y es' (by simpa using hx) ?_
          rw [← hy]; congr 1; omega

theorem mapItems_noSched {f : String → Val → Res} : ∀ {d d' : List (String × Val)} {es : List Ev},
    mapItems f d = .ok (d', es) →
    (∀ kv ∈ d, ∀ y es', f kv.1 kv.2 = .ok (y, es') → schedsOf es' = []) → schedsOf es = [] := by
  intro d
  induction d with
  | nil => intro d' es h _; simp [mapItems] at h; simp [h.2, schedsOf]
  | cons a d ih =>
    obtain ⟨k, x⟩ := a
    intro d' es h hf
    simp only [mapItems, bind, Except.bind, pure, Except.pure] at h
    cases h1 : f k x with
    | error e => rw [h1] at h; exact (nomatch h)
    | ok q =>
      rw [h1] at h
      dsimp only at h
      cases h2 : mapItems f d with
      | error e => rw [h2] at h; exact (nomatch h)
      | ok q2 =>
        rw [h2] at h
        simp only [Except.ok.injEq, Prod.mk.injEq] at h
        rw [← h.2, schedsOf_append, hf (k, x) (by simp) q.1 q.2 h1, ih h2 (fun kv hm => hf kv (List.mem_cons_of_mem _ hm))]
        rfl

theorem primBranches_noEv {e : Ext} {wi wf ws : Bool} {v : Val} {r : Val × List Ev}
    (h : primBranches e wi wf ws v = .ok (some r)) : r.2 = [] := by
  unfold primBranches at h
  split at h <;> (try split at h) <;> (try split at h) <;>
    simp [toFloat, strToFloat, strToInt, bind, Except.bind, pure, Except.pure, throw, throwThe, MonadExceptOf.throw] at h
  all_goals first
    | (rw [← h]; done)
    | (repeat' split at h) <;> simp at h <;> (try (rw [← h])) <;> (try (rename_i hh; repeat' split at hh)) <;> simp_all <;> (try (rename_i hh; rw [← hh]))
    | skip


theorem noSchedFs_mem {am : Bool} {kvs : List (String × Val)} : ∀ {fs : List Fld}, NoSchedFs am fs kvs →
    ∀ {n t d}, Fld.mk n t d ∈ fs → ∀ x, (n, x) ∈ kvs → NoSched am t x := by
  intro fs
  induction fs with
  | nil => intro _ n t d h; simp at h
  | cons f fs ih =>
    intro h n t d hm
    simp only [NoSchedFs] at h
    rcases List.mem_cons.1 hm with rfl | hm
    · simpa only [NoSchedF] using h.1
    · exact ih h.2 hm

theorem schedHook_none {e : Ext} {b : Bool} {path : String} {v : Val} (h : ∀ s, v = .str s → '@' ∉ s.toList) :
    schedHook e b path v = none := by
  cases v with
  | str s => simp [schedHook, h s rfl]
  | _ => rfl

theorem load_int_sched {c : DCfg} {ig : Bool} {path s : String} (hs : '@' ∈ s.toList) {v' : Val} {es : List Ev}
    (h : fromDict c .int ig path (.str s) = .ok (v', es)) :
    ∃ f i, c.ext.schedAt0 s = .ok f ∧ f.toInt = .ok i ∧ v' = .int i ∧ es = [.sched path s true] := by
  have hk : schedHook c.ext true path (.str s) = some (do
      let f ← c.ext.schedAt0 s
      return (.int (← f.toInt), [.sched path s true])) := by simp [schedHook, hs]
  simp only [fromDict, hk, bind, Except.bind, pure, Except.pure] at h
  cases h1 : c.ext.schedAt0 s with
  | error e => rw [h1] at h; exact (nomatch h)
  | ok f =>
    rw [h1] at h
    dsimp only at h
    cases h2 : f.toInt with
    | error e => rw [h2] at h; exact (nomatch h)
    | ok i =>
      rw [h2] at h
      simp only [Except.ok.injEq, Prod.mk.injEq] at h
      exact ⟨f, i, rfl, h2, h.1.symm, h.2.symm⟩

theorem load_float_sched {c : DCfg} {ig : Bool} {path s : String} (hs : '@' ∈ s.toList) {v' : Val} {es : List Ev}
    (h : fromDict c .float ig path (.str s) = .ok (v', es)) :
    ∃ f, c.ext.schedAt0 s = .ok f ∧ v' = .flt f ∧ es = [.sched path s false] := by
  have hk : schedHook c.ext false path (.str s) = some (do
      let f ← c.ext.schedAt0 s
      return (.flt f, [.sched path s false])) := by simp [schedHook, hs]
  simp only [fromDict, hk, bind, Except.bind, pure, Except.pure] at h
  cases h1 : c.ext.schedAt0 s with
  | error e => rw [h1] at h; exact (nomatch h)
  | ok f =>
    rw [h1] at h
    simp only [Except.ok.injEq, Prod.mk.injEq] at h
    exact ⟨f, rfl, h.1.symm, h.2.symm⟩

mutual
/-- without schedules in the document the load finds none -/
theorem noSched_load (c : DCfg) : ∀ (t : PyTy) (ig : Bool) (path : String) (v v' : Val) (es : List Ev),
    NoSched c.allowMissing t v → fromDict c t ig path v = .ok (v', es) → schedsOf es = []
  | .int, ig, path, v, v', es, hn, h => by
    simp only [NoSched] at hn
    simp only [fromDict, schedHook_none hn] at h
    cases v <;> simp only [bind, Except.bind, pure, Except.pure] at h
    case int => simp only [Except.ok.injEq, Prod.mk.injEq] at h; rw [← h.2]; rfl
    case bool => simp only [Except.ok.injEq, Prod.mk.injEq] at h; rw [← h.2]; rfl
    all_goals
      split at h
      · exact (nomatch h)
      · rename_i r hr
        split at h
        · have := primBranches_noEv hr
          simp only [Except.ok.injEq] at h
          rw [h] at this
          simp only at this
          rw [this]; rfl
        · simp [throw, throwThe, MonadExceptOf.throw] at h
  | .float, ig, path, v, v', es, hn, h => by
    simp only [NoSched] at hn
    simp only [fromDict, schedHook_none hn] at h
    cases v <;> simp only [bind, Except.bind, pure, Except.pure] at h
    case flt => simp only [Except.ok.injEq, Prod.mk.injEq] at h; rw [← h.2]; rfl
    all_goals
      split at h
      · exact (nomatch h)
      · rename_i r hr
        split at h
        · have := primBranches_noEv hr
          simp only [Except.ok.injEq] at h
          rw [h] at this
          simp only at this
          rw [this]; rfl
        · simp [throw, throwThe, MonadExceptOf.throw] at h
  | .str, ig, path, v, v', es, hn, h => by
    simp only [fromDict] at h
    cases v <;> simp only [bind, Except.bind, pure, Except.pure] at h
    case str => simp only [Except.ok.injEq, Prod.mk.injEq] at h; rw [← h.2]; rfl
    all_goals
      split at h
      · exact (nomatch h)
      · rename_i r hr
        split at h
        · have := primBranches_noEv hr
          simp only [Except.ok.injEq] at h
          rw [h] at this
          simp only at this
          rw [this]; rfl
        · simp [throw, throwThe, MonadExceptOf.throw] at h
  | .bool, ig, path, v, v', es, hn, h => by
    simp only [fromDict] at h
    split at h
    · simp only [Except.ok.injEq, Prod.mk.injEq] at h; rw [← h.2]; rfl
    · exact (nomatch h)
  | .noneT, ig, path, v, v', es, hn, h => by
    simp only [fromDict] at h
    split at h
    · simp only [Except.ok.injEq, Prod.mk.injEq] at h; rw [← h.2]; rfl
    · exact (nomatch h)
  | .union as, ig, path, v, v', es, hn, h => by
    simp only [NoSched] at hn
    simp only [fromDict] at h
    split at h
    · split at h
      · simp only [Except.ok.injEq, Prod.mk.injEq] at h; rw [← h.2]; rfl
      · exact noSched_head c as ig path v v' es hn h
    · simp only [bind, Except.bind, pure, Except.pure] at h
      split at h
      · exact (nomatch h)
      · rename_i r hr
        split at h
        · have := primBranches_noEv hr
          simp only [Except.ok.injEq] at h
          rw [h] at this
          simp only at this
          rw [this]; rfl
        · split at h
          · rename_i d
            cases hd : dget d NAME_KEY with
            | none =>
              rw [hd] at h
              simp only [Option.bind_none] at h
              split at h <;> simp [throw, throwThe, MonadExceptOf.throw] at h
            | some n =>
              rw [hd] at h
              simp only [Option.bind_some] at h
              split at h
              · rename_i r' hr'
                subst h
                exact noSched_named c as n ig path _ v' es hn hr'
              · split at h <;> simp [throw, throwThe, MonadExceptOf.throw] at h
          · split at h <;> simp [throw, throwThe, MonadExceptOf.throw] at h
          · simp [throw, throwThe, MonadExceptOf.throw] at h
  | .list a, ig, path, v, v', es, hn, h => by
    simp only [NoSched] at hn
    simp only [fromDict] at h
    split at h
    · rename_i xs
      simp only [bind, Except.bind, pure, Except.pure] at h
      split at h
      · exact (nomatch h)
      · rename_i q hq
        simp only [Except.ok.injEq, Prod.mk.injEq] at h
        rw [← h.2]
        refine mapIdx_noSched (ys := q.1) hq ?_
        intro i x y es' hx hy
        exact noSched_load c a _ _ x y es' (hn xs rfl x (List.mem_of_getElem? hx)) hy
    · exact (nomatch h)
  | .tuple as, ig, path, v, v', es, hn, h => by
    simp only [NoSched] at hn
    simp only [fromDict] at h
    split at h
    · rename_i xs
      simp only [bind, Except.bind, pure, Except.pure] at h
      split at h
      · exact (nomatch h)
      · rename_i q hq
        simp only [Except.ok.injEq, Prod.mk.injEq] at h
        rw [← h.2]
        refine mapIdx_noSched (ys := q.1) hq ?_
        intro i x y es' hx hy
        rw [Nat.zero_add] at hy
        exact noSched_nth c as i _ x y es' xs (hn.1 xs rfl) hx hy
    · rename_i n kvs
      simp only [bind, Except.bind, pure, Except.pure] at h
      split at h
      · exact (nomatch h)
      · rename_i q hq
        simp only [Except.ok.injEq, Prod.mk.injEq] at h
        rw [← h.2]
        refine mapIdx_noSched (ys := q.1) hq ?_
        intro i x y es' hx hy
        rw [Nat.zero_add] at hy
        exact noSched_nth c as i _ x y es' _ (hn.2 n kvs rfl) hx hy
    · exact (nomatch h)
  | .dict _ b, ig, path, v, v', es, hn, h => by
    simp only [NoSched] at hn
    simp only [fromDict] at h
    split at h
    · rename_i kvs
      simp only [bind, Except.bind, pure, Except.pure] at h
      split at h
      · exact (nomatch h)
      · rename_i q hq
        simp only [Except.ok.injEq, Prod.mk.injEq] at h
        rw [← h.2]
        refine mapItems_noSched (d' := q.1) hq ?_
        intro kv hkv y es' hy
        exact noSched_load c b _ _ kv.2 y es' (hn kvs rfl kv hkv) hy
    · exact (nomatch h)
  | .data n fs ver, ig, path, v, v', es, hn, h => by
    simp only [NoSched] at hn
    obtain ⟨doc', kw, kvs, h1, h2, -, -⟩ := fromDict_data_inv h (fun w hw => (hn w hw).1)
    refine itemsLoop_noSched h2 ?_
    intro k x w es' hm hf
    exact noSched_field c fs k _ x w es' (docEntries doc') (hn doc' h1).2 hm hf
  | .enum cls ms, ig, path, v, v', es, hn, h => by
    simp only [fromDict] at h
    split at h
    · split at h
      · simp only [Except.ok.injEq, Prod.mk.injEq] at h; rw [← h.2]; rfl
      · simp only [bind, Except.bind, pure, Except.pure] at h
        split at h
        · exact (nomatch h)
        · simp only [Except.ok.injEq, Prod.mk.injEq] at h; rw [← h.2]; rfl
    · simp only [bind, Except.bind, pure, Except.pure] at h
      split at h
      · exact (nomatch h)
      · simp only [Except.ok.injEq, Prod.mk.injEq] at h; rw [← h.2]; rfl
  | .literal vals, ig, path, v, v', es, hn, h => by
    simp only [fromDict] at h
    split at h
    · have key : ∀ w : Val, (if pyMem w vals = true then Except.ok (w, []) else Except.error Err.deserValue) = Except.ok (v', es) →
          schedsOf es = [] := by
        intro w hw
        split at hw
        · simp only [Except.ok.injEq, Prod.mk.injEq] at hw; rw [← hw.2]; rfl
        · exact (nomatch hw)
      exact key _ h
    · exact (nomatch h)
  | .blob cls, ig, path, v, v', es, hn, h => by
    simp only [fromDict] at h
    split at h
    · unfold lazyHook at h
      split at h
      · simp only [Except.ok.injEq, Prod.mk.injEq] at h; rw [← h.2]; rfl
      · simp only [Except.ok.injEq, Prod.mk.injEq] at h; rw [← h.2]; rfl
      · simp only [Except.ok.injEq, Prod.mk.injEq] at h; rw [← h.2]; rfl
      · exact (nomatch h)
    · split at h
      · split at h
        · simp only [Except.ok.injEq, Prod.mk.injEq] at h; rw [← h.2]; rfl
        · exact (nomatch h)
      · exact (nomatch h)
theorem noSched_head (c : DCfg) : ∀ (as : List PyTy) (ig : Bool) (path : String) (v v' : Val) (es : List Ev),
    NoSchedAny c.allowMissing as v → fdHead c as ig path v = .ok (v', es) → schedsOf es = []
  | [], _, _, _, _, _, _, h => by simp [fdHead] at h
  | t :: _, ig, path, v, v', es, hn, h => by
    simp only [NoSchedAny] at hn
    simp only [fdHead] at h
    exact noSched_load c t ig path v v' es hn.1 h
theorem noSched_named (c : DCfg) : ∀ (as : List PyTy) (n : Val) (ig : Bool) (path : String) (v v' : Val) (es : List Ev),
    NoSchedAny c.allowMissing as v → fdNamed c as n ig path v = some (.ok (v', es)) → schedsOf es = []
  | [], _, _, _, _, _, _, _, h => by simp [fdNamed] at h
  | t :: ts, n, ig, path, v, v', es, hn, h => by
    simp only [NoSchedAny] at hn
    simp only [fdNamed] at h
    split at h
    · simp only [Option.some.injEq] at h
      exact noSched_load c t ig path v v' es hn.1 h
    · exact noSched_named c ts n ig path v v' es hn.2 h
theorem noSched_nth (c : DCfg) : ∀ (as : List PyTy) (i : Nat) (path : String) (v v' : Val) (es : List Ev) (xs : List Val),
    NoScheds c.allowMissing as xs → xs[i]? = some v → fdNth c as i path v = .ok (v', es) → schedsOf es = []
  | [], _, _, _, _, _, _, _, _, h => by simp [fdNth] at h
  | t :: ts, i, path, v, v', es, xs, hn, hx, h => by
    simp only [NoScheds] at hn
    simp only [fdNth] at h
    cases xs with
    | nil => simp at hx
    | cons y ys =>
      obtain ⟨h1, h2⟩ := hn y ys rfl
      cases i with
      | zero =>
        simp only [List.getElem?_cons_zero, Option.some.injEq] at hx
        subst hx
        exact noSched_load c t false path y v' es h1 h
      | succ i => exact noSched_nth c ts i path v v' es ys h2 (by simpa using hx) h
theorem noSched_field (c : DCfg) : ∀ (fs : List Fld) (k path : String) (v v' : Val) (es : List Ev) (kvs : List (String × Val)),
    NoSchedFs c.allowMissing fs kvs → (k, v) ∈ kvs → fdField c fs k path v = some (.ok (v', es)) → schedsOf es = []
  | [], _, _, _, _, _, _, _, _, h => by simp [fdField] at h
  | f :: fs, k, path, v, v', es, kvs, hn, hm, h => by
    simp only [NoSchedFs] at hn
    simp only [fdField] at h
    split at h
    · rename_i r hr
      simp only [Option.some.injEq] at h
      subst h
      exact noSched_fld c f k path v v' es kvs hn.1 hm hr
    · exact noSched_field c fs k path v v' es kvs hn.2 hm h
theorem noSched_fld (c : DCfg) : ∀ (f : Fld) (k path : String) (v v' : Val) (es : List Ev) (kvs : List (String × Val)),
    NoSchedF c.allowMissing f kvs → (k, v) ∈ kvs → fdFld c f k path v = some (.ok (v', es)) → schedsOf es = []
  | .mk n t d, k, path, v, v', es, kvs, hn, hm, h => by
    simp only [NoSchedF] at hn
    simp only [fdFld] at h
    split at h
    · rename_i hnk
      subst hnk
      simp only [Option.some.injEq] at h
      exact noSched_load c t false path v v' es (hn v hm) h
    · exact (nomatch h)
end

theorem SchedIn.not_noSched {am : Bool} {t : PyTy} {doc : Val} {segs : List String} {s : String} {b : Bool}
    (h : SchedIn am t doc segs s b) : ¬ NoSched am t doc := by
  induction h with
  | int hs => intro hn; simp only [NoSched] at hn; exact hn _ rfl hs
  | float hs => intro hn; simp only [NoSched] at hn; exact hn _ rfl hs
  | opt _ _ ih => intro hn; simp only [NoSched, NoSchedAny] at hn; exact ih hn.1
  | field hu hm _ hf _ ih =>
    intro hn
    simp only [NoSched] at hn
    exact ih (noSchedFs_mem (hn _ hu).2 hf _ hm)


/-! ## the events of a load -/

/-- the schedules found are those in the document -/
structure EvsDoc (am : Bool) (t : PyTy) (doc : Val) (path : String) (n : Nat) (es : List Ev) : Prop where
  sound : ∀ x ∈ schedsOf es, ∃ segs, x.1 = segsOf path ++ segs ∧ segs.length < n ∧ SchedIn am t doc segs x.2.1 x.2.2
  complete : ∀ segs s b, SchedIn am t doc segs s b → (segsOf path ++ segs, (s, b)) ∈ schedsOf es
  nodup : ((schedsOf es).map Prod.fst).Nodup

theorem EvsDoc.nil {am : Bool} {t : PyTy} {doc : Val} {path : String} {n : Nat} {es : List Ev} (h : schedsOf es = [])
    (hn : ∀ segs s b, ¬ SchedIn am t doc segs s b) : EvsDoc am t doc path n es :=
  ⟨by simp [h], fun segs s b hs => absurd hs (hn segs s b), by simp [h]⟩

theorem SchedIn.shape {am : Bool} {t : PyTy} {doc : Val} {segs : List String} {s : String} {b : Bool}
    (h : SchedIn am t doc segs s b) : t = .int ∨ t = .float ∨ (∃ as, t = .union as ∧ isOptionalArgs as = true) ∨
      ∃ n fs ver, t = .data n fs ver := by
  cases h with
  | int => exact .inl rfl
  | float => exact .inr (.inl rfl)
  | opt h _ => exact .inr (.inr (.inl ⟨_, rfl, h⟩))
  | field => exact .inr (.inr (.inr ⟨_, _, _, rfl⟩))

theorem SchedIn.not_none {am : Bool} {t : PyTy} {segs : List String} {s : String} {b : Bool} :
    ¬ SchedIn am t .none segs s b := by
  intro h
  generalize hd : Val.none = doc at h
  induction h with
  | int => exact (nomatch hd)
  | float => exact (nomatch hd)
  | opt _ _ ih => exact ih hd
  | @field c fs ver doc doc' x n t d segs s b hu hm =>
    subst hd
    have : doc' = .none := by
      cases ver with
      | none => simp only [upgraded, Except.ok.injEq] at hu; exact hu.symm
      | some vi =>
        simp only [upgraded, versionHook] at hu
        split at hu
        · simp only [Except.ok.injEq] at hu; exact hu.symm
        · exact (nomatch hu)
    subst this
    simp [docEntries] at hm

theorem fld_unique : ∀ {fs : List Fld}, (fs.map Fld.name).Nodup → ∀ {f g : Fld}, f ∈ fs → g ∈ fs → f.name = g.name → f = g := by
  intro fs
  induction fs with
  | nil => intro _ f g h; simp at h
  | cons a fs ih =>
    intro hn f g hf hg he
    simp only [List.map_cons, List.nodup_cons] at hn
    rcases List.mem_cons.1 hf with rfl | hf <;> rcases List.mem_cons.1 hg with rfl | hg
    · rfl
    · exact absurd (List.mem_map.2 ⟨g, hg, he.symm⟩) hn.1
    · exact absurd (List.mem_map.2 ⟨f, (by assumption), he⟩ : _ ∈ fs.map Fld.name) hn.1
    · exact ih hn.2 hf hg he

/-- the schedules found in some entries of an object -/
structure EvsItems (am : Bool) (fs : List Fld) (path : String) (n : Nat) (d : List (String × Val)) (es : List Ev) : Prop where
  sound : ∀ y ∈ schedsOf es, ∃ k x t dd segs, (k, x) ∈ d ∧ x.isWeak = false ∧ Fld.mk k t dd ∈ fs ∧
    y.1 = segsOf path ++ k :: segs ∧ segs.length < n ∧ SchedIn am t x segs y.2.1 y.2.2
  complete : ∀ k x t dd segs s b, (k, x) ∈ d → x.isWeak = false → Fld.mk k t dd ∈ fs → SchedIn am t x segs s b →
    (segsOf path ++ k :: segs, (s, b)) ∈ schedsOf es
  nodup : ((schedsOf es).map Prod.fst).Nodup

/-- the entries of an object, given what is known about each of them -/
theorem evs_items {c : DCfg} {fs : List Fld} {ig : Bool} {path : String} {n : Nat} (hnd : (fs.map Fld.name).Nodup)
    (hid : ∀ f ∈ fs, NameOK f.name ∧ IdOK f.name) : ∀ {d : List (String × Val)} {kw : List (String × Val)} {es : List Ev},
    itemsLoop (fun k x => fdField c fs k (fieldPath path k) x) ig d = .ok (kw, es) → (dkeys d).Nodup →
    (∀ k x t dd w es', (k, x) ∈ d → x.isWeak = false → Fld.mk k t dd ∈ fs →
      fromDict c t false (fieldPath path k) x = .ok (w, es') → EvsDoc c.allowMissing t x (fieldPath path k) n es') →
    EvsItems c.allowMissing fs path n d es := by
  intro d
  induction d with
  | nil => intro kw es h _ _; simp [itemsLoop] at h; exact ⟨by simp [h.2, schedsOf], by simp, by simp [h.2, schedsOf]⟩
  | cons a d ih =>
    obtain ⟨k, x⟩ := a
    intro kw es h hn hev
    simp only [dkeys, List.map_cons, List.nodup_cons] at hn
    have hev' := fun k x t dd w es' hm => hev k x t dd w es' (List.mem_cons_of_mem _ hm)
    -- the entry is skipped
    have skip : (∀ t dd, Fld.mk k t dd ∈ fs → x.isWeak = true) →
        itemsLoop (fun k x => fdField c fs k (fieldPath path k) x) ig d = .ok (kw, es) →
        EvsItems c.allowMissing fs path n ((k, x) :: d) es := fun hs h => by
      obtain ⟨h1, h2, h3⟩ := ih h hn.2 hev'
      refine ⟨?_, ?_, h3⟩
      · intro y hy
        obtain ⟨k', x', t, dd, segs, q⟩ := h1 y hy
        exact ⟨k', x', t, dd, segs, List.mem_cons_of_mem _ q.1, q.2⟩
      · intro k' x' t dd segs s b hm hw hf hs'
        rcases List.mem_cons.1 hm with hm | hm
        · simp only [Prod.mk.injEq] at hm
          obtain ⟨rfl, rfl⟩ := hm
          rw [hs t dd hf] at hw; exact (nomatch hw)
        · exact h2 k' x' t dd segs s b hm hw hf hs'
    simp only [itemsLoop] at h
    split at h
    · rename_i hk
      exact skip (fun t dd hf => absurd hk (hid _ hf).1.1) h
    · split at h
      · rename_i hw
        exact skip (fun t dd hf => hw) h
      · rename_i hw
        have hw : x.isWeak = false := by simpa using hw
        split at h
        · rename_i hf
          split at h
          · refine skip (fun t dd hf' => ?_) h
            rw [fdField_mem c k _ x fs _ hnd hf' rfl] at hf
            exact (nomatch hf)
          · exact (nomatch h)
        · rename_i r hr
          simp only [bind, Except.bind, pure, Except.pure] at h
          cases r with
          | error e => exact (nomatch h)
          | ok q =>
            dsimp only at h
            cases h2 : itemsLoop (fun k x => fdField c fs k (fieldPath path k) x) ig d with
            | error e => rw [h2] at h; exact (nomatch h)
            | ok q2 =>
              rw [h2] at h
              simp only [Except.ok.injEq, Prod.mk.injEq] at h
              obtain ⟨t, dd, hf, hr'⟩ := fdField_inv c k _ x fs _ hr
              have e1 := hev k x t dd q.1 q.2 (by simp) hw hf hr'.symm
              have hpk : segsOf (fieldPath path k) = segsOf path ++ [k] := segsOf_join (hid _ hf).2
              obtain ⟨g1, g2, g3⟩ := ih (kw := q2.1) (es := q2.2) h2 hn.2 hev'
              rw [← h.2]
              refine ⟨?_, ?_, ?_⟩ <;> rw [schedsOf_append]
              · intro y hy
                rcases List.mem_append.1 hy with hy | hy
                · obtain ⟨segs, p1, p2, p3⟩ := e1.sound y hy
                  refine ⟨k, x, t, dd, segs, by simp, hw, hf, ?_, p2, p3⟩
                  rw [p1, hpk]; simp
                · obtain ⟨k', x', t', dd', segs, q⟩ := g1 y hy
                  exact ⟨k', x', t', dd', segs, List.mem_cons_of_mem _ q.1, q.2⟩
              · intro k' x' t' dd' segs s b hm hw' hf' hs'
                rcases List.mem_cons.1 hm with hm | hm
                · simp only [Prod.mk.injEq] at hm
                  obtain ⟨rfl, rfl⟩ := hm
                  have ht : t' = t := by
                    have : (Fld.mk k' t' dd') = .mk k' t dd := by
                      exact fld_unique hnd hf' hf rfl
                    cases this; rfl
                  subst ht
                  have := e1.complete segs s b hs'
                  rw [hpk] at this
                  refine List.mem_append_left _ ?_
                  simpa using this
                · exact List.mem_append_right _ (g2 k' x' t' dd' segs s b hm hw' hf' hs')
              · rw [List.map_append, List.nodup_append]
                refine ⟨e1.nodup, g3, ?_⟩
                intro a ha b hb hab
                obtain ⟨y, hy, rfl⟩ := List.mem_map.1 ha
                obtain ⟨z, hz, rfl⟩ := List.mem_map.1 hb
                obtain ⟨segs, p1, _⟩ := e1.sound y hy
                obtain ⟨k', x', t', dd', segs', m1, m2, m3, m4, _⟩ := g1 z hz
                rw [p1, m4, hpk, List.append_assoc, List.append_cancel_left_eq] at hab
                simp only [List.singleton_append, List.cons.injEq] at hab
                exact hn.1 (List.mem_map.2 ⟨(k', x'), m1, hab.1.symm⟩)

theorem shallowFs_mem {am : Bool} {n : Nat} {kvs : List (String × Val)} : ∀ {fs : List Fld}, ShallowFs am fs n kvs →
    ∀ {f}, f ∈ fs → ShallowF am f n kvs := by
  intro fs
  induction fs with
  | nil => intro _ f h; simp at h
  | cons g fs ih =>
    intro h f hm
    simp only [ShallowFs] at h
    rcases List.mem_cons.1 hm with rfl | hm
    · exact h.1
    · exact ih h.2 hm

theorem noLeaf {am : Bool} {t : PyTy} {doc : Val} {segs : List String} {s : String} {b : Bool}
    (h : SchedIn am t doc segs s b) (h1 : t ≠ .int) (h2 : t ≠ .float) (h3 : ∀ as, t ≠ .union as) (h4 : ∀ n fs v, t ≠ .data n fs v) :
    False := by
  rcases h.shape with h | h | ⟨as, h, _⟩ | ⟨n, fs, v, h⟩
  · exact h1 h
  · exact h2 h
  · exact h3 as h
  · exact h4 n fs v h

mutual
theorem evs_load (c : DCfg) : ∀ (t : PyTy) (n : Nat) (ig : Bool) (path : String) (v v' : Val) (es : List Ev),
    IdsOK t → Shallow c.allowMissing t n v → fromDict c t ig path v = .ok (v', es) →
    EvsDoc c.allowMissing t v path (n + 1) es
  | .int, n, ig, path, v, v', es, _, _, h => by
    by_cases hs : ∀ s, v = .str s → '@' ∉ s.toList
    · have hns : NoSched c.allowMissing .int v := by simpa only [NoSched] using hs
      exact .nil (noSched_load c .int ig path v v' es hns h) (fun segs s b hi => hi.not_noSched hns)
    · have : ∃ s, v = .str s ∧ '@' ∈ s.toList := by
        exact Classical.byContradiction (fun hc => hs (fun s h1 h2 => hc ⟨s, h1, h2⟩))
      clear hs
      obtain ⟨s, rfl, hs⟩ := this
      obtain ⟨f, i, -, -, -, rfl⟩ := load_int_sched hs h
      refine ⟨?_, ?_, by simp [schedsOf, Ev.sched?]⟩
      · intro x hx
        simp [schedsOf, Ev.sched?] at hx
        subst hx
        exact ⟨[], by simp, by simp, .int hs⟩
      · intro segs s' b hi
        cases hi
        simp [schedsOf, Ev.sched?]
  | .float, n, ig, path, v, v', es, _, _, h => by
    by_cases hs : ∀ s, v = .str s → '@' ∉ s.toList
    · have hns : NoSched c.allowMissing .float v := by simpa only [NoSched] using hs
      exact .nil (noSched_load c .float ig path v v' es hns h) (fun segs s b hi => hi.not_noSched hns)
    · have : ∃ s, v = .str s ∧ '@' ∈ s.toList := by
        exact Classical.byContradiction (fun hc => hs (fun s h1 h2 => hc ⟨s, h1, h2⟩))
      clear hs
      obtain ⟨s, rfl, hs⟩ := this
      obtain ⟨f, -, -, rfl⟩ := load_float_sched hs h
      refine ⟨?_, ?_, by simp [schedsOf, Ev.sched?]⟩
      · intro x hx
        simp [schedsOf, Ev.sched?] at hx
        subst hx
        exact ⟨[], by simp, by simp, .float hs⟩
      · intro segs s' b hi
        cases hi
        simp [schedsOf, Ev.sched?]
  | .union as, n, ig, path, v, v', es, hid, hsh, h => by
    simp only [IdsOK] at hid
    simp only [Shallow] at hsh
    rcases hsh with ⟨hopt, hsh⟩ | ⟨hopt, hsh⟩
    · simp only [fromDict, hopt, if_true] at h
      split at h
      · rename_i hnone
        simp only [Except.ok.injEq, Prod.mk.injEq] at h
        have : v = .none := by cases v <;> simp [Val.isNone] at hnone ⊢
        subst this
        exact .nil (by rw [← h.2]; rfl) (fun segs s b hi => hi.not_none)
      · exact evs_loadH c as n ig path v v' es hopt hid hsh h
    · have hns : NoSched c.allowMissing (.union as) v := by simpa only [NoSched] using hsh
      exact .nil (noSched_load c (.union as) ig path v v' es hns h) (fun segs s b hi => hi.not_noSched hns)
  | .data nm fs ver, n, ig, path, v, v', es, hid, hsh, h => by
    simp only [IdsOK] at hid
    simp only [Shallow] at hsh
    obtain ⟨doc', kw, kvs, h1, h2, -, -⟩ := fromDict_data_inv h (fun w hw => (hsh w hw).1)
    obtain ⟨-, hn, hfs⟩ := hsh doc' h1
    obtain ⟨g1, g2, g3⟩ := evs_items (n := n) hid.1 hid.2.1 h2 hn (fun k x t dd w es' hm hw hf hl =>
      evs_loadF c fs n path (docEntries doc') k x t dd w es' hid.2.2 hfs hf hm hw hl)
    refine ⟨?_, ?_, g3⟩
    · intro y hy
      obtain ⟨k, x, t, dd, segs, p1, p2, p3, p4, p5, p6⟩ := g1 y hy
      exact ⟨k :: segs, p4, by simp only [List.length_cons]; omega, .field h1 p1 p2 p3 p6⟩
    · intro segs s b hi
      cases hi with
      | field q1 q2 q3 q4 q5 =>
        rw [h1] at q1
        cases q1
        exact g2 _ _ _ _ _ _ _ q2 q3 q4 q5
  | .str, n, ig, path, v, v', es, _, hsh, h => by
    simp only [Shallow] at hsh
    exact .nil (noSched_load c _ ig path v v' es hsh h) (fun segs s b hi => hi.not_noSched hsh)
  | .bool, n, ig, path, v, v', es, _, hsh, h => by
    simp only [Shallow] at hsh
    exact .nil (noSched_load c _ ig path v v' es hsh h) (fun segs s b hi => hi.not_noSched hsh)
  | .noneT, n, ig, path, v, v', es, _, hsh, h => by
    simp only [Shallow] at hsh
    exact .nil (noSched_load c _ ig path v v' es hsh h) (fun segs s b hi => hi.not_noSched hsh)
  | .list _, n, ig, path, v, v', es, _, hsh, h => by
    simp only [Shallow] at hsh
    exact .nil (noSched_load c _ ig path v v' es hsh h) (fun segs s b hi => hi.not_noSched hsh)
  | .tuple _, n, ig, path, v, v', es, _, hsh, h => by
    simp only [Shallow] at hsh
    exact .nil (noSched_load c _ ig path v v' es hsh h) (fun segs s b hi => hi.not_noSched hsh)
  | .dict _ _, n, ig, path, v, v', es, _, hsh, h => by
    simp only [Shallow] at hsh
    exact .nil (noSched_load c _ ig path v v' es hsh h) (fun segs s b hi => hi.not_noSched hsh)
  | .enum _ _, n, ig, path, v, v', es, _, hsh, h => by
    simp only [Shallow] at hsh
    exact .nil (noSched_load c _ ig path v v' es hsh h) (fun segs s b hi => hi.not_noSched hsh)
  | .literal _, n, ig, path, v, v', es, _, hsh, h => by
    simp only [Shallow] at hsh
    exact .nil (noSched_load c _ ig path v v' es hsh h) (fun segs s b hi => hi.not_noSched hsh)
  | .blob _, n, ig, path, v, v', es, _, hsh, h => by
    simp only [Shallow] at hsh
    exact .nil (noSched_load c _ ig path v v' es hsh h) (fun segs s b hi => hi.not_noSched hsh)
theorem evs_loadH (c : DCfg) : ∀ (as : List PyTy) (n : Nat) (ig : Bool) (path : String) (v v' : Val) (es : List Ev),
    isOptionalArgs as = true → IdsOKHead as → ShallowHead c.allowMissing as n v → fdHead c as ig path v = .ok (v', es) →
    EvsDoc c.allowMissing (.union as) v path (n + 1) es
  | [], _, _, _, _, _, _, _, _, _, h => by simp [fdHead] at h
  | t :: ts, n, ig, path, v, v', es, hopt, hid, hsh, h => by
    simp only [IdsOKHead] at hid
    simp only [ShallowHead] at hsh
    simp only [fdHead] at h
    have e := evs_load c t n ig path v v' es hid hsh h
    refine ⟨?_, ?_, e.nodup⟩
    · intro x hx
      obtain ⟨segs, h1, h2, h3⟩ := e.sound x hx
      exact ⟨segs, h1, h2, .opt hopt h3⟩
    · intro segs s b hi
      cases hi with
      | opt _ hi => exact e.complete segs s b hi
theorem evs_loadF (c : DCfg) : ∀ (fs : List Fld) (n : Nat) (path : String) (kvs : List (String × Val)) (k : String) (x : Val)
    (t : PyTy) (dd : Option Val) (w : Val) (es : List Ev), IdsOKf fs → ShallowFs c.allowMissing fs n kvs →
    Fld.mk k t dd ∈ fs → (k, x) ∈ kvs → x.isWeak = false → fromDict c t false (fieldPath path k) x = .ok (w, es) →
    EvsDoc c.allowMissing t x (fieldPath path k) n es
  | [], _, _, _, _, _, _, _, _, _, _, _, hf, _, _, _ => by simp at hf
  | f :: fs, n, path, kvs, k, x, t, dd, w, es, hid, hsh, hf, hm, hw, h => by
    simp only [IdsOKf] at hid
    simp only [ShallowFs] at hsh
    rcases List.mem_cons.1 hf with heq | hf
    · exact evs_loadF1 c f n path kvs k x t dd w es hid.1 hsh.1 heq hm hw h
    · exact evs_loadF c fs n path kvs k x t dd w es hid.2 hsh.2 hf hm hw h
theorem evs_loadF1 (c : DCfg) : ∀ (f : Fld) (n : Nat) (path : String) (kvs : List (String × Val)) (k : String) (x : Val)
    (t : PyTy) (dd : Option Val) (w : Val) (es : List Ev), IdsOK1 f → ShallowF c.allowMissing f n kvs →
    Fld.mk k t dd = f → (k, x) ∈ kvs → x.isWeak = false → fromDict c t false (fieldPath path k) x = .ok (w, es) →
    EvsDoc c.allowMissing t x (fieldPath path k) n es
  | .mk k0 t0 d0, n, path, kvs, k, x, t, dd, w, es, hid, hsh, heq, hm, hw, h => by
    obtain ⟨rfl, rfl, rfl⟩ := Fld.mk.inj heq
    simp only [IdsOK1] at hid
    simp only [ShallowF] at hsh
    rcases hsh x hm hw with ⟨rfl, hns⟩ | ⟨m, rfl, hsh'⟩
    · exact .nil (noSched_load c _ _ _ x w es hns h) (fun segs s b hi => hi.not_noSched hns)
    · exact evs_load c _ m false _ x w es hid hsh' h
end

end HS
