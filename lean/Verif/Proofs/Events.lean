import Verif.Proofs.Firm
/-!
# What a load can record on the side: every event comes from one of the two hooks
-/
namespace HS

/-- events of a result satisfy `P` -/
def EvAll (P : Ev → Prop) (r : Res) : Prop := ∀ v es, r = .ok (v, es) → ∀ e ∈ es, P e

theorem mapIdx_evs {P : Ev → Prop} {f : Nat → Val → Res} (hf : ∀ i x, EvAll P (f i x)) :
    ∀ (xs : List Val) (i : Nat) {ys : List Val} {es : List Ev}, mapIdx f i xs = .ok (ys, es) → ∀ e ∈ es, P e := by
  intro xs
  induction xs with
  | nil => intro i ys es h; simp only [mapIdx, Except.ok.injEq, Prod.mk.injEq] at h; rw [← h.2]; simp
  | cons x xs ih =>
    intro i ys es h
    simp only [mapIdx, bind, Except.bind, pure, Except.pure] at h
    split at h
    · exact (nomatch h)
    · rename_i q hq
      split at h
      · exact (nomatch h)
      · rename_i q' hq'
        simp only [Except.ok.injEq, Prod.mk.injEq] at h
        rw [← h.2]
        intro e he
        rcases List.mem_append.1 he with he | he
        · exact hf i x q.1 q.2 hq e he
        · exact ih (i + 1) (ys := q'.1) (es := q'.2) hq' e he

theorem mapItems_evs {P : Ev → Prop} {f : String → Val → Res} (hf : ∀ i x, EvAll P (f i x)) :
    ∀ (xs : List (String × Val)) {ys : List (String × Val)} {es : List Ev}, mapItems f xs = .ok (ys, es) → ∀ e ∈ es, P e := by
  intro xs
  induction xs with
  | nil => intro ys es h; simp only [mapItems, Except.ok.injEq, Prod.mk.injEq] at h; rw [← h.2]; simp
  | cons kx xs ih =>
    obtain ⟨k, x⟩ := kx
    intro ys es h
    simp only [mapItems, bind, Except.bind, pure, Except.pure] at h
    split at h
    · exact (nomatch h)
    · rename_i q hq
      split at h
      · exact (nomatch h)
      · rename_i q' hq'
        simp only [Except.ok.injEq, Prod.mk.injEq] at h
        rw [← h.2]
        intro e he
        rcases List.mem_append.1 he with he | he
        · exact hf k x q.1 q.2 hq e he
        · exact ih (ys := q'.1) (es := q'.2) hq' e he

theorem itemsLoop_evs {P : Ev → Prop} {f : String → Val → Option Res} (hf : ∀ k x r, f k x = some r → EvAll P r) (ig : Bool) :
    ∀ (xs : List (String × Val)) {ys : List (String × Val)} {es : List Ev}, itemsLoop f ig xs = .ok (ys, es) → ∀ e ∈ es, P e := by
  intro xs
  induction xs with
  | nil => intro ys es h; simp only [itemsLoop, Except.ok.injEq, Prod.mk.injEq] at h; rw [← h.2]; simp
  | cons kx xs ih =>
    obtain ⟨k, x⟩ := kx
    intro ys es h
    simp only [itemsLoop] at h
    split at h
    · exact ih h
    · split at h
      · exact ih h
      · split at h
        · split at h
          · exact ih h
          · exact (nomatch h)
        · rename_i r hr
          cases r with
          | error e => exact (nomatch h)
          | ok q =>
            simp only [bind, Except.bind, pure, Except.pure] at h
            split at h
            · exact (nomatch h)
            · rename_i q' hq'
              simp only [Except.ok.injEq, Prod.mk.injEq] at h
              rw [← h.2]
              intro e he
              rcases List.mem_append.1 he with he | he
              · exact hf k x _ hr q.1 q.2 rfl e he
              · exact ih (ys := q'.1) (es := q'.2) hq' e he

theorem primBranches_evs {e : Ext} {wi wf ws : Bool} {v : Val} {r : Val × List Ev} (h : primBranches e wi wf ws v = .ok (some r)) :
    r.2 = [] := by
  unfold primBranches at h
  split at h
  · split at h <;> simp at h
    rw [← h]
  · split at h
    · simp only [toFloat, bind, Except.bind, pure, Except.pure] at h
      split at h
      · exact (nomatch h)
      · rename_i q hq
        split at hq
        · exact (nomatch hq)
        · cases hq; cases h; rfl
    · simp at h
  · split at h
    · simp only [toFloat, bind, Except.bind, pure, Except.pure] at h
      split at h
      · exact (nomatch h)
      · rename_i q hq
        split at hq
        · exact (nomatch hq)
        · cases hq; cases h; rfl
    · simp at h
  · split at h
    · simp only [bind, Except.bind, pure, Except.pure] at h
      split at h
      · exact (nomatch h)
      · split at h
        · cases h; rfl
        · simp at h
    · simp at h
  · split at h
    · simp only [strToFloat, bind, Except.bind, pure, Except.pure] at h
      split at h
      · exact (nomatch h)
      · rename_i q hq
        split at hq
        · cases hq; cases h; rfl
        · exact (nomatch hq)
    · split at h
      · simp only [strToInt, bind, Except.bind, pure, Except.pure] at h
        split at h
        · exact (nomatch h)
        · rename_i q hq
          split at hq
          · split at hq
            · exact (nomatch hq)
            · split at hq
              · cases hq; cases h; rfl
              · exact (nomatch hq)
          · exact (nomatch hq)
      · simp at h
  · simp at h

theorem schedHook_evs {P : Ev → Prop} (hs : ∀ path s b, '@' ∈ s.toList → P (.sched path s b)) {e : Ext} {b : Bool} {path : String}
    {v : Val} {r : Res} (h : schedHook e b path v = some r) : EvAll P r := by
  unfold schedHook at h
  split at h
  · split at h
    · rename_i s hat
      simp only [Option.some.injEq] at h
      intro w es hr
      rw [← h] at hr
      simp only [bind, Except.bind, pure, Except.pure] at hr
      split at hr
      · exact (nomatch hr)
      · split at hr
        · split at hr
          · exact (nomatch hr)
          · cases hr; intro x hx; rw [List.mem_singleton.1 hx]; exact hs _ _ _ hat
        · cases hr; intro x hx; rw [List.mem_singleton.1 hx]; exact hs _ _ _ hat
    · simp at h
  · simp at h

mutual
theorem fromDict_evs (c : DCfg) {P : Ev → Prop} (hs : ∀ path s b, '@' ∈ s.toList → P (.sched path s b))
    (hl : c.file = true → ∀ path cls v, EvAll P (lazyHook path cls v)) : ∀ (t : PyTy) (ig : Bool) (path : String) (v : Val), EvAll P (fromDict c t ig path v)
  | .int, ig, path, v => by
    intro w es h
    simp only [fromDict] at h
    split at h
    · rename_i r hr; exact schedHook_evs hs hr w es h
    · split at h
      · cases h; simp
      · cases h; simp
      · simp only [bind, Except.bind, pure, Except.pure] at h
        split at h
        · exact (nomatch h)
        · rename_i q hq
          split at h
          · cases h; rw [show es = [] from primBranches_evs hq]; simp
          · simp [throw, throwThe, MonadExceptOf.throw] at h
  | .float, ig, path, v => by
    intro w es h
    simp only [fromDict] at h
    split at h
    · rename_i r hr; exact schedHook_evs hs hr w es h
    · split at h
      · cases h; simp
      · simp only [bind, Except.bind, pure, Except.pure] at h
        split at h
        · exact (nomatch h)
        · rename_i q hq
          split at h
          · cases h; rw [show es = [] from primBranches_evs hq]; simp
          · simp [throw, throwThe, MonadExceptOf.throw] at h
  | .str, ig, path, v => by
    intro w es h
    simp only [fromDict] at h
    split at h
    · cases h; simp
    · simp only [bind, Except.bind, pure, Except.pure] at h
      split at h
      · exact (nomatch h)
      · rename_i q hq
        split at h
        · cases h; rw [show es = [] from primBranches_evs hq]; simp
        · simp [throw, throwThe, MonadExceptOf.throw] at h
  | .bool, ig, path, v => by
    intro w es h
    simp only [fromDict] at h
    split at h
    · cases h; simp
    · exact (nomatch h)
  | .noneT, ig, path, v => by
    intro w es h
    simp only [fromDict] at h
    split at h
    · cases h; simp
    · exact (nomatch h)
  | .union as, ig, path, v => by
    intro w es h
    have ih := fromDict_evss c hs hl as
    simp only [fromDict] at h
    split at h
    · split at h
      · cases h; simp
      · cases as with
        | nil => simp [fdHead] at h
        | cons t ts => simp only [fdHead] at h; exact ih t (by simp) _ _ _ _ _ h
    · simp only [bind, Except.bind, pure, Except.pure] at h
      split at h
      · exact (nomatch h)
      · rename_i r hr
        split at h
        · cases h; rw [show es = [] from primBranches_evs hr]; simp
        · split at h
          · rename_i d
            split at h
            · rename_i r' hr'
              obtain ⟨n, hn, hnamed⟩ := Option.bind_eq_some_iff.1 hr'
              obtain ⟨t, ht, he⟩ := fdNamed_some c n ig path (.dict d) as r' hnamed
              rw [he] at h
              exact ih t ht _ _ _ _ _ h
            · split at h <;> simp [throw, throwThe, MonadExceptOf.throw] at h
          · split at h <;> simp [throw, throwThe, MonadExceptOf.throw] at h
          · simp [throw, throwThe, MonadExceptOf.throw] at h
  | .list a, ig, path, v => by
    intro w es h
    simp only [fromDict] at h
    split at h
    · simp only [bind, Except.bind, pure, Except.pure] at h
      split at h
      · exact (nomatch h)
      · rename_i q hq
        cases h
        exact mapIdx_evs (fun i x => fromDict_evs c hs hl a false _ x) _ _ (ys := q.1) (es := q.2) hq
    · exact (nomatch h)
  | .tuple as, ig, path, v => by
    intro w es h
    have ih := fromDict_evsn c hs hl as
    simp only [fromDict] at h
    split at h
    · simp only [bind, Except.bind, pure, Except.pure] at h
      split at h
      · exact (nomatch h)
      · rename_i q hq
        cases h
        exact mapIdx_evs (fun i x => ih i _ x) _ _ (ys := q.1) (es := q.2) hq
    · simp only [bind, Except.bind, pure, Except.pure] at h
      split at h
      · exact (nomatch h)
      · rename_i q hq
        cases h
        exact mapIdx_evs (fun i x => ih i _ x) _ _ (ys := q.1) (es := q.2) hq
    · exact (nomatch h)
  | .dict a b, ig, path, v => by
    intro w es h
    simp only [fromDict] at h
    split at h
    · simp only [bind, Except.bind, pure, Except.pure] at h
      split at h
      · exact (nomatch h)
      · rename_i q hq
        cases h
        exact mapItems_evs (fun i x => fromDict_evs c hs hl b false _ x) _ (ys := q.1) (es := q.2) hq
    · exact (nomatch h)
  | .data n fs ver, ig, path, v => by
    intro w es h
    have ih := fromDict_evsf c hs hl fs
    have h1 : ∃ v1, fromDict c (.data n fs .none) ig path v1 = .ok (w, es) := by
      cases ver with
      | none => exact ⟨v, h⟩
      | some vi =>
        simp only [fromDict, bind, Except.bind, pure, Except.pure] at h
        split at h
        · exact (nomatch h)
        · rename_i v1 hv1
          exact ⟨v1, by simpa only [fromDict, bind, Except.bind, pure, Except.pure] using h⟩
    obtain ⟨v1, h1⟩ := h1
    simp only [fromDict, bind, Except.bind, pure, Except.pure] at h1
    split at h1
    · split at h1
      · cases h1; simp
      · split at h1
        · exact (nomatch h1)
        · split at h1
          · exact (nomatch h1)
          · rename_i z hz
            split at h1
            · exact (nomatch h1)
            · cases h1
              exact itemsLoop_evs (fun k x r hr => ih k _ x r hr) ig _ (ys := z.1) (es := z.2) hz
    · split at h1
      · exact (nomatch h1)
      · split at h1
        · exact (nomatch h1)
        · rename_i z hz
          split at h1
          · exact (nomatch h1)
          · cases h1
            exact itemsLoop_evs (fun k x r hr => ih k _ x r hr) ig _ (ys := z.1) (es := z.2) hz
  | .enum cls ms, ig, path, v => by
    intro w es h
    simp only [fromDict, bind, Except.bind, pure, Except.pure] at h
    split at h
    · split at h
      · cases h; simp
      · split at h
        · exact (nomatch h)
        · cases h; simp
    · split at h
      · exact (nomatch h)
      · cases h; simp
  | .literal vals, ig, path, v => by
    intro w es h
    simp only [fromDict] at h
    split at h
    · split at h <;> split at h <;> first | (cases h; simp) | simp at h
    · exact (nomatch h)
  | .blob cls, ig, path, v => by
    intro w es h
    simp only [fromDict] at h
    split at h
    · rename_i hf; exact hl hf path cls v w es h
    · split at h
      · split at h
        · cases h; simp
        · exact (nomatch h)
      · exact (nomatch h)
theorem fromDict_evss (c : DCfg) {P : Ev → Prop} (hs : ∀ path s b, '@' ∈ s.toList → P (.sched path s b))
    (hl : c.file = true → ∀ path cls v, EvAll P (lazyHook path cls v)) :
    ∀ (ts : List PyTy), ∀ t ∈ ts, ∀ (ig : Bool) (path : String) (v : Val), EvAll P (fromDict c t ig path v)
  | [], t, ht, _, _, _ => by simp at ht
  | t :: ts, t', ht, ig, path, v => by
    have h1 := fromDict_evs c hs hl t
    have h2 := fromDict_evss c hs hl ts
    rcases List.mem_cons.1 ht with rfl | ht
    · exact h1 ig path v
    · exact h2 t' ht ig path v
theorem fromDict_evsn (c : DCfg) {P : Ev → Prop} (hs : ∀ path s b, '@' ∈ s.toList → P (.sched path s b))
    (hl : c.file = true → ∀ path cls v, EvAll P (lazyHook path cls v)) :
    ∀ (ts : List PyTy) (i : Nat) (path : String) (v : Val), EvAll P (fdNth c ts i path v)
  | [], _, _, _ => by intro w es h; simp [fdNth] at h
  | t :: ts, i, path, v => by
    have h1 := fromDict_evs c hs hl t
    have h2 := fromDict_evsn c hs hl ts
    cases i with
    | zero => simp only [fdNth]; exact h1 _ _ _
    | succ i => simp only [fdNth]; exact h2 _ _ _
theorem fromDict_evsf (c : DCfg) {P : Ev → Prop} (hs : ∀ path s b, '@' ∈ s.toList → P (.sched path s b))
    (hl : c.file = true → ∀ path cls v, EvAll P (lazyHook path cls v)) :
    ∀ (fs : List Fld) (k path : String) (v : Val) (r : Res), fdField c fs k path v = some r → EvAll P r
  | [], _, _, _, _, h => by simp [fdField] at h
  | .mk n t d :: fs, k, path, v, r, h => by
    have h1 := fromDict_evs c hs hl t
    have h2 := fromDict_evsf c hs hl fs
    simp only [fdField, fdFld] at h
    by_cases hn : n = k
    · simp only [hn, if_true, Option.some.injEq] at h
      rw [← h]; exact h1 _ _ _
    · simp only [hn, if_false] at h
      exact h2 _ _ _ _ h
end

theorem lazyInto_mem : ∀ (es : List Ev) (d : List (String × LazyEntry)) (k : String) (e : LazyEntry), dget (lazyInto d es) k = some e →
    dget d k = some e ∨ .lazy k e.cls e.file e.pickle ∈ es := by
  intro es
  induction es with
  | nil => intro d k e h; exact .inl h
  | cons ev es ih =>
    intro d k e h
    cases ev with
    | sched p s b =>
      rcases ih d k e h with h | h
      · exact .inl h
      · exact .inr (List.mem_cons_of_mem _ h)
    | lazy p c f b =>
      rcases ih _ k e h with h | h
      · by_cases hk : k = p
        · subst hk
          rw [dget_dset_self] at h
          simp only [Option.some.injEq] at h
          subst h
          exact .inr (by simp)
        · rw [dget_dset_ne _ _ (Ne.symm hk)] at h
          exact .inl h
      · exact .inr (List.mem_cons_of_mem _ h)

end HS
