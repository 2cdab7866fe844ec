import Verif.Proofs.Events
/-!
# The place at which a value stands in a document matters for what is recorded on the side only
-/
namespace HS

/-- the loaded value, without what is recorded on the side -/
def valOf {α β : Type} (r : Except Err (α × β)) : Except Err α := r.map Prod.fst

theorem valOf_ok {α β : Type} {r : Except Err (α × β)} {a : α} (h : valOf r = .ok a) : ∃ b, r = .ok (a, b) := by
  cases r with
  | error e => exact (nomatch h)
  | ok x => cases h; exact ⟨x.2, rfl⟩

theorem mapIdx_valOf {f g : Nat → Val → Res} (h : ∀ i x, valOf (f i x) = valOf (g i x)) : ∀ (xs : List Val) (i : Nat),
    valOf (mapIdx f i xs) = valOf (mapIdx g i xs)
  | [], _ => rfl
  | x :: xs, i => by
    have h1 := h i x
    have h2 := mapIdx_valOf h xs (i + 1)
    simp only [mapIdx, bind, Except.bind, pure, Except.pure]
    cases hf : f i x <;> cases hg : g i x <;> rw [hf, hg] at h1 <;> 
      simp only [valOf, Except.map, Except.ok.injEq, Except.error.injEq, reduceCtorEq] at h1
    · rw [h1]
    rename_i a b
    have hab := h1
    simp only
    cases hf' : mapIdx f (i + 1) xs <;> cases hg' : mapIdx g (i + 1) xs <;> rw [hf', hg'] at h2 <;>
      simp only [valOf, Except.map, Except.ok.injEq, Except.error.injEq, reduceCtorEq] at h2 ⊢
    · exact h2
    · simp [hab, h2]

theorem mapItems_valOf {f g : String → Val → Res} (h : ∀ i x, valOf (f i x) = valOf (g i x)) : ∀ (xs : List (String × Val)),
    valOf (mapItems f xs) = valOf (mapItems g xs)
  | [] => rfl
  | (k, x) :: xs => by
    have h1 := h k x
    have h2 := mapItems_valOf h xs
    simp only [mapItems, bind, Except.bind, pure, Except.pure]
    cases hf : f k x <;> cases hg : g k x <;> rw [hf, hg] at h1 <;> 
      simp only [valOf, Except.map, Except.ok.injEq, Except.error.injEq, reduceCtorEq] at h1
    · rw [h1]
    rename_i a b
    have hab := h1
    simp only
    cases hf' : mapItems f xs <;> cases hg' : mapItems g xs <;> rw [hf', hg'] at h2 <;>
      simp only [valOf, Except.map, Except.ok.injEq, Except.error.injEq, reduceCtorEq] at h2 ⊢
    · exact h2
    · simp [hab, h2]

theorem itemsLoop_valOf {f g : String → Val → Option Res} (h : ∀ k x, (f k x).map valOf = (g k x).map valOf) (ig : Bool) :
    ∀ (d : List (String × Val)), valOf (itemsLoop f ig d) = valOf (itemsLoop g ig d)
  | [] => rfl
  | (k, x) :: d => by
    have h1 := h k x
    have h2 := itemsLoop_valOf h ig d
    simp only [itemsLoop]
    split
    · exact h2
    · split
      · exact h2
      · cases hf : f k x <;> cases hg : g k x <;> rw [hf, hg] at h1 <;>
          simp only [Option.map_none, Option.map_some, Option.some.injEq, reduceCtorEq] at h1
        · simp only
          split
          · exact h2
          · rfl
        · rename_i a b
          simp only [bind, Except.bind, pure, Except.pure]
          cases a <;> cases b <;> simp only [valOf, Except.map, Except.ok.injEq, Except.error.injEq, reduceCtorEq] at h1
          · rw [h1]
          · rename_i a b
            simp only
            cases hf' : itemsLoop f ig d <;> cases hg' : itemsLoop g ig d <;> rw [hf', hg'] at h2 <;>
              simp only [valOf, Except.map, Except.ok.injEq, Except.error.injEq, reduceCtorEq] at h2 ⊢
            · exact h2
            · simp [h1, h2]

theorem schedHook_valOf (e : Ext) (b : Bool) (p1 p2 : String) (v : Val) :
    (schedHook e b p1 v).map valOf = (schedHook e b p2 v).map valOf := by
  unfold schedHook
  split
  · split
    · simp only [bind, Except.bind, pure, Except.pure, Option.map_some, Option.some.injEq]
      split
      · rfl
      · split
        · split <;> rfl
        · rfl
    · rfl
  · rfl

theorem lazyHook_valOf (p1 p2 cls : String) (v : Val) : valOf (lazyHook p1 cls v) = valOf (lazyHook p2 cls v) := by
  unfold lazyHook
  split <;> rfl

mutual
theorem fromDict_valOf (c : DCfg) : ∀ (t : PyTy) (ig : Bool) (p1 p2 : String) (v : Val),
    valOf (fromDict c t ig p1 v) = valOf (fromDict c t ig p2 v)
  | .int, ig, p1, p2, v => by
    have h := schedHook_valOf c.ext true p1 p2 v
    simp only [fromDict]
    cases h1 : schedHook c.ext true p1 v <;> cases h2 : schedHook c.ext true p2 v <;> rw [h1, h2] at h <;>
      simp only [Option.map_none, Option.map_some, Option.some.injEq, reduceCtorEq] at h
    exact h
  | .float, ig, p1, p2, v => by
    have h := schedHook_valOf c.ext false p1 p2 v
    simp only [fromDict]
    cases h1 : schedHook c.ext false p1 v <;> cases h2 : schedHook c.ext false p2 v <;> rw [h1, h2] at h <;>
      simp only [Option.map_none, Option.map_some, Option.some.injEq, reduceCtorEq] at h
    exact h
  | .str, ig, p1, p2, v => by simp only [fromDict]
  | .bool, ig, p1, p2, v => by simp only [fromDict]
  | .noneT, ig, p1, p2, v => by simp only [fromDict]
  | .union as, ig, p1, p2, v => by
    have ih := fromDict_valOfs c as
    simp only [fromDict]
    split
    · split
      · rfl
      · cases as with
        | nil => rfl
        | cons t ts => simp only [fdHead]; exact ih t (by simp) _ _ _ _
    · simp only [bind, Except.bind, pure, Except.pure]
      split
      · rfl
      · split
        · rfl
        · split
          · rename_i d _
            have key : ∀ (n : Val) (ts : List PyTy), (∀ t ∈ ts, ∀ (ig : Bool) (p1 p2 : String) (v : Val),
                valOf (fromDict c t ig p1 v) = valOf (fromDict c t ig p2 v)) →
                (fdNamed c ts n ig p1 (.dict d)).map valOf = (fdNamed c ts n ig p2 (.dict d)).map valOf := by
              intro n ts
              induction ts with
              | nil => intro _; rfl
              | cons t ts iht =>
                intro h
                simp only [fdNamed]
                split
                · simp only [Option.map_some, Option.some.injEq]; exact h t (by simp) _ _ _ _
                · exact iht (fun t ht => h t (by simp [ht]))
            cases hn : dget d NAME_KEY with
            | none => rfl
            | some n =>
              have := key n as ih
              simp only [Option.bind_some]
              cases h1 : fdNamed c as n ig p1 (.dict d) <;> cases h2 : fdNamed c as n ig p2 (.dict d) <;> rw [h1, h2] at this <;>
                simp only [Option.map_none, Option.map_some, Option.some.injEq, reduceCtorEq] at this
              exact this
          · rfl
          · rfl
  | .list a, ig, p1, p2, v => by
    simp only [fromDict]
    split
    · rename_i xs
      have := mapIdx_valOf (fun i x => fromDict_valOf c a false (p1 ++ "[" ++ i.repr ++ "]") (p2 ++ "[" ++ i.repr ++ "]") x) xs 0
      simp only [bind, Except.bind, pure, Except.pure]
      cases h1 : mapIdx (fun i x => fromDict c a false (p1 ++ "[" ++ i.repr ++ "]") x) 0 xs <;>
        cases h2 : mapIdx (fun i x => fromDict c a false (p2 ++ "[" ++ i.repr ++ "]") x) 0 xs <;> rw [h1, h2] at this <;>
        simp only [valOf, Except.map, Except.ok.injEq, Except.error.injEq, reduceCtorEq] at this ⊢
      · exact this
      · simp [this]
    · rfl
  | .tuple as, ig, p1, p2, v => by
    have ih := fromDict_valOfs c as
    have hn : ∀ (ts : List PyTy), (∀ t ∈ ts, ∀ (ig : Bool) (p1 p2 : String) (v : Val),
        valOf (fromDict c t ig p1 v) = valOf (fromDict c t ig p2 v)) → ∀ (i : Nat) (p1 p2 : String) (x : Val),
        valOf (fdNth c ts i p1 x) = valOf (fdNth c ts i p2 x) := by
      intro ts
      induction ts with
      | nil => intro _ i p1 p2 x; rfl
      | cons t ts iht =>
        intro h i p1 p2 x
        cases i with
        | zero => simp only [fdNth]; exact h t (by simp) _ _ _ _
        | succ i => simp only [fdNth]; exact iht (fun t ht => h t (by simp [ht])) i _ _ _
    have key : ∀ xs, valOf (mapIdx (fun i x => fdNth c as i (p1 ++ "[" ++ i.repr ++ "]") x) 0 xs) =
        valOf (mapIdx (fun i x => fdNth c as i (p2 ++ "[" ++ i.repr ++ "]") x) 0 xs) :=
      fun xs => mapIdx_valOf (fun i x => hn as ih i _ _ x) xs 0
    simp only [fromDict]
    split
    · rename_i xs
      have := key xs
      simp only [bind, Except.bind, pure, Except.pure]
      cases h1 : mapIdx (fun i x => fdNth c as i (p1 ++ "[" ++ i.repr ++ "]") x) 0 xs <;>
        cases h2 : mapIdx (fun i x => fdNth c as i (p2 ++ "[" ++ i.repr ++ "]") x) 0 xs <;> rw [h1, h2] at this <;>
        simp only [valOf, Except.map, Except.ok.injEq, Except.error.injEq, reduceCtorEq] at this ⊢
      · exact this
      · simp [this]
    · rename_i kvs
      have := key (kvs.map Prod.snd)
      simp only [bind, Except.bind, pure, Except.pure]
      cases h1 : mapIdx (fun i x => fdNth c as i (p1 ++ "[" ++ i.repr ++ "]") x) 0 (kvs.map Prod.snd) <;>
        cases h2 : mapIdx (fun i x => fdNth c as i (p2 ++ "[" ++ i.repr ++ "]") x) 0 (kvs.map Prod.snd) <;> rw [h1, h2] at this <;>
        simp only [valOf, Except.map, Except.ok.injEq, Except.error.injEq, reduceCtorEq] at this ⊢
      · exact this
      · simp [this]
    · rfl
  | .dict a b, ig, p1, p2, v => by
    simp only [fromDict]
    split
    · rename_i xs
      have := mapItems_valOf (fun k x => fromDict_valOf c b false (p1 ++ "." ++ k) (p2 ++ "." ++ k) x) xs
      simp only [bind, Except.bind, pure, Except.pure]
      cases h1 : mapItems (fun k x => fromDict c b false (p1 ++ "." ++ k) x) xs <;>
        cases h2 : mapItems (fun k x => fromDict c b false (p2 ++ "." ++ k) x) xs <;> rw [h1, h2] at this <;>
        simp only [valOf, Except.map, Except.ok.injEq, Except.error.injEq, reduceCtorEq] at this ⊢
      · exact this
      · simp [this]
    · rfl
  | .data n fs ver, ig, p1, p2, v => by
    have ih := fromDict_valOff c fs
    have key : ∀ d, valOf (itemsLoop (fun k x => fdField c fs k (fieldPath p1 k) x) ig d) =
        valOf (itemsLoop (fun k x => fdField c fs k (fieldPath p2 k) x) ig d) :=
      fun d => itemsLoop_valOf (fun k x => ih k _ _ x) ig d
    have key2 : ∀ (d : List (String × Val)), valOf (do
        let (kwargs, es) ← itemsLoop (fun k x => fdField c fs k (fieldPath p1 k) x) ig d
        let kvs ← fillFields kwargs fs
        return (Val.inst n kvs, es)) = valOf (do
        let (kwargs, es) ← itemsLoop (fun k x => fdField c fs k (fieldPath p2 k) x) ig d
        let kvs ← fillFields kwargs fs
        return (Val.inst n kvs, es)) := by
      intro d
      have := key d
      simp only [bind, Except.bind, pure, Except.pure]
      cases h1 : itemsLoop (fun k x => fdField c fs k (fieldPath p1 k) x) ig d <;>
        cases h2 : itemsLoop (fun k x => fdField c fs k (fieldPath p2 k) x) ig d <;> rw [h1, h2] at this <;>
        simp only [valOf, Except.map, Except.ok.injEq, Except.error.injEq, reduceCtorEq] at this
      · rw [this]
      · simp only [this]
        cases fillFields _ fs <;> rfl
    have body : ∀ v, valOf (fromDict c (.data n fs .none) ig p1 v) = valOf (fromDict c (.data n fs .none) ig p2 v) := by
      intro v
      simp only [fromDict]
      simp only [bind, Except.bind, pure, Except.pure] at key2 ⊢
      split
      · split
        · rfl
        · split
          · rfl
          · exact key2 _
      · split
        · rfl
        · exact key2 _
    cases ver with
    | none => exact body v
    | some vi =>
      cases hv : versionHook c.allowMissing vi v with
      | error e => simp only [fromDict, hv, bind, Except.bind]
      | ok w =>
        have := body w
        simp only [fromDict, bind, Except.bind, pure, Except.pure] at this
        simp only [fromDict, hv, bind, Except.bind, pure, Except.pure]
        exact this
  | .enum cls ms, ig, p1, p2, v => by simp only [fromDict]
  | .literal vals, ig, p1, p2, v => by simp only [fromDict]
  | .blob cls, ig, p1, p2, v => by
    simp only [fromDict]
    split
    · exact lazyHook_valOf _ _ _ _
    · rfl
termination_by structural x => x
theorem fromDict_valOfs (c : DCfg) : ∀ (ts : List PyTy), ∀ t ∈ ts, ∀ (ig : Bool) (p1 p2 : String) (v : Val),
    valOf (fromDict c t ig p1 v) = valOf (fromDict c t ig p2 v)
  | [], t, ht => by simp at ht
  | t' :: ts, t, ht => by
    have h1 := fromDict_valOf c t'
    have h2 := fromDict_valOfs c ts
    rcases List.mem_cons.1 ht with rfl | ht
    · exact h1
    · exact h2 t ht
termination_by structural x => x
theorem fromDict_valOff (c : DCfg) : ∀ (fs : List Fld) (k : String) (p1 p2 : String) (v : Val),
    (fdField c fs k p1 v).map valOf = (fdField c fs k p2 v).map valOf
  | [], _, _, _, _ => rfl
  | f :: fs, k, p1, p2, v => by
    have h1 := fromDict_valOfp c f k p1 p2 v
    have h2 := fromDict_valOff c fs k p1 p2 v
    simp only [fdField]
    cases hf : fdFld c f k p1 v <;> cases hg : fdFld c f k p2 v <;> rw [hf, hg] at h1 <;>
      simp only [Option.map_none, Option.map_some, Option.some.injEq, reduceCtorEq] at h1
    · exact h2
    · simp [h1]
termination_by structural x => x
theorem fromDict_valOfp (c : DCfg) : ∀ (f : Fld) (k : String) (p1 p2 : String) (v : Val),
    (fdFld c f k p1 v).map valOf = (fdFld c f k p2 v).map valOf
  | .mk n t d, k, p1, p2, v => by
    have h := fromDict_valOf c t false p1 p2 v
    simp only [fdFld]
    split
    · simp [h]
    · rfl
termination_by structural x => x
end

end HS
