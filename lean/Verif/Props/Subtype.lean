import Verif.Proofs.Subtype
import Verif.Props.Leaf
/-!
# C30: subtyping and values
-/
namespace HS

theorem pyEq_isStr {v w : Val} (h : pyEq v w = true) (hw : w.isStr = true) : ∃ s, v = .str s := by
  cases w <;> simp [Val.isStr] at hw
  cases v <;> simp [pyEq, Val.num?] at h
  exact ⟨_, rfl⟩

/-- a document value equal to an int loads as an int -/
theorem load_eq_int (c : DCfg) (ig : Bool) (path : String) {v w : Val} (h : pyEq v w = true) (hw : w.isInt = true) :
    ∃ r, fromDict c .int ig path v = .ok r ∧ pyEq v r.1 = true ∧ r.2 = [] := by
  have h0 : ∃ i : Int, w.num? = some (.fin i) := by
    cases w <;> simp [Val.isInt] at hw
    · rename_i b; cases b
      · exact ⟨0, rfl⟩
      · exact ⟨1, rfl⟩
    · exact ⟨_, rfl⟩
  obtain ⟨i, hi⟩ := h0
  obtain ⟨g, hg⟩ := pyEq_num_right hi h
  rw [pyEq_num hg, hi] at h
  cases v <;> simp [Val.num?] at hg
  · exact ⟨_, by simp only [fromDict, schedHook]; rfl, by simp [pyEq, Val.num?, Flt.eqv], rfl⟩
  · exact ⟨_, by simp only [fromDict, schedHook]; rfl, by simp [pyEq, Val.num?, Flt.eqv], rfl⟩
  · subst hg
    rename_i f
    cases f <;> simp [Flt.eqv] at h
    subst h
    have h1 : (Flt.fin (i : Rat)).toInt = .ok i := by simp [Flt.toInt]
    refine ⟨(.int i, []), ?_, by simp [pyEq, Val.num?, Flt.eqv], rfl⟩
    simp only [fromDict, schedHook, primBranches, h1, bind, Except.bind, pure, Except.pure]
    simp [Flt.eqv]

theorem load_literal {c : DCfg} {vs : List Val} {ig : Bool} {path : String} {x : Val} {r : Val × List Ev}
    (h : fromDict c (.literal vs) ig path x = .ok r) : vs.all c.ext.typeArgOk = true ∧ pyMem (litRead x) vs = true ∧ r = (litRead x, []) := by
  have h' : (if vs.all c.ext.typeArgOk then (if pyMem (litRead x) vs then .ok (litRead x, []) else .error .deserValue)
    else .error .syntaxError : Res) = .ok r := by rw [← h]; simp only [fromDict]; rfl
  by_cases h1 : vs.all c.ext.typeArgOk = true
  · rw [if_pos h1] at h'
    by_cases h2 : pyMem (litRead x) vs = true
    · rw [if_pos h2] at h'; cases h'; exact ⟨h1, h2, rfl⟩
    · rw [if_neg h2] at h'; cases h'
  · rw [if_neg h1] at h'; cases h'

theorem load_literal_of {c : DCfg} {vs : List Val} {ig : Bool} {path : String} {x : Val}
    (h1 : vs.all c.ext.typeArgOk = true) (h2 : pyMem (litRead x) vs = true) :
    fromDict c (.literal vs) ig path x = .ok (litRead x, []) := by
  have : (if vs.all c.ext.typeArgOk then (if pyMem (litRead x) vs then .ok (litRead x, []) else .error .deserValue)
    else .error .syntaxError : Res) = fromDict c (.literal vs) ig path x := by simp only [fromDict]; rfl
  rw [← this, if_pos h1, if_pos h2]

theorem litUsableL_mem {e : Ext} {ts : List STy} (h : LitUsableL e ts) : ∀ t ∈ ts, LitUsable e t := by
  induction ts with
  | nil => simp
  | cons t ts ih =>
    simp only [LitUsableL] at h
    intro u hu
    rcases List.mem_cons.1 hu with rfl | hu
    · exact h.1
    · exact ih h.2 u hu

theorem pyEq_symm_right {a b : Val} (hs : b.scalar = true) (h : pyEq a b = true) : pyEq b a = true := by
  cases hf : a.num? with
  | some f =>
    refine pyEq_symm_scalar ?_ h
    cases a <;> simp [Val.num?] at hf <;> rfl
  | none =>
    cases a <;> simp [Val.num?] at hf <;> cases b <;> simp [Val.scalar] at hs <;> simp [pyEq] at h ⊢
    · exact h.symm
    · exact ⟨h.1.symm, h.2.symm⟩

/-- where None loads as a flat type, the result shows as None -/
theorem flat_none (c : DCfg) (A : STy) (ta : PyTy) (ig : Bool) (path : String) (r : Val × List Ev) (hA : materialize ta = .ok A)
    (hf : FlatS A) (h : fromDict c ta ig path .none = .ok r) : KeptR .none r (.none, []) := by
  cases hf with
  | prim => rcases mat_prim_inv hA with ⟨rfl, rfl⟩ | ⟨rfl, rfl⟩ | ⟨rfl, rfl⟩ | ⟨rfl, rfl⟩ <;> exact (nomatch h)
  | list => obtain ⟨a, rfl, ha⟩ := mat_list_inv hA; simp only [fromDict] at h; cases h
  | tuple => obtain ⟨a, rfl, ha⟩ := mat_tuple_inv hA; simp only [fromDict] at h; cases h
  | dict => obtain ⟨a, b, rfl, ha⟩ := mat_dict_inv hA; simp only [fromDict] at h; cases h
  | enum hs =>
    have := mat_enum_inv hA
    subst this
    simp only [fromDict, bind, Except.bind, pure, Except.pure] at h
    split at h
    · cases h
    · rename_i hq
      cases h
      obtain ⟨n, w, h1, h2, rfl⟩ := enumByValue_inv hq
      exact ⟨.same nofun (pyEq_symm_right (hs n w h1) h2), trivial⟩
  | literal =>
    have := mat_literal_inv hA
    subst this
    obtain ⟨-, -, rfl⟩ := load_literal h
    exact ⟨.refl nofun, trivial⟩

/-- what `C30_partial` says, for types of bounded size -/
def SubIH (c : DCfg) (N : Nat) : Prop := ∀ (A B : STy) (ta tb : PyTy) (ig : Bool) (path : String) (x : Val) (r : Val × List Ev),
  sizeOf A + sizeOf B < N → materialize ta = .ok A → materialize tb = .ok B → FlatS A → LitUsable c.ext B → IntsFit x →
  isSubtype A B = true → fromDict c ta ig path x = .ok r → ∃ r', fromDict c tb ig path x = .ok r' ∧ KeptR x r r'

theorem nth_sound (c : DCfg) (N : Nat) (ih : SubIH c N) (path : String) (x : Val) : ∀ (ts us : List STy) (as bs : List PyTy) (i : Nat)
    (r : Val × List Ev), sizeOf ts + sizeOf us < N → materializeL as = .ok ts → materializeL bs = .ok us →
    (∀ t ∈ ts, FlatS t) → LitUsableL c.ext us → IntsFit x → subZip ts us = true → ts.length = us.length →
    fdNth c as i path x = .ok r → ∃ r', fdNth c bs i path x = .ok r' ∧ KeptR x r r'
  | ts, us, [], bs, i, r, _, _, _, _, _, _, _, _, h => by simp [fdNth] at h
  | ts, us, a :: as, bs, i, r, hN, h1, h2, hf, hl, hx, hz, hlen, h => by
    obtain ⟨t, ts', h3, h4, rfl⟩ := matL_cons h1
    cases bs with
    | nil =>
      simp only [materializeL, pure, Except.pure] at h2
      cases h2
      exact (nomatch hlen)
    | cons b bs =>
      obtain ⟨u, us', h5, h6, rfl⟩ := matL_cons h2
      rw [subZip, Bool.and_eq_true] at hz
      simp only [LitUsableL] at hl
      simp only [List.cons.sizeOf_spec] at hN
      cases i with
      | zero =>
        simp only [fdNth] at h ⊢
        exact ih t u a b false path x r (by omega) h3 h5 (hf t (by simp)) hl.1 hx hz.1 h
      | succ i =>
        simp only [fdNth] at h ⊢
        exact nth_sound c N ih path x ts' us' as bs i r (by omega) h4 h6 (fun t ht => hf t (List.mem_cons_of_mem _ ht)) hl.2 hx
          hz.2 (by simpa using hlen) h

theorem kept_litRead (x : Val) : Kept x (litRead x) (litRead x) := by
  unfold litRead
  split
  · exact .refl nofun
  · exact .doc

theorem sub_sound (c : DCfg) : ∀ N, SubIH c N := by
  intro N
  induction N with
  | zero => intro A B ta tb ig path x r hN; exact absurd hN (Nat.not_lt_zero _)
  | succ N ih =>
    intro A B ta tb ig path x r hN hA hB hf hl hx hs h
    -- an Optional on the right
    cases B with
    | option u =>
      obtain ⟨b, rfl, hb⟩ := mat_option_inv hB
      have hs' : isSubtype A u = true := by
        cases hf <;> simpa only [isSubtype] using hs
      simp only [LitUsable] at hl
      simp only [STy.option.sizeOf_spec] at hN
      obtain ⟨r', hr, hk⟩ := ih A u ta b ig path x r (by omega) hA hb hf hl hx hs' h
      by_cases hv : x.isNone = true
      · refine ⟨(.none, []), by simp [fromDict, isOptionalArgs, PyTy.isNoneT, hv], ?_⟩
        cases x <;> simp [Val.isNone] at hv
        exact flat_none c A ta ig path r hA hf h
      · exact ⟨r', by simpa [fromDict, isOptionalArgs, PyTy.isNoneT, hv, fdHead] using hr, hk⟩
    | prim q =>
      cases hf <;> try (simp [isSubtype] at hs; done)
      · rename_i p
        rcases mat_prim_inv hA with ⟨rfl, rfl⟩ | ⟨rfl, rfl⟩ | ⟨rfl, rfl⟩ | ⟨rfl, rfl⟩ <;>
          rcases mat_prim_inv hB with ⟨rfl, rfl⟩ | ⟨rfl, rfl⟩ | ⟨rfl, rfl⟩ | ⟨rfl, rfl⟩ <;>
          first
            | exact ⟨r, h, keptR_refl _ (prim_not_inst (by simp) h)⟩
            | (simp [isSubtype] at hs; done)
            | exact load_int_float c ig path x r hx h
      · rename_i vs
        have := mat_literal_inv hA
        subst this
        simp only [isSubtype, Bool.or_eq_true, Bool.and_eq_true, beq_iff_eq, List.all_eq_true] at hs
        obtain ⟨-, hm, rfl⟩ := load_literal h
        obtain ⟨w, hw1, hw2⟩ := List.any_eq_true.1 hm
        rcases hs with ⟨rfl, hs⟩ | ⟨rfl, hs⟩
        · rcases mat_prim_inv hB with ⟨rfl, h'⟩ | ⟨rfl, h'⟩ | ⟨rfl, h'⟩ | ⟨rfl, h'⟩ <;> try exact absurd h' (by decide)
          obtain ⟨s, hsv⟩ := pyEq_isStr hw2 (hs w hw1)
          unfold litRead at hsv
          split at hsv
          · rename_i n
            exact ⟨(.str n, []), by simp only [fromDict, primBranches, bind, Except.bind, pure, Except.pure]; rfl, .refl nofun, trivial⟩
          · subst hsv
            exact ⟨(.str s, []), by simp only [fromDict], .refl nofun, trivial⟩
        · rcases mat_prim_inv hB with ⟨rfl, h'⟩ | ⟨rfl, h'⟩ | ⟨rfl, h'⟩ | ⟨rfl, h'⟩ <;> try exact absurd h' (by decide)
          have hx' : litRead x = x := by
            cases x <;> try rfl
            rename_i n kvs
            cases kvs <;> try rfl
            have := hs w hw1
            cases w <;> simp [Val.isInt] at this <;> simp [pyEq, litRead] at hw2
          rw [hx'] at hw2 ⊢
          obtain ⟨r', h1, h2, hev⟩ := load_eq_int c ig path hw2 (hs w hw1)
          refine ⟨r', h1, .same ?_ ?_, by rw [hev]; trivial⟩
          · rintro n kvs rfl
            have := hs w hw1
            cases w <;> simp [Val.isInt] at this <;> simp [pyEq, Val.num?] at hw2
          have h3 : ∀ u, schemaVal u = u ∨ ∃ a b w, u = .enm a b w := by
            intro u; cases u <;> simp [schemaVal]
          rcases h3 x with h4 | ⟨a, b, w', rfl⟩
          · rcases h3 r'.1 with h5 | ⟨a, b, w', h5⟩
            · rw [h4, h5]; exact h2
            · rw [h5] at h2
              cases x <;> simp [pyEq, Val.num?] at h2
              simp [schemaVal] at h4
              have := hs w hw1
              cases w <;> simp [Val.isInt] at this <;> simp [pyEq] at hw2
          · have := hs w hw1
            cases w <;> simp [Val.isInt] at this <;> simp [pyEq] at hw2
    | list u =>
      cases hf <;> try (simp [isSubtype] at hs; done)
      rename_i t hf
      obtain ⟨a, rfl, ha⟩ := mat_list_inv hA
      obtain ⟨b, rfl, hb⟩ := mat_list_inv hB
      have hs' : isSubtype t u = true := by
        simp only [isSubtype, Bool.or_eq_true] at hs
        rcases hs with hs | hs
        · exact styEq_sub hf u (by simpa only [styEq] using hs)
        · exact hs
      simp only [LitUsable] at hl
      simp only [STy.list.sizeOf_spec] at hN
      cases x <;> simp only [fromDict] at h <;> try (cases h; done)
      rename_i xs
      simp only [bind, Except.bind, pure, Except.pure] at h
      cases h1 : mapIdx (fun i x => fromDict c a false (path ++ "[" ++ i.repr ++ "]") x) 0 xs with
      | error e => rw [h1] at h; exact (nomatch h)
      | ok q =>
        have h2 := mapIdx_mono (g := fun i x => fromDict c b false (path ++ "[" ++ i.repr ++ "]") x) xs 0 q
          (fun j y r hy hr => ih t u a b false _ y r (by omega) ha hb hf hl (fun i hi => hx i (.list hy hi)) hs' hr) h1
        obtain ⟨q', hq, hk⟩ := h2
        rw [h1] at h
        cases h
        exact ⟨(.list q'.1, q'.2), by simp only [fromDict, hq, bind, Except.bind, pure, Except.pure], .list hk.1.1 hk.1.2.1 hk.1.2.2, hk.2⟩
    | tuple us =>
      cases hf <;> try (simp [isSubtype] at hs; done)
      rename_i ts hf
      obtain ⟨as, rfl, ha⟩ := mat_tuple_inv hA
      obtain ⟨bs, rfl, hb⟩ := mat_tuple_inv hB
      have hs' : subZip ts us = true ∧ ts.length = us.length := by
        simp only [isSubtype, Bool.or_eq_true, Bool.and_eq_true, beq_iff_eq] at hs
        rcases hs with hs | hs
        · exact styEqL_zip hf us (by simpa only [styEq] using hs)
        · exact hs
      simp only [LitUsable] at hl
      simp only [STy.tuple.sizeOf_spec] at hN
      cases x <;> simp only [fromDict] at h <;> try (cases h; done)
      · rename_i xs
        simp only [bind, Except.bind, pure, Except.pure] at h
        cases h1 : mapIdx (fun i x => fdNth c as i (path ++ "[" ++ i.repr ++ "]") x) 0 xs with
        | error e => rw [h1] at h; exact (nomatch h)
        | ok q =>
          obtain ⟨q', hq, hk⟩ := mapIdx_mono (g := fun i x => fdNth c bs i (path ++ "[" ++ i.repr ++ "]") x) xs 0 q
            (fun j y r hy hr => nth_sound c N ih _ y ts us as bs j r (by omega) ha hb hf hl (fun i hi => hx i (.tup hy hi)) hs'.1 hs'.2 hr) h1
          rw [h1] at h
          cases h
          exact ⟨(.tup q'.1, q'.2), by simp only [fromDict, hq, bind, Except.bind, pure, Except.pure], .tup hk.1.1 hk.1.2.1 hk.1.2.2, hk.2⟩
      · rename_i n kvs
        simp only [bind, Except.bind, pure, Except.pure] at h
        cases h1 : mapIdx (fun i x => fdNth c as i (path ++ "[" ++ i.repr ++ "]") x) 0 (kvs.map Prod.snd) with
        | error e => rw [h1] at h; exact (nomatch h)
        | ok q =>
          obtain ⟨q', hq, hk⟩ := mapIdx_mono (g := fun i x => fdNth c bs i (path ++ "[" ++ i.repr ++ "]") x) (kvs.map Prod.snd) 0 q
            (fun j y r hy hr => by
              obtain ⟨⟨k, y'⟩, hk, rfl⟩ := List.mem_map.1 hy
              exact nth_sound c N ih _ y' ts us as bs j r (by omega) ha hb hf hl (fun i hi => hx i (.ntup hk hi)) hs'.1 hs'.2 hr) h1
          rw [h1] at h
          cases h
          exact ⟨(.tup q'.1, q'.2), by simp only [fromDict, hq, bind, Except.bind, pure, Except.pure], .tup hk.1.1 hk.1.2.1 hk.1.2.2, hk.2⟩
    | dict k' u =>
      cases hf <;> try (simp [isSubtype] at hs; done)
      rename_i k t hf
      obtain ⟨ka, a, rfl, ha⟩ := mat_dict_inv hA
      obtain ⟨kb, b, rfl, hb⟩ := mat_dict_inv hB
      have hs' : isSubtype t u = true := by
        simp only [isSubtype, Bool.or_eq_true, Bool.and_eq_true] at hs
        rcases hs with hs | hs
        · simp only [styEq, Bool.and_eq_true] at hs
          exact styEq_sub hf u hs.2
        · exact hs.2
      simp only [LitUsable] at hl
      simp only [STy.dict.sizeOf_spec] at hN
      cases x <;> simp only [fromDict] at h <;> try (cases h; done)
      rename_i xs
      simp only [bind, Except.bind, pure, Except.pure] at h
      cases h1 : mapItems (fun k x => fromDict c a false (path ++ "." ++ k) x) xs with
      | error e => rw [h1] at h; exact (nomatch h)
      | ok q =>
        obtain ⟨q', hq, a1, a2, hk⟩ := mapItems_mono (g := fun k x => fromDict c b false (path ++ "." ++ k) x) xs q
          (fun j y r hy hr => ih t u a b false _ y r (by omega) ha hb hf hl (fun i hi => hx i (.dict hy hi)) hs' hr) h1
        rw [h1] at h
        cases h
        exact ⟨(.dict q'.1, q'.2), by simp only [fromDict, hq, bind, Except.bind, pure, Except.pure], .dict a1 a2 hk.1.2.2, hk.2⟩
    | enum n' vs' =>
      cases hf <;> try (simp [isSubtype] at hs; done)
      rename_i n vs hsc
      have := mat_enum_inv hA
      subst this
      have := mat_enum_inv hB
      subst this
      simp only [isSubtype, Bool.and_eq_true, beq_iff_eq, List.all_eq_true] at hs
      obtain ⟨rfl, hs⟩ := hs
      have key : ∀ v r, enumByValue n' v vs = .ok r → ∃ r', enumByValue n' v vs' = .ok r' ∧ Kept x r r' := by
        intro v r hv
        obtain ⟨m, w, h1, h2, rfl⟩ := enumByValue_inv hv
        have h3 := hs (m, w) h1
        split at h3
        · rename_i w' hw
          have h4 : pyEq w w' = true := by
            have hsw := hsc m w h1
            cases hf' : w'.num? with
            | some f =>
              refine pyEq_symm_scalar ?_ h3
              cases w' <;> simp [Val.num?] at hf' <;> rfl
            | none =>
              cases w' <;> simp [Val.num?] at hf' <;> cases w <;> simp [Val.scalar] at hsw <;> simp [pyEq] at h3 ⊢
              · exact h3.symm
              · exact ⟨h3.1.symm, h3.2.symm⟩
          obtain ⟨r', hr⟩ := enumByValue_of (c := n') (dget_mem hw) (pyEq_trans v w w' h2 h4)
          obtain ⟨m', w'', h5, h6, rfl⟩ := enumByValue_inv hr
          refine ⟨_, hr, .same nofun ?_⟩
          exact pyEq_trans w v w'' (pyEq_symm_right (hsc m w h1) h2) h6
        · exact (nomatch h3)
      have key2 : ∀ v, (do let r ← enumByValue n' v vs; (Except.ok (r, []) : Res)) = .ok r →
          ∃ r', (do let r ← enumByValue n' v vs'; (Except.ok (r, []) : Res)) = .ok r' ∧ KeptR x r r' := by
        intro v hv
        simp only [bind, Except.bind] at hv ⊢
        cases h1 : enumByValue n' v vs with
        | error e => rw [h1] at hv; exact (nomatch hv)
        | ok q =>
          obtain ⟨q', hq, hk⟩ := key v q h1
          rw [hq]
          rw [h1] at hv
          cases hv
          exact ⟨_, rfl, hk, trivial⟩
      cases x <;> simp only [fromDict, pure, Except.pure] at h ⊢ <;> try exact key2 _ h
      split at h
      · refine ⟨r, (if_pos (by assumption)).trans h, keptR_refl _ ?_⟩
        cases h
        exact nofun
      · rename_i hne
        simp only [if_neg hne]
        exact key2 _ h
    | literal ws =>
      cases hf <;> try (simp [isSubtype] at hs; done)
      rename_i vs
      have := mat_literal_inv hA
      subst this
      have := mat_literal_inv hB
      subst this
      simp only [isSubtype] at hs
      simp only [LitUsable] at hl
      obtain ⟨-, hm, rfl⟩ := load_literal h
      exact ⟨(litRead x, []), load_literal_of (List.all_eq_true.2 hl) (pyMem_trans hm hs), kept_litRead x, trivial⟩
    | union us => cases hf <;> simp [isSubtype] at hs
    | struct n fs v => cases hf <;> simp [isSubtype] at hs
    | nothing => cases hf <;> simp [isSubtype] at hs

/-- C30: if A (a type without Optional, dataclass, union) is reported to be a subtype of B, then every document that loads as A
loads as B, with the same content up to conversion between numbers, and the same schedules at the same places; ints in it must
not be too large for a float. -/
theorem C30_partial (c : DCfg) (ta tb : PyTy) (A B : STy) (hA : materialize ta = .ok A) (hB : materialize tb = .ok B)
    (hf : FlatS A) (hl : LitUsable c.ext B) (hs : isSubtype A B = true) (ig : Bool) (path : String) (x : Val) (hx : IntsFit x)
    (r : Val × List Ev) (h : fromDict c ta ig path x = .ok r) : ∃ r', fromDict c tb ig path x = .ok r' ∧ Kept x r.1 r'.1 ∧ EvsLike r.2 r'.2 :=
  sub_sound c _ A B ta tb ig path x r (Nat.lt_succ_self _) hA hB hf hl hx hs h

/-- C30: every type (without nan, and with distinct dict keys) is a subtype of itself -/
theorem C30_refl (A : STy) (h : SelfT A) : isSubtype A A = true := isSubtype_refl h

/-- C30 is false for Optionals, whose arguments are compared the wrong way round: `Optional[float]` is reported to be a subtype of
`Optional[int]`, but 1.5 only loads as the former -/
theorem C30_option_false (c : DCfg) (ig : Bool) (path : String) :
    materialize (.optional .float) = .ok (.option (.prim "float")) ∧ materialize (.optional .int) = .ok (.option (.prim "int")) ∧
    isSubtype (.option (.prim "float")) (.option (.prim "int")) = true ∧
    fromDict c (.optional .float) ig path (.flt (.fin (3 / 2))) = .ok (.flt (.fin (3 / 2)), []) ∧
    fromDict c (.optional .int) ig path (.flt (.fin (3 / 2))) = .error .deserType := by
  refine ⟨rfl, rfl, by decide +kernel, by simp [fromDict, PyTy.optional, isOptionalArgs, PyTy.isNoneT, Val.isNone, fdHead, schedHook], ?_⟩
  have h1 : (Flt.fin (3 / 2)).toInt = .ok 1 := congrArg Except.ok (by decide +kernel : (3 / 2 : Rat).num.tdiv (3 / 2 : Rat).den = 1)
  have h2 : (Flt.fin 1).eqv (.fin (3 / 2)) = false := by decide +kernel
  simp [fromDict, PyTy.optional, isOptionalArgs, PyTy.isNoneT, Val.isNone, fdHead, schedHook, primBranches, h1, h2, bind, Except.bind,
    pure, Except.pure, throw, throwThe, MonadExceptOf.throw]

/-- ... and `Optional[int]` is not reported to be a subtype of `Optional[float]` -/
theorem C30_option_incomplete : isSubtype (.option (.prim "int")) (.option (.prim "float")) = false := by decide +kernel

/-- C30 is false for dataclasses, whose fields are compared the wrong way round: a class with fewer fields is reported to be a
subtype of a class with more, but its documents lack the additional field -/
theorem C30_struct_false (c : DCfg) (ig : Bool) (path : String) :
    materialize (.data "A" [] .none) = .ok (.struct "A" [] .none) ∧
    materialize (.data "B" [.mk "x" .int .none] .none) = .ok (.struct "B" [("x", .mk "x" (.prim "int") .none false .none)] .none) ∧
    isSubtype (.struct "A" [] .none) (.struct "B" [("x", .mk "x" (.prim "int") .none false .none)] .none) = true ∧
    fromDict c (.data "A" [] .none) ig path (.dict []) = .ok (.inst "A" [], []) ∧
    fromDict c (.data "B" [.mk "x" .int .none] .none) ig path (.dict []) = .error .typeError :=
  ⟨rfl, rfl, by decide +kernel, rfl, rfl⟩

/-- ... and if the two have the same fields, each field may lose values: `{x: float}` is reported to be a subtype of `{x: int}` -/
theorem C30_struct_field_false (c : DCfg) (ig : Bool) (path : String) :
    materialize (.data "A" [.mk "x" .float .none] .none) = .ok (.struct "A" [("x", .mk "x" (.prim "float") .none false .none)] .none) ∧
    materialize (.data "A" [.mk "x" .int .none] .none) = .ok (.struct "A" [("x", .mk "x" (.prim "int") .none false .none)] .none) ∧
    isSubtype (.struct "A" [("x", .mk "x" (.prim "float") .none false .none)] .none)
      (.struct "A" [("x", .mk "x" (.prim "int") .none false .none)] .none) = true ∧
    (∃ r, fromDict c (.data "A" [.mk "x" .float .none] .none) ig path (.dict [("x", .flt (.inf false))]) = .ok r) ∧
    fromDict c (.data "A" [.mk "x" .int .none] .none) ig path (.dict [("x", .flt (.inf false))]) = .error .overflow :=
  ⟨rfl, rfl, by decide +kernel, ⟨_, rfl⟩, rfl⟩

/-- C30 is false for ints that are too large for a float: `int` is a subtype of `float` -/
theorem C30_overflow_false (c : DCfg) (ig : Bool) (path : String) : ∃ n : Int,
    isSubtype (.prim "int") (.prim "float") = true ∧ fromDict c .int ig path (.int n) = .ok (.int n, []) ∧
    fromDict c .float ig path (.int n) = .error .overflow := by
  have h : ∃ n : Int, 2 ^ 1024 ≤ roundNat n.natAbs := ⟨((2 ^ 1024 : Nat) : Int), by decide +kernel⟩
  obtain ⟨n, hn⟩ := h
  have h : floatOfInt n = .error .overflow := by unfold floatOfInt; exact if_pos hn
  refine ⟨n, by decide +kernel, rfl, ?_⟩
  simp [fromDict, schedHook, primBranches, toFloat, h, bind, Except.bind]

/-- C30 is false if the larger Literal has a value that cannot be evaluated as a type argument: nothing loads as that type (C08) -/
theorem C30_literal_false (c : DCfg) (ig : Bool) (path : String) (v w : Val) (hl : LitOK v) (hv : c.ext.typeArgOk v = true)
    (hw : c.ext.typeArgOk w = false) :
    isSubtype (.literal [v]) (.literal [v, w]) = true ∧ fromDict c (.literal [v]) ig path v = .ok (v, []) ∧
    fromDict c (.literal [v, w]) ig path v = .error .syntaxError := by
  refine ⟨?_, C08_listed_partial c ig path [v] (by simpa using hv) v (by simp) hl, C08_false c ig path [v, w] w (by simp) hw v⟩
  simp [isSubtype, pyMem, pyEq_refl_lit v hl]

/-! ## non-vacuity -/

/-- `Dict[str, List[int]]` is a subtype of `Optional[Dict[str, List[Optional[float]]]]` -/
example : isSubtype (.dict (.prim "str") (.list (.prim "int"))) (.option (.dict (.prim "str") (.list (.option (.prim "float"))))) = true := by
  decide +kernel
example : FlatS (.dict (.prim "str") (.list (.prim "int"))) := .dict (.list .prim)
example : IntsFit (.dict [("a", .list [.int 1, .int 2])]) := by
  intro i hi
  cases hi with
  | dict h1 h2 =>
    simp only [List.mem_singleton, Prod.mk.injEq] at h1
    obtain ⟨rfl, rfl⟩ := h1
    cases h2 with
    | list h3 h4 =>
      simp only [List.mem_cons, List.not_mem_nil, or_false] at h3
      rcases h3 with rfl | rfl <;> cases h4
      · exact ⟨_, floatOfInt_small (by decide)⟩
      · exact ⟨_, floatOfInt_small (by decide)⟩
example : (fromDict (Ex.world.dcfg false false) (.dict .str (.list .int)) false "" (.dict [("a", .list [.int 1, .int 2])])).isOk = true := rfl
/-- an enum that gained a member, a Literal that gained a value, Literal strings as str -/
example : isSubtype (.enum "E" [("a", .str "a")]) (.enum "E" [("b", .str "b"), ("a", .str "a")]) = true := by decide +kernel
example : isSubtype (.literal [.str "a"]) (.literal [.str "b", .str "a"]) = true := by decide +kernel
example : isSubtype (.literal [.str "a"]) (.option (.prim "str")) = true := by decide +kernel
example : SelfT (.struct "C" [("x", .mk "x" (.option (.literal [.int 1, .str "a"])) (.int 1) true .none),
    ("y", .mk "y" (.tuple [.prim "int", .union [.prim "int", .prim "str"]]) .none false .none)] (some 1)) := by
  refine .struct (by decide) ?_ ?_
  · intro k f hf
    simp only [List.mem_cons, Prod.mk.injEq, List.not_mem_nil, or_false] at hf
    rcases hf with ⟨rfl, rfl⟩ | ⟨rfl, rfl⟩
    · exact .option (.literal (by simp [pyEq, Val.num?, Flt.eqv]))
    · refine .tuple ?_
      intro t ht
      simp only [List.mem_cons, List.not_mem_nil, or_false] at ht
      rcases ht with rfl | rfl
      · exact .prim
      · refine .union ?_
        intro t ht
        simp only [List.mem_cons, List.not_mem_nil, or_false] at ht
        rcases ht with rfl | rfl <;> exact .prim
  · intro k f hf
    simp only [List.mem_cons, Prod.mk.injEq, List.not_mem_nil, or_false] at hf
    rcases hf with ⟨rfl, rfl⟩ | ⟨rfl, rfl⟩ <;> simp [SFld.dflt, pyEq, Val.num?, Flt.eqv]

end HS
