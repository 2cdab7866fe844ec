import Verif.Proofs.Again
import Verif.Proofs.Events
import Verif.Props.Registered
/-!
# C73: giving the same overrides again
-/
namespace HS

/-- The override `o` is in effect in the config `v` with the schedules `reg`: it names a field, and the field holds what a load
makes of the value that `o` denotes; or that value is the text of the schedule of the field. -/
inductive InEffect (w : World) (fs : List Fld) (reg : RegD) (v : Val) (o : String) : Prop
  | plain {key : String} {p : List String} {s : String} {t : PyTy} {x y : Val} : IsOv o key p s → FieldAt fs p t → OvVal w.ron t s x →
      Plain x → x.isWeak = false → fromDict (w.dcfg true true) t false key x = .ok (y, []) → valAt v p = some y →
      (∀ q z, Reg.at (some (.node reg)) q = some z → Unrelated q p) → InEffect w fs reg v o
  | sched {key : String} {p : List String} {s : String} {t : PyTy} {txt : String} {i : Bool} {y : Val} : IsOv o key p s → FieldAt fs p t →
      OvVal w.ron t s (.str txt) → Reg.at (some (.node reg)) p = some (txt, i) → valAt v p = some y → InEffect w fs reg v o

/-- no two of the overrides are for a field and a part of it (several may be for the same field) -/
def Apart (os : List String) : Prop :=
  os.Pairwise (fun o o' => ∀ key p s key' p' s', IsOv o key p s → IsOv o' key' p' s' → Unrelated p p' ∨ p = p')

theorem isOv_unique {o key key' s s' : String} {p p' : List String} (h : IsOv o key p s) (h' : IsOv o key' p' s') :
    key = key' ∧ p = p' ∧ s = s' := by
  have h1 := split_of_isOv h
  rw [split_of_isOv h'] at h1
  simp only [Option.some.injEq, Prod.mk.injEq] at h1
  obtain ⟨rfl, rfl⟩ := h1
  exact ⟨rfl, by rw [h.2.2, h'.2.2], rfl⟩

/-- `o` is given, and no override after it is for the same field -/
def LastFor (os : List String) (o : String) : Prop :=
  ∃ pre post, os = pre ++ o :: post ∧ ∀ o' ∈ post, ∀ key p s key' s', IsOv o key p s → ¬ IsOv o' key' p s'

/-- the override names a field of the class and its text denotes a value -/
def Denotes (ron : RonParse) (fs : List Fld) (o : String) : Prop := ∃ p, GoodOv ron fs o p

theorem LastFor.cons {os : List String} {o o0 : String} (h : LastFor os o) : LastFor (o0 :: os) o := by
  obtain ⟨pre, post, rfl, h⟩ := h
  exact ⟨o0 :: pre, post, rfl, h⟩

theorem LastFor.mem {os : List String} {o : String} (h : LastFor os o) : o ∈ os := by
  obtain ⟨pre, post, rfl, _⟩ := h
  simp

/-- some override is the last one for the field -/
theorem exists_last : ∀ (os : List String) (o key : String) (p : List String) (s : String), o ∈ os → IsOv o key p s →
    ∃ o' key' s', LastFor os o' ∧ IsOv o' key' p s' := by
  intro os
  induction os with
  | nil => intro o key p s h; exact (nomatch h)
  | cons o0 os ih =>
    intro o key p s h hov
    by_cases hl : ∃ o' ∈ os, ∃ key' s', IsOv o' key' p s'
    · obtain ⟨o', h1, key', s', h2⟩ := hl
      obtain ⟨o2, k2, s2, g1, g2⟩ := ih o' key' p s' h1 h2
      exact ⟨o2, k2, s2, g1.cons, g2⟩
    · rcases List.mem_cons.1 h with rfl | h
      · refine ⟨o, key, s, ⟨[], os, rfl, ?_⟩, hov⟩
        intro o' ho' key1 p1 s1 key' s' h1 h2
        rw [(isOv_unique h1 hov).2.1] at h2
        exact hl ⟨o', ho', key', s', h2⟩
      · exact absurd ⟨o, h, key, s, hov⟩ hl

theorem under_ids {e : Ext} {env : String → ClsInfo} {t tp : PyTy} {p : List String} (h : Under t p tp) (hs : SoundTy e env t) :
    ∀ k ∈ p, IdOK k := by
  induction h with
  | nil => simp
  | @cons t n fs ver k f ks tp hst hf _ ih =>
    have hs1 := hs.strips hst
    have hmem := List.mem_of_find?_eq_some hf
    have hname : f.name = k := by simpa using List.find?_some hf
    intro j hj
    rcases List.mem_cons.1 hj with rfl | hj
    · rw [← hname]; exact (hs1.classOK.2.1 f hmem).2
    · exact ih (hs1.field hmem) j hj

theorem under_names {e : Ext} {env : String → ClsInfo} {t tp : PyTy} {p : List String} (h : Under t p tp) (hs : SoundTy e env t) :
    ∀ k ∈ p, NameOK k := by
  induction h with
  | nil => simp
  | @cons t n fs ver k f ks tp hst hf _ ih =>
    have hs1 := hs.strips hst
    have hmem := List.mem_of_find?_eq_some hf
    have hname : f.name = k := by simpa using List.find?_some hf
    intro j hj
    rcases List.mem_cons.1 hj with rfl | hj
    · rw [← hname]; exact (hs1.classOK.2.1 f hmem).1
    · exact ih (hs1.field hmem) j hj

theorem plain_at : ∀ {p : List String} {D x : Val}, Plain D → D.at? p = some x → Plain x := by
  intro p
  induction p with
  | nil => intro D x hp hx; cases (show D = x by simpa using hx); exact hp
  | cons k ks ih =>
    intro D x hp hx
    cases h : D.isDict with
    | false => simp [at?_cons_of_not_dict D h] at hx
    | true =>
      obtain ⟨d, rfl⟩ := (isDict_iff D).1 h
      simp only [Plain] at hp
      rw [at?_dict_cons, Option.bind_eq_some_iff] at hx
      obtain ⟨x', h1, h2⟩ := hx
      exact ih ((plainD_iff _).1 hp.2 _ (dget_mem h1)) h2

theorem segsOf_pathTo : ∀ (p : List String) (path : String), (∀ k ∈ p, IdOK k) → segsOf (pathTo path p) = segsOf path ++ p := by
  intro p
  induction p with
  | nil => intro path _; simp [pathTo]
  | cons k ks ih =>
    intro path h
    rw [pathTo, ih _ (fun j hj => h j (by simp [hj])), ← joinPath_eq_fieldPath, segsOf_join (h k (by simp))]
    simp

theorem pathTo_key {e : Ext} {env : String → ClsInfo} {n : String} {fs : List Fld} {ver : Option VerInfo}
    (hs : SoundTy e env (.data n fs ver)) {o key s : String} {p : List String} {t : PyTy} (hov : IsOv o key p s) (hf : FieldAt fs p t) :
    pathTo "" p = key := by
  have hids := under_ids (fieldAt_under hf n ver) hs
  apply segsOf_inj
  rw [segsOf_pathTo p "" hids]
  have hkey : key ≠ "" := by
    rintro rfl
    have : p = [""] := by rw [hov.2.2]; exact pySplit_id (by simp)
    exact (hids "" (by rw [this]; simp)).1 rfl
  simp [segsOf, hkey, hov.2.2]

mutual
theorem fits_sched_val (e : Ext) : ∀ (t : PyTy) (txt : String) (i : Bool) (a : String) (v : Val), Fits e false t (some (.sched txt i a)) v →
    ∀ n x, v ≠ .ser n x
  | .int, txt, i, a, v, h => by
    simp only [Fits] at h
    have := h.1.1
    simp only [HasType] at this
    rintro n x rfl
    rcases this with ⟨_, h⟩ | ⟨_, h⟩ <;> exact (nomatch h)
  | .float, txt, i, a, v, h => by
    simp only [Fits] at h
    have := h.1.1
    simp only [HasType] at this
    rintro n x rfl
    obtain ⟨_, h⟩ := this
    exact (nomatch h)
  | .data n fs ver, txt, i, a, v, h => by simp [Fits, Reg.isSched] at h
  | .union as, txt, i, a, v, h => by
    simp only [Fits] at h
    rcases h with ⟨h, _⟩ | ⟨_, h, _⟩ | ⟨_, h⟩
    · exact (nomatch h)
    · exact (nomatch h)
    · exact fits_sched_valH e as txt i a v h
  | .blob _, txt, i, a, v, h => by simp [Fits] at h
  | .str, txt, i, a, v, h => by simp [Fits] at h
  | .bool, txt, i, a, v, h => by simp [Fits] at h
  | .noneT, txt, i, a, v, h => by simp [Fits] at h
  | .list _, txt, i, a, v, h => by simp [Fits] at h
  | .tuple _, txt, i, a, v, h => by simp [Fits] at h
  | .dict _ _, txt, i, a, v, h => by simp [Fits] at h
  | .enum _ _, txt, i, a, v, h => by simp [Fits] at h
  | .literal _, txt, i, a, v, h => by simp [Fits] at h
theorem fits_sched_valH (e : Ext) : ∀ (ts : List PyTy) (txt : String) (i : Bool) (a : String) (v : Val),
    FitsHead e false ts (some (.sched txt i a)) v → ∀ n x, v ≠ .ser n x
  | [], txt, i, a, v, h => by simp [FitsHead] at h
  | t :: ts, txt, i, a, v, h => by
    simp only [FitsHead] at h
    exact fits_sched_val e t txt i a v h
end

theorem asdict_sched {c : SerCfg} {path txt a : String} {i : Bool} (h : At c path (some (.sched txt i a))) {v : Val}
    (hv : ∀ n x, v ≠ .ser n x) : asdict c path v = .ok (.str txt, []) := by
  cases v <;> first
    | exact absurd rfl (hv _ _)
    | (simp only [asdict]; rw [serHooks_sched h _ hv]; rfl)

/-- an override in effect, in the dump of the config -/
theorem effect_way {w : World} {n : String} {fs : List Fld} {ver : Option VerInfo} {reg : RegD} {v : Val}
    (hs : SoundTy w.ext w.env (.data n fs ver)) (hfit : Fits w.ext false (.data n fs ver) (some (.node reg)) v)
    (hwf : ∀ k r', dget reg k = some r' → r'.WF k) {doc : Val} {bs : List (String × Val)}
    (hd : typedDump w.env (some reg) false v = .ok (doc, bs)) {o : String} (hE : InEffect w fs reg v o) :
    ∃ key p s t x x0, IsOv o key p s ∧ FieldAt fs p t ∧ OvVal w.ron t s x ∧ x.isWeak = false ∧
      WayTo (.data n fs ver) p t doc x0 ∧ fromDict (w.dcfg true true) t false key x = fromDict (w.dcfg true true) t false key x0 ∧
      ((∃ y, fromDict (w.dcfg true true) t false key x = .ok (y, []) ∧ Plain x ∧
          ∀ q z, Reg.at (some (.node reg)) q = some z → Unrelated q p) ∨
       ∃ txt i, x = .str txt ∧ Reg.at (some (.node reg)) p = some (txt, i)) := by
  have hroot : dget reg "" = none := by
    have h := hfit
    simp only [Fits] at h
    refine h.2.2.1 "" ?_
    intro hm
    obtain ⟨f, hf, he⟩ := List.mem_map.1 hm
    exact (h.1.2.1 f hf).2.1 he
  simp only [typedDump, bind, Except.bind, pure, Except.pure] at hd
  cases hasd : asdict (dumpCfg w.env (some reg) false) "" v with
  | error e => rw [hasd] at hd; exact (nomatch hd)
  | ok q =>
    rw [hasd] at hd
    obtain ⟨wv, bs0⟩ := q
    simp only [Except.ok.injEq, Prod.mk.injEq] at hd
    obtain ⟨rfl, _⟩ := hd
    cases hE with
    | @plain key p s t x y hov hf hval hpl hwk hload hy hun =>
      obtain ⟨wp, bp, rp, g1, g2, g3, g4, g5, g6, g7⟩ := way_dump (dumpCfgS_ok w.env (some reg)) (fieldAt_under hf n ver) (some (.node reg)) "" v y
        wv bs0 hs hfit (at_root w.env hroot) hasd hy hwf
      have hne : p ≠ [] := by rw [hov.2.2]; exact pySplit_ne_nil _ _
      have hrp : rp = none := by
        obtain ⟨k, hk⟩ := g7 (.inl hne)
        cases rp with
        | none => rfl
        | some r' =>
          obtain ⟨segs, z, hz⟩ := Reg.WF.nonempty r' k (hk r' rfl)
          rw [g5] at hz
          exact absurd (List.prefix_append _ _) (hun _ _ hz).2
      subst hrp
      have hst := hs.under (fieldAt_under hf n ver)
      have hsto := load_storable hst.decl hst.firm hpl (.inl hwk) hload
      obtain ⟨w', hw'⟩ := rts_plain (dc := w.dcfg true true) (dumpCfgS_ok w.env (some reg)) hst.ty hst.env g4 hsto
      have := hw'.dump
      rw [g3] at this
      cases this
      rw [pathTo_key hs hov hf] at hw'
      exact ⟨key, p, s, t, x, _, hov, hf, hval, hwk, g1 hw'.weak, by rw [hload, hw'.load false], .inl ⟨y, hload, hpl, hun⟩⟩
    | @sched key p s t txt i y hov hf hval hat hy =>
      obtain ⟨wp, bp, rp, g1, g2, g3, g4, g5, g6, g7⟩ := way_dump (dumpCfgS_ok w.env (some reg)) (fieldAt_under hf n ver) (some (.node reg)) "" v y
        wv bs0 hs hfit (at_root w.env hroot) hasd hy hwf
      have h0 := g5 []
      rw [List.append_nil, hat] at h0
      have hrp : ∃ a, rp = some (.sched txt i a) := by
        match rp, h0 with
        | some (.sched t' i' a'), h0 =>
          simp [Reg.at] at h0
          obtain ⟨rfl, rfl⟩ := h0
          exact ⟨a', rfl⟩
        | some (.node _), h0 => simp [Reg.at] at h0
        | none, h0 => simp [Reg.at] at h0
      obtain ⟨a, rfl⟩ := hrp
      rw [asdict_sched g4 (fits_sched_val _ _ _ _ _ _ g6)] at g3
      cases g3
      exact ⟨key, p, s, t, .str txt, .str txt, hov, hf, hval, rfl, g1 rfl, rfl, .inr ⟨txt, i, rfl, hat⟩⟩

/-- `D` with `x` at the path `p`, for a path that is in `D` -/
def putAt (x : Val) : Val → List String → Val
  | _, [] => x
  | .dict d, k :: ks => .dict (dset d k (putAt x ((dget d k).getD .none) ks))
  | v, _ => v

theorem dset_twice {α : Type} (d : List (String × α)) (k : String) (a b : α) : dset (dset d k a) k b = dset d k b := by
  induction d with
  | nil => simp [dset]
  | cons e d ih =>
    obtain ⟨i, x⟩ := e
    by_cases h : i = k
    · subst h; simp [dset]
    · simp [dset, h, ih]

theorem dset_comm {α : Type} : ∀ (d : List (String × α)) {k j : String} (a b : α), k ≠ j → (dget d k).isSome = true →
    (dget d j).isSome = true → dset (dset d k a) j b = dset (dset d j b) k a := by
  intro d
  induction d with
  | nil => intro k j a b _ h; exact (nomatch h)
  | cons e d ih =>
    obtain ⟨i, x⟩ := e
    intro k j a b hne hk hj
    by_cases h1 : i = k
    · subst h1
      simp [dset, hne]
    · by_cases h2 : i = j
      · subst h2
        simp [dset, h1, Ne.symm h1]
      · simp only [dget, h1, h2, if_false] at hk hj
        simp [dset, h1, h2, ih a b hne hk hj]

theorem putAt_set (x : Val) : ∀ (p : List String) (D x0 : Val), p ≠ [] → D.at? p = some x0 → setPath x D p = .ok (putAt x D p) := by
  intro p
  induction p with
  | nil => intro D x0 h; exact absurd rfl h
  | cons k ks ih =>
    intro D x0 _ hx
    cases h : D.isDict with
    | false => simp [at?_cons_of_not_dict D h] at hx
    | true =>
      obtain ⟨d, rfl⟩ := (isDict_iff D).1 h
      rw [at?_dict_cons, Option.bind_eq_some_iff] at hx
      obtain ⟨c, h1, h2⟩ := hx
      cases ks with
      | nil => simp [setPath, pySetItem, putAt]
      | cons k' ks =>
        have hn : c.isNone = false := by
          cases c <;> first | rfl | simp [at?_cons_of_not_dict _ (show Val.isDict .none = false from rfl)] at h2
        have := ih c x0 (by simp) h2
        simp only [setPath, pyIn, pyGetItem, dhas, h1, Option.isSome_some, if_true, hn, bind, Except.bind, pySetItem, putAt,
          Option.getD_some, Bool.false_eq_true, if_false, this]

theorem putAt_at (x : Val) : ∀ (p : List String) (D x0 : Val), D.at? p = some x0 → (putAt x D p).at? p = some x := by
  intro p
  induction p with
  | nil => intro D x0 _; rfl
  | cons k ks ih =>
    intro D x0 hx
    cases h : D.isDict with
    | false => simp [at?_cons_of_not_dict D h] at hx
    | true =>
      obtain ⟨d, rfl⟩ := (isDict_iff D).1 h
      rw [at?_dict_cons, Option.bind_eq_some_iff] at hx
      obtain ⟨c, h1, h2⟩ := hx
      simp only [putAt, at?_dict_cons, dget_dset_self, Option.bind_some, h1, Option.getD_some]
      exact ih c x0 h2

theorem putAt_again (x y : Val) : ∀ (p : List String) (D x0 : Val), D.at? p = some x0 → putAt y (putAt x D p) p = putAt y D p := by
  intro p
  induction p with
  | nil => intro D x0 _; rfl
  | cons k ks ih =>
    intro D x0 hx
    cases h : D.isDict with
    | false => simp [at?_cons_of_not_dict D h] at hx
    | true =>
      obtain ⟨d, rfl⟩ := (isDict_iff D).1 h
      rw [at?_dict_cons, Option.bind_eq_some_iff] at hx
      obtain ⟨c, h1, h2⟩ := hx
      simp only [putAt, dget_dset_self, h1, Option.getD_some, ih c x0 h2, dset_twice]

theorem unrelated_cons {k : String} {p q : List String} (h : Unrelated (k :: p) (k :: q)) : Unrelated p q :=
  ⟨fun e => h.1 (by simpa using e), fun e => h.2 (by simpa using e)⟩

theorem putAt_comm (x y : Val) : ∀ (p q : List String) (D x0 y0 : Val), Unrelated p q → D.at? p = some x0 → D.at? q = some y0 →
    putAt y (putAt x D p) q = putAt x (putAt y D q) p ∧ (putAt x D p).at? q = some y0 := by
  intro p
  induction p with
  | nil => intro q D x0 y0 h; exact absurd (List.nil_prefix) h.1
  | cons k ks ih =>
    intro q D x0 y0 hun hx hy
    cases q with
    | nil => exact absurd (List.nil_prefix) hun.2
    | cons j js =>
      cases h : D.isDict with
      | false => simp [at?_cons_of_not_dict D h] at hx
      | true =>
        obtain ⟨d, rfl⟩ := (isDict_iff D).1 h
        rw [at?_dict_cons, Option.bind_eq_some_iff] at hx hy
        obtain ⟨c, h1, h2⟩ := hx
        obtain ⟨c', h3, h4⟩ := hy
        by_cases e : k = j
        · subst e
          rw [h1] at h3
          cases h3
          obtain ⟨g1, g2⟩ := ih js c x0 y0 (unrelated_cons hun) h2 h4
          simp only [putAt, dget_dset_self, h1, Option.getD_some, dset_twice, g1, at?_dict_cons, Option.bind_some, g2, and_self]
        · simp only [putAt, dget_dset_ne _ _ e, dget_dset_ne _ _ (Ne.symm e), h1, h3, Option.getD_some, at?_dict_cons, Option.bind_some, h4,
            and_true]
          rw [dset_comm d _ _ e (by simp [h1]) (by simp [h3])]

/-- the overrides, one after the other, where each of them finds its field in the document -/
theorem overridesLoop_puts {ron : RonParse} {fs : List Fld} {sfs : List (String × SFld)} (hsfs : materializeF fs = .ok sfs) {o : String}
    {key s : String} {p : List String} {t : PyTy} {x : Val} (h1 : IsOv o key p s) (h2 : FieldAt fs p t) (h3 : OvVal ron t s x)
    (os : List String) {D x0 : Val} (hx : D.at? p = some x0) (stale : Option Val) :
    overridesLoop ron sfs (o :: os) D stale [] = overridesLoop ron sfs os (putAt x D p) (some x) [] := by
  obtain ⟨sf, k1, k2⟩ := (findField_iff p hsfs).1 t h2
  have hne : p ≠ [] := by rw [h1.2.2]; exact pySplit_ne_nil _ _
  have := putAt_set x p D x0 hne hx
  rw [h1.2.2] at k1 this
  simp only [overridesLoop, split_of_isOv h1, k1, ovVal_overrideVal stale k2 h3, bind, Except.bind, this, h1.2.2]

/-- a value that a later override replaces does not matter -/
theorem overridesLoop_replaced {ron : RonParse} {fs : List Fld} {sfs : List (String × SFld)} (hsfs : materializeF fs = .ok sfs)
    (p : List String) (x : Val) : ∀ (os : List String) (D x0 : Val) (stale stale' : Option Val), D.at? p = some x0 →
    (∀ o ∈ os, ∃ q y0, GoodOv ron fs o q ∧ D.at? q = some y0 ∧ (Unrelated p q ∨ p = q)) →
    os.Pairwise (fun o o' => ∀ key p s key' p' s', IsOv o key p s → IsOv o' key' p' s' → Unrelated p p' ∨ p = p') →
    (∃ o ∈ os, ∃ key s, IsOv o key p s) →
    overridesLoop ron sfs os (putAt x D p) stale [] = overridesLoop ron sfs os D stale' [] := by
  intro os
  induction os with
  | nil => rintro D x0 _ _ _ _ _ ⟨o, h, _⟩; exact (nomatch h)
  | cons o os ih =>
    intro D x0 stale stale' hx hall hpw hex
    obtain ⟨q, y0, ⟨key, s, t, y, g1, g2, g3⟩, hy, hrel⟩ := hall o (by simp)
    rw [List.pairwise_cons] at hpw
    have hput : ∀ o' ∈ os, ∃ q' y', GoodOv ron fs o' q' ∧ (putAt y D q).at? q' = some y' ∧ (Unrelated p q' ∨ p = q') := by
      intro o' ho'
      obtain ⟨q', y', j1, j2, j3⟩ := hall o' (by simp [ho'])
      have j1' := j1
      obtain ⟨key', s', _, _, i1, _⟩ := j1'
      rcases hpw.1 o' ho' _ _ _ _ _ _ g1 i1 with h | h
      · exact ⟨q', y', j1, (putAt_comm y y q q' D y0 y' h hy j2).2, j3⟩
      · subst h
        exact ⟨q, y, j1, putAt_at y q D y0 hy, j3⟩
    rcases hrel with hrel | hrel
    · obtain ⟨c1, c2⟩ := putAt_comm x y p q D x0 y0 hrel hx hy
      rw [overridesLoop_puts hsfs g1 g2 g3 os c2, overridesLoop_puts hsfs g1 g2 g3 os hy, c1]
      refine ih (putAt y D q) x0 _ _ (putAt_comm y x q p D y0 x0 ⟨hrel.2, hrel.1⟩ hy hx).2 hput hpw.2 ?_
      obtain ⟨o', ho', key', s', h'⟩ := hex
      rcases List.mem_cons.1 ho' with rfl | ho'
      · rw [(isOv_unique h' g1).2.1] at hrel
        exact absurd (List.prefix_refl q) hrel.1
      · exact ⟨o', ho', key', s', h'⟩
    · subst hrel
      rw [overridesLoop_puts hsfs g1 g2 g3 os (putAt_at x p D x0 hx), overridesLoop_puts hsfs g1 g2 g3 os hy, putAt_again x y p D x0 hx]

/-- overrides that change nothing -/
theorem overridesLoop_same {c : DCfg} {ron : RonParse} {n : String} {fs : List Fld} {ver : Option VerInfo} {sfs : List (String × SFld)}
    (hsfs : materializeF fs = .ok sfs) : ∀ (os : List String) (D : Val) (stale : Option Val), Apart os →
    (∀ o ∈ os, Denotes ron fs o) →
    (∀ o, LastFor os o → ∃ key p s t x x0, IsOv o key p s ∧ FieldAt fs p t ∧ OvVal ron t s x ∧ x.isWeak = false ∧
      WayTo (.data n fs ver) p t D x0 ∧ fromDict c t false (pathTo "" p) x = fromDict c t false (pathTo "" p) x0) →
    ∃ D', overridesLoop ron sfs os D stale [] = .ok (D', []) ∧
      ∀ ig, fromDict c (.data n fs ver) ig "" D' = fromDict c (.data n fs ver) ig "" D := by
  intro os
  induction os with
  | nil => intro D stale _ _ _; exact ⟨D, rfl, fun _ => rfl⟩
  | cons o os ih =>
    intro D stale hap hgood h
    have hap' := hap
    rw [Apart, List.pairwise_cons] at hap'
    obtain ⟨p, key, s, t, x, h1, h2, h3⟩ := hgood o (by simp)
    by_cases hl : ∃ o' ∈ os, ∃ key' s', IsOv o' key' p s'
    · have hpres : ∀ o' ∈ o :: os, ∀ key' q s', IsOv o' key' q s' → ∃ y0, D.at? q = some y0 := by
        intro o' ho' key' q s' hov
        obtain ⟨o2, k2, s2, i1, i2⟩ := exists_last _ o' key' q s' ho' hov
        obtain ⟨_, q2, _, _, _, x2, j1, _, _, _, j2, _⟩ := h o2 i1
        rw [(isOv_unique j1 i2).2.1] at j2
        exact ⟨x2, j2.at?⟩
      obtain ⟨x0, hx0⟩ := hpres o (by simp) _ _ _ h1
      obtain ⟨D', r1, r2⟩ := ih D none hap'.2 (fun o' ho' => hgood o' (by simp [ho'])) (fun o' ho' => h o' ho'.cons)
      refine ⟨D', ?_, r2⟩
      rw [overridesLoop_puts hsfs h1 h2 h3 os hx0,
        overridesLoop_replaced hsfs p x os D x0 _ none hx0 ?_ hap'.2 hl, r1]
      intro o' ho'
      obtain ⟨q, hq⟩ := hgood o' (by simp [ho'])
      have hq' := hq
      obtain ⟨key', s', _, _, i1, _⟩ := hq'
      obtain ⟨y0, hy0⟩ := hpres o' (by simp [ho']) _ _ _ i1
      exact ⟨q, y0, hq, hy0, hap'.1 o' ho' _ _ _ _ _ _ h1 i1⟩
    · have hlast : LastFor (o :: os) o := by
        refine ⟨[], os, rfl, ?_⟩
        intro o' ho' key1 p1 s1 key' s' g1 g2
        rw [(isOv_unique g1 h1).2.1] at g2
        exact hl ⟨o', ho', key', s', g2⟩
      have hp0 : ∃ key s, IsOv o key p s := ⟨key, s, h1⟩
      clear h1 h2 h3
      obtain ⟨key, p', s, t, x, x0, h1, h2, h3, h4, h5, h6⟩ := h o hlast
      have hne : p' ≠ [] := by rw [h1.2.2]; exact pySplit_ne_nil _ _
      obtain ⟨D1, g1, _, _, g4, g5⟩ := set_same c h5 hne x "" h4 h6
      obtain ⟨sf, k1, k2⟩ := (findField_iff p' hsfs).1 t h2
      obtain ⟨D', r1, r2⟩ := ih D1 (some x) hap'.2 (fun o' ho' => hgood o' (by simp [ho'])) (by
        intro o' ho'
        obtain ⟨key', q, s', t', x', x0', j1, j2, j3, j4, j5, j6⟩ := h o' ho'.cons
        refine ⟨key', q, s', t', x', x0', j1, j2, j3, j4, g5 q t' x0' ?_ j5, j6⟩
        rcases hap'.1 o' ho'.mem _ _ _ _ _ _ h1 j1 with hu | he
        · exact hu
        · exfalso
          subst he
          obtain ⟨_, _, hov⟩ := hp0
          rw [(isOv_unique h1 hov).2.1] at j1
          exact hl ⟨o', ho'.mem, key', s', j1⟩)
      refine ⟨D', ?_, fun ig => by rw [r2, g4]⟩
      rw [h1.2.2] at k1 g1
      simp only [overridesLoop, split_of_isOv h1, k1, ovVal_overrideVal stale k2 h3, bind, Except.bind, g1, r1]

/-- C73, core: if, for every field that is overridden, the last of its overrides is in effect in a config, then loading the dump of the
config with all the overrides gives the same as loading it without. -/
theorem C73_again (w : World) {n : String} {fs : List Fld} {ver : Option VerInfo} {reg : RegD} {v : Val}
    (hs : SoundTy w.ext w.env (.data n fs ver)) (hmat : (materialize (.data n fs ver)).isOk = true)
    (hfit : Fits w.ext false (.data n fs ver) (some (.node reg)) v)
    (hwf : ∀ k r', dget reg k = some r' → r'.WF k) {doc : Val} {bs : List (String × Val)}
    (hd : typedDump w.env (some reg) false v = .ok (doc, bs)) (os : List String) (hap : Apart os)
    (hden : ∀ o ∈ os, Denotes w.ron fs o) (hE : ∀ o, LastFor os o → InEffect w fs reg v o) (ig : Bool) :
    smLoadConfig w (.data n fs ver) (some doc) os ig = smLoadConfig w (.data n fs ver) (some doc) [] ig := by
  cases hm : materialize (.data n fs ver) with
  | error e => rw [hm] at hmat; exact absurd hmat (by simp [Except.isOk, Except.toBool])
  | ok st =>
    obtain ⟨sfs, hsfs, rfl⟩ := materialize_data hm
    obtain ⟨D', h1, h2⟩ := overridesLoop_same (c := w.dcfg true true) (ron := w.ron) (n := n) (ver := ver) hsfs os doc none hap hden (by
      intro o ho
      obtain ⟨key, p, s, t, x, x0, g1, g2, g3, g4, g5, g6, _⟩ := effect_way hs hfit hwf hd (hE o ho)
      exact ⟨key, p, s, t, x, x0, g1, g2, g3, g4, g5, by rw [pathTo_key hs g1 g2]; exact g6⟩)
    simp only [smLoadConfig, typedLoad, applyOverrides, hm, h1, overridesLoop, h2, bind, Except.bind, pure, Except.pure]

/-- the overrides are in effect in the config that is read -/
theorem effect_reload (w : World) {n : String} {fs : List Fld} {ver : Option VerInfo} {reg : RegD} {v : Val}
    (hs : SoundTy w.ext w.env (.data n fs ver)) (hmat : (materialize (.data n fs ver)).isOk = true)
    (hfit : Fits w.ext false (.data n fs ver) (some (.node reg)) v)
    (hwf : ∀ k r', dget reg k = some r' → r'.WF k) {doc : Val} {bs : List (String × Val)}
    (hd : typedDump w.env (some reg) false v = .ok (doc, bs)) {ig : Bool} {l : Loaded}
    (hl : smLoadConfig w (.data n fs ver) (some doc) [] ig = .ok l)
    (hreg : RegEqv (some (.node reg)) (some (.node l.schedules))) {o : String} (hE : InEffect w fs reg v o) :
    InEffect w fs l.schedules l.value o := by
  obtain ⟨key, p, s, t, x, x0, g1, g2, g3, g4, g5, g6, g7⟩ := effect_way hs hfit hwf hd hE
  have hne : p ≠ [] := by rw [g1.2.2]; exact pySplit_ne_nil _ _
  simp only [smLoadConfig, typedLoad, applyOverrides_nil w.ron hmat, bind, Except.bind, pure, Except.pure] at hl
  cases hf : fromDict (w.dcfg true true) (.data n fs ver) ig "" doc with
  | error e => rw [hf] at hl; exact (nomatch hl)
  | ok q =>
    obtain ⟨v', es⟩ := q
    rw [hf] at hl
    have hv : l.value = v' := by
      dsimp only at hl
      split at hl
      · exact (nomatch hl)
      · cases hl; rfl
    obtain ⟨y, es', k1, k2⟩ := reads_load (w.dcfg true true) (g5.reads (am := true)) hne ig "" v' es hf
    rw [pathTo_key hs g1 g2] at k2
    rw [← hv] at k1
    rcases g7 with ⟨y', j1, j2, j3⟩ | ⟨txt, i, rfl, j2⟩
    · rw [← g6, j1] at k2
      cases k2
      exact .plain g1 g2 g3 j2 g4 j1 k1 (fun q z hz => j3 q z (by rw [hreg]; exact hz))
    · exact .sched g1 g2 g3 (by rw [← hreg]; exact j2) k1

/-! ## the first load -/

/-- the upgrade of the document does not touch the path: the document has no version (and is not upgraded), or an integer version
since which no rule mentions a related path -/
def UpgradeKeeps (ver : Option VerInfo) (doc : Val) (p : List String) : Prop :=
  ∀ vi, ver = some vi → doc.at? ["version"] = none ∨ doc.at? ["version"] = some .none ∨
    ∃ v0, doc.at? ["version"] = some (.int v0) ∧ ∀ r ∈ vi.rulesFrom v0, ∀ p' ∈ r.paths, Unrelated p' p ∧ WEAK_REF ∉ p'

theorem fromDict_noEvs {c : DCfg} {e : Ext} {t : PyTy} (ht : TyOK e t) {path : String} {x y : Val} {es : List Ev}
    (hn : NoSched c.allowMissing t x) (h : fromDict c t false path x = .ok (y, es)) : es = [] := by
  have h1 := noSched_load c t false path x y es hn h
  have h2 : fromDict { c with file := false } t false path x = .ok (y, es) := by
    rw [fromDict_file c false c.file e t ht]; exact h
  have h3 := fromDict_evs { c with file := false } (P := fun ev => ∃ p s b, ev = .sched p s b) (by intro p s b _; exact ⟨p, s, b, rfl⟩)
    (by intro h; exact (nomatch h)) t false path x y es h2
  cases es with
  | nil => rfl
  | cons ev es =>
    obtain ⟨p, s, b, rfl⟩ := h3 ev (by simp)
    simp [schedsOf, Ev.sched?] at h1

theorem strips_trans {a b c : PyTy} (h : Strips a b) (h' : Strips b c) : Strips a c := by
  induction h with
  | refl => exact h'
  | opt _ ih => exact .opt (ih h')

theorem strips_reads {am : Bool} {t u tp : PyTy} (hst : Strips t u) {p : List String} (hp : p ≠ []) {D x : Val}
    (h : ReadsAt am u p tp D x) : ReadsAt am t p tp D x := by
  cases h with
  | nil => exact absurd rfl hp
  | cons h1 h2 h3 h4 h5 h6 h7 h8 => exact .cons (strips_trans hst h1) h2 h3 h4 h5 h6 h7 h8

/-- the way to a field, from its path in the document -/
theorem reads_none {am : Bool} {fs : List Fld} {p : List String} {t : PyTy} (hf : FieldAtU fs p t) :
    ∀ (n : String) (D x : Val), Plain D → Solid D p → D.at? p = some x → x.isWeak = false → NAME_KEY ∉ p →
    ReadsAt am (.data n fs none) p t D x := by
  induction hf with
  | @here fs k f hfind =>
    intro n D x hp hs hx hw hn
    obtain ⟨d, rfl⟩ := solid_isDict (by simp) hs
    simp only [Plain] at hp
    simp only [at?_dict_cons, Option.bind_eq_some_iff] at hx
    obtain ⟨x', h1, h2⟩ := hx
    cases (show x' = x by simpa using h2)
    exact .cons (.refl _ _ _) hfind rfl hp.1 (fun e => hn (by simp [e])) h1 hw (.nil _ _)
  | @there fs k k' ks f n' fs' t hfind hst hf ih =>
    intro n D x hp hs hx hw hn
    obtain ⟨d, rfl⟩ := solid_isDict (by simp) hs
    have hp' := hp
    simp only [Plain] at hp'
    rw [at?_dict_cons, Option.bind_eq_some_iff] at hx
    obtain ⟨x', h1, h2⟩ := hx
    have hs' : Solid x' (k' :: ks) := by
      intro q hq hne
      obtain ⟨d', g1, g2⟩ := hs (k :: q) (by simpa using hq) (by simpa using hne)
      rw [at?_dict_cons, h1] at g1
      exact ⟨d', g1, fun _ => g2 (by simp)⟩
    have hw' : x'.isWeak = false := by
      obtain ⟨d', g1, g2⟩ := hs [k] (by simp) (by simp)
      rw [at?_dict_cons, h1] at g1
      cases (show x' = .dict d' by simpa using g1)
      simp [Val.isWeak, dhas, g2 (by simp)]
    refine .cons (.refl _ _ _) hfind rfl hp'.1 (fun e => hn (by simp [e])) h1 hw' ?_
    exact strips_reads hst (by simp)
      (ih n' x' x ((plainD_iff _).1 hp'.2 _ (dget_mem h1)) hs' h2 hw (fun h => hn (List.mem_cons_of_mem _ h)))

/-- and with the upgrade of the document -/
theorem reads_upgraded {am : Bool} {n : String} {fs : List Fld} {ver : Option VerInfo} {p : List String} {t : PyTy} (hf : FieldAtU fs p t)
    {D D2 x : Val} (hup : upgraded am ver D = .ok D2) (hver : ∀ vi, ver = some vi → VerPlain vi) (hp : Plain D) (hm : NoMark D)
    (hx : D.at? p = some x) (hk : UpgradeKeeps ver D p) (hv : ver.isSome = true → p.head? ≠ some "version") (hw : WEAK_REF ∉ p)
    (hn : NAME_KEY ∉ p) : ReadsAt am (.data n fs ver) p t D x := by
  have hp0 : p ≠ [] := by cases hf <;> simp
  have hwk := (hm.at? hx).isWeak
  have hd : D.isDict = true := by
    cases h : D.isDict with
    | true => rfl
    | false =>
      cases p with
      | nil => exact absurd rfl hp0
      | cons k ks => simp [at?_cons_of_not_dict D h] at hx
  obtain ⟨d, rfl⟩ := (isDict_iff D).1 hd
  have key : Plain D2 ∧ Solid D2 p ∧ D2.at? p = some x := by
    cases ver with
    | none => cases hup; exact ⟨hp, hm.solid hx, hx⟩
    | some vi =>
      simp only [upgraded] at hup
      refine ⟨plain_versionHook (hver vi rfl) hp hup, ?_⟩
      have hv := hv rfl
      have hdel : ∀ q : List String, q ≠ [] → q.head? ≠ some "version" →
          (Val.dict (ddel d "version")).at? q = (Val.dict d).at? q := by
        intro q hq hq'
        cases q with
        | nil => exact absurd rfl hq
        | cons j js =>
          simp only [at?_dict_cons]
          rw [dget_ddel_ne _ (by simpa using fun e => hq' (by simp [e]))]
      have hnm' : NoMark (.dict (ddel d "version")) := by
        intro q
        by_cases hq : (q ++ [WEAK_REF]).head? = some "version"
        · cases q with
          | nil => simp [WEAK_REF] at hq
          | cons j js =>
            simp at hq; subst hq
            simp only [List.cons_append, at?_dict_cons, dget_ddel_self]; rfl
        · rw [hdel _ (by simp) hq]; exact hm q
      have hx' : (Val.dict (ddel d "version")).at? p = some x := by rw [hdel p hp0 hv, hx]
      rcases hk vi rfl with h | h | ⟨v0, h, hr⟩
      · have h : dget d "version" = none := by
          simp only [at?_dict_cons, at?_nil] at h
          cases hc : dget d "version" with
          | none => rfl
          | some y => rw [hc] at h; exact (nomatch h)
        simp only [versionHook, h] at hup
        cases am with
        | false => exact (nomatch hup)
        | true => cases hup; exact ⟨hnm'.solid hx', hx'⟩
      · have h : dget d "version" = some .none := by
          simp only [at?_dict_cons, at?_nil] at h
          cases hc : dget d "version" with
          | none => rw [hc] at h; exact (nomatch h)
          | some y => rw [hc] at h; simpa using h
        simp only [versionHook, h] at hup
        cases am with
        | false => exact (nomatch hup)
        | true => cases hup; exact ⟨hnm'.solid hx', hx'⟩
      · have h : dget d "version" = some (.int v0) := by
          simp only [at?_dict_cons, at?_nil] at h
          cases hc : dget d "version" with
          | none => rw [hc] at h; exact (nomatch h)
          | some y => rw [hc] at h; simpa using h
        obtain ⟨f1, f2⟩ := applyRules_frame hw hp0 (versionHook_rules h hup) hr
        exact ⟨f2 (hnm'.solid hx'), by rw [f1, hx']⟩
  obtain ⟨k1, k2, k3⟩ := key
  have hr := reads_none (am := am) hf n D2 x k1 k2 k3 hwk hn
  obtain ⟨d2, rfl⟩ := solid_isDict hp0 k2
  cases hr with
  | nil => exact absurd rfl hp0
  | cons h1 h2 h3 h4 h5 h6 h7 h8 =>
    cases h1
    cases h3
    exact .cons (.refl _ _ _) h2 hup h4 h5 h6 h7 h8

/-- an override and the document it was written to: what is required for it to be in effect after the load -/
structure OvFor (fs : List Fld) (ver : Option VerInfo) (doc : Val) (o : String) : Prop where
  /-- the classes on the way below the config class are not versioned; booleans are spelled as such -/
  field : ∀ key p s, IsOv o key p s → ∃ t, FieldAtU fs p t ∧ (t = .bool → ∃ b, s ∈ boolSpelling b) ∧
    /- the value is a schedule for the field, or contains none -/
    ∀ x, doc.at? p = some x → NoSched true t x ∨ ∃ txt b, SchedIn true t x [] txt b
  /-- rules of the upgrade do not touch the field -/
  upgrade : ∀ key p s, IsOv o key p s → UpgradeKeeps ver doc p

theorem schedIn_nil {am : Bool} {t : PyTy} {x : Val} {q : List String} {s : String} {b : Bool} (h : SchedIn am t x q s b) :
    q = [] → x = .str s := by
  induction h with
  | int _ => intro _; rfl
  | float _ => intro _; rfl
  | opt _ _ ih => exact ih
  | field => intro h; exact (nomatch h)

theorem applied_isOv {ron : RonParse} {n : String} {fs : List Fld} {ver : Option VerInfo} {os : List String} {doc doc1 : Val}
    (h : applyOverrides ron (.data n fs ver) os doc = .ok doc1) {o : String} (ho : o ∈ os) : ∃ key p s, IsOv o key p s := by
  obtain ⟨sfs, _, hl⟩ := applyOverrides_ok h
  obtain ⟨pre, post, rfl⟩ := List.append_of_mem ho
  obtain ⟨sd1, st1, errs1, _, hrest⟩ := overridesLoop_append _ sfs pre (o :: post) doc _ _ _ hl
  simp only [overridesLoop] at hrest
  split at hrest
  · exact (nomatch hrest)
  · rename_i k s hs
    exact ⟨_, _, _, isOv_of_split hs⟩

/-- the overrides of a load that succeeded denote values -/
theorem applied_denotes {ron : RonParse} {n : String} {fs : List Fld} {ver : Option VerInfo} {os : List String} {doc doc1 : Val}
    (h : applyOverrides ron (.data n fs ver) os doc = .ok doc1) {o : String} (ho : o ∈ os)
    (hb : ∀ key p s, IsOv o key p s → FieldAt fs p .bool → ∃ b, s ∈ boolSpelling b) : Denotes ron fs o := by
  obtain ⟨key, p, s, hov⟩ := applied_isOv h ho
  obtain ⟨sfs, hf, hl⟩ := applyOverrides_ok h
  obtain ⟨pre, post, rfl⟩ := List.append_of_mem ho
  obtain ⟨sd1, st1, errs1, _, hrest⟩ := overridesLoop_append ron sfs pre (o :: post) doc _ _ _ hl
  simp only [overridesLoop, split_of_isOv hov] at hrest
  rw [← hov.2.2] at hrest
  split at hrest
  · obtain ⟨new, hn⟩ := overridesLoop_errs _ _ _ _ _ _ _ _ hrest
    simp at hn
  · rename_i sf hff
    obtain ⟨t, ht, hmt⟩ := (findField_iff p hf).2 sf hff
    simp only [bind, Except.bind] at hrest
    split at hrest
    · simp at hrest
    · rename_i v hv
      exact ⟨p, key, s, t, v, hov, ht, overrideVal_ovVal hmt (fun e => hb key p s hov (e ▸ ht)) hv⟩

/-- C73: after a load with overrides, each of them is in effect, unless a later one is for the same field -/
theorem C73_effect (w : World) {n : String} {fs : List Fld} {ver : Option VerInfo} (hs : SoundTy w.ext w.env (.data n fs ver))
    {doc : Option Val} {os : List String} {ig : Bool} {l : Loaded} (hl : smLoadConfig w (.data n fs ver) doc os ig = .ok l)
    (hap : Apart os) {doc1 : Val}
    (hdoc : applyOverrides w.ron (.data n fs ver) os (doc.getD (.dict [])) = .ok doc1) (hpl : Plain doc1) (hnm : NoMark doc1)
    (hsh : Shallow true (.data n fs ver) 2 doc1) (hov : ∀ o ∈ os, OvFor fs ver doc1 o) :
    ∀ o, LastFor os o → InEffect w fs l.schedules l.value o := by
  intro o hlf
  have ho := hlf.mem
  have hload : ∃ file, typedLoad (w.dcfg true file) w.ron (some os) ig (.data n fs ver) (doc.getD (.dict [])) = .ok l := by
    cases doc with
    | none => exact ⟨false, hl⟩
    | some d => exact ⟨true, hl⟩
  obtain ⟨file, hload⟩ := hload
  simp only [typedLoad, hdoc, bind, Except.bind, pure, Except.pure] at hload
  cases hf : fromDict (w.dcfg true file) (.data n fs ver) ig "" doc1 with
  | error e => rw [hf] at hload; exact (nomatch hload)
  | ok q =>
    obtain ⟨v, es⟩ := q
    rw [hf] at hload
    dsimp only at hload
    obtain ⟨reg, r1, _, r3⟩ := registry_of_load hs.ids hsh hf
    rw [r1] at hload
    cases hload
    dsimp only
    obtain ⟨key, p, s, hio⟩ := applied_isOv hdoc ho
    obtain ⟨pre, post, rfl, hno⟩ := hlf
    have hlast : ∀ o' ∈ post, ∀ key' p' s', IsOv o' key' p' s' → Unrelated p' p := by
      intro o' ho' key' p' s' h'
      have := (List.pairwise_append.1 hap).2.1
      rcases (List.pairwise_cons.1 this).1 o' ho' _ _ _ _ _ _ hio h' with h | h
      · exact ⟨h.2, h.1⟩
      · subst h
        exact absurd h' (hno o' ho' _ _ _ _ _ hio)
    obtain ⟨t', x, ht', hx, hval⟩ := C11_override_wins_partial w.ron n fs ver _ doc1 pre post o key s p hdoc hio hlast
    obtain ⟨t, hfu, hb, hsch⟩ := (hov o ho).field key p s hio
    have := fieldAt_unique ht' hfu.toFieldAt
    subst this
    have hne : p ≠ [] := by rw [hio.2.2]; exact pySplit_ne_nil _ _
    have hnames := under_names (fieldAt_under ht' n ver) hs
    have hdecl := hs.decl
    simp only [DeclOK] at hdecl
    have hR : ReadsAt true (.data n fs ver) p t' doc1 x := by
      cases hu : upgraded true ver doc1 with
      | error e =>
        exfalso
        cases ver with
        | none => exact (nomatch hu)
        | some vi =>
          simp only [upgraded] at hu
          simp only [fromDict, World.dcfg, hu, bind, Except.bind] at hf
          exact (nomatch hf)
      | ok D2 =>
        refine reads_upgraded hfu hu hdecl.2.1 hpl hnm hx ((hov o ho).upgrade key p s hio) ?_ (fun h => (hnames _ h).2.1 rfl)
          (fun h => (hnames _ h).1 rfl)
        intro hv e
        have hft : ∃ f ∈ fs, p.head? = some f.name := by
          cases ht' with
          | here hg => exact ⟨_, List.mem_of_find?_eq_some hg, by simpa using (show _ = _ from (by simpa using List.find?_some hg : _ = _)).symm⟩
          | there hg _ _ => exact ⟨_, List.mem_of_find?_eq_some hg, by simpa using (show _ = _ from (by simpa using List.find?_some hg : _ = _)).symm⟩
        obtain ⟨f, g1, g2⟩ := hft
        rw [e] at g2
        exact hs.classOK.2.2.1 hv f g1 (by simpa using g2.symm)
    obtain ⟨y, es', k1, k2⟩ := reads_load (w.dcfg true file) hR hne ig "" v es hf
    rw [pathTo_key hs hio ht'] at k2
    have hst := hs.under (fieldAt_under ht' n ver)
    have k3 : fromDict (w.dcfg true true) t' false key x = .ok (y, es') := by
      rw [← k2]
      exact fromDict_file (w.dcfg true true) true file w.ext t' hst.ty false key x
    rcases hsch x hx with h | ⟨txt, b, h⟩
    · have := fromDict_noEvs hst.ty (c := w.dcfg true true) h k3
      subst this
      refine .plain hio ht' (hval hb) (plain_at hpl hx) (hnm.at? hx).isWeak k3 k1 ?_
      intro q z hz
      have hz' := (r3 q z.1 z.2).1 hz
      constructor
      · intro hc
        obtain ⟨q', e, hq'⟩ := reads_sched hR hs q _ _ hz' (.inl hc)
        exact hq'.not_noSched h
      · intro hc
        obtain ⟨q', e, hq'⟩ := reads_sched hR hs q _ _ hz' (.inr hc)
        exact hq'.not_noSched h
    · have := schedIn_nil h rfl
      subst this
      refine .sched hio ht' (hval hb) (i := b) ((r3 p txt b).2 ?_) k1
      have := sched_reads hR h
      rw [List.append_nil] at this
      exact this

/-! ## later -/

/-- applying the schedules leaves a field alone that no schedule is for, above or below -/
theorem applyX_apart (sv : String → Except Err Flt) : ∀ (p : List String) (es : RegD) (v : Val), p ≠ [] → TopOK es →
    (∀ k r', dget es k = some r' → r'.WF k) →
    (∀ q z, Reg.at (some (.node es)) q = some z → Unrelated q p) → valAt (applyRegDX sv es v).2 p = valAt v p := by
  intro p
  induction p with
  | nil => intro es v h; exact absurd rfl h
  | cons s segs ih =>
    intro es v _ hok hwf hun
    rcases applyRegDX_inv sv es v hok with h | ⟨n, kvs, kvs', rfl, h2, hall⟩
    · rw [h]
    · rw [h2]
      rcases hall s with h | h
      · simp only [valAt, h]
      · cases hd : dget es s with
        | none => rw [hd] at h; exact h.elim
        | some r =>
          rw [hd] at h
          cases r with
          | sched t j a => exact absurd (by simp) (hun [s] (t, j) (by simp [Reg.at, hd])).1
          | node es' =>
            obtain ⟨c, h3, h4⟩ := h
            by_cases hs : segs = []
            · exfalso
              obtain ⟨q, z, hz⟩ := Reg.WF.nonempty _ _ (hwf s _ hd)
              exact (hun (s :: q) z (by simpa [Reg.at, hd] using hz)).2 (by simp [hs])
            · simp only [valAt, h3, h4]
              refine ih es' c hs (hok.child hd) ?_ ?_
              · intro k r' hk
                have := hwf s _ hd
                simp only [Reg.WF] at this
                exact this.2.2.mem (dget_mem hk)
              · intro q z hz
                have := hun (s :: q) z (by simpa [Reg.at, hd] using hz)
                exact ⟨fun h => this.1 (by simpa using h), fun h => this.2 (by simpa using h)⟩

theorem effect_kept {w : World} {fs : List Fld} {reg : RegD} {v : Val} (sv : String → Except Err Flt) (htop : TopOK reg)
    (hwf : ∀ k r', dget reg k = some r' → r'.WF k) {o : String} (h : InEffect w fs reg v o) :
    InEffect w fs reg (applyRegDX sv reg v).2 o := by
  cases h with
  | @plain key p s t x y h1 h2 h3 h4 h5 h6 h7 h8 =>
    have hne : p ≠ [] := by rw [h1.2.2]; exact pySplit_ne_nil _ _
    exact .plain h1 h2 h3 h4 h5 h6 (by rw [applyX_apart sv p reg v hne htop hwf h8]; exact h7) h8
  | @sched key p s t txt i y h1 h2 h3 h4 h5 =>
    rcases applyX_sched sv p reg v htop txt i h4 with h | ⟨x, _, h⟩
    · exact .sched h1 h2 h3 h4 (by rw [h]; exact h5)
    · exact .sched h1 h2 h3 h4 h

end HS
