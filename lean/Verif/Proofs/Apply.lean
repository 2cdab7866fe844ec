import Verif.Model.Apply
import Verif.Proofs.Sched
/-!
# Lemmas about the schedule registry and `_apply_schedules`
-/
namespace HS

mutual
/-- registries as `ScheduleDeserializer` builds them: distinct keys, no empty dicts, a schedule is stored under the name of
the attribute it updates -/
def Reg.WF : Reg → String → Prop
  | .sched _ _ a, k => a = k
  | .node es, _ => es ≠ [] ∧ (dkeys es).Nodup ∧ RegWFD es
termination_by structural x => x
def RegWFD : List (String × Reg) → Prop
  | [] => True
  | e :: es => RegWFE e ∧ RegWFD es
termination_by structural x => x
def RegWFE : String × Reg → Prop
  | (k, r) => r.WF k
termination_by structural x => x
end

theorem RegWFD.mem : ∀ {es : List (String × Reg)}, RegWFD es → ∀ {k r}, (k, r) ∈ es → r.WF k := by
  intro es
  induction es with
  | nil => intro _ k r h; simp at h
  | cons e es ih =>
    intro h k r hm
    simp only [RegWFD] at h
    rcases List.mem_cons.1 hm with rfl | hm
    · exact h.1
    · exact ih h.2 hm

theorem regWFD_iff {es : List (String × Reg)} : RegWFD es ↔ ∀ kr ∈ es, kr.2.WF kr.1 := by
  constructor
  · intro h kr hm; exact h.mem hm
  · induction es with
    | nil => intro _; simp [RegWFD]
    | cons e es ih =>
      intro h
      simp only [RegWFD]
      exact ⟨by obtain ⟨k, r⟩ := e; exact h (k, r) (by simp), ih (fun kr hm => h kr (List.mem_cons_of_mem _ hm))⟩

mutual
theorem Reg.WF.nonempty : ∀ (r : Reg) (k : String), r.WF k → ∃ segs x, Reg.at (some r) segs = some x
  | .sched t i a, k, _ => ⟨[], (t, i), rfl⟩
  | .node [], k, h => by simp [Reg.WF] at h
  | .node ((k', r') :: es), k, h => by
    simp only [Reg.WF, RegWFD, RegWFE] at h
    obtain ⟨segs, x, hx⟩ := Reg.WF.nonempty r' k' h.2.2.1
    exact ⟨k' :: segs, x, by simp [Reg.at, dget, hx]⟩
end

theorem Reg.at_none (segs : List String) : Reg.at none segs = none := by
  cases segs <;> rfl

/-! ## `_apply_schedules` -/

theorem dkeys_dset_of_mem {α : Type} : ∀ (d : List (String × α)) {k : String} {x y : α}, dget d k = some x →
    dkeys (dset d k y) = dkeys d := by
  intro d
  induction d with
  | nil => intro k x y h; simp at h
  | cons a d ih =>
    intro k x y h
    obtain ⟨k', v⟩ := a
    simp only [dset, dget] at h ⊢
    split
    · simp_all [dkeys]
    · rename_i hne
      rw [if_neg hne] at h
      have := ih (y := y) h
      simp only [dkeys] at this
      simp [dkeys, this]

theorem schedVal_iff {sv : String → Except Err Flt} {txt : String} {i : Bool} {x : Val} :
    schedVal sv txt i = .ok x ↔ SchedIs sv txt i x := by
  simp only [schedVal, SchedIs, bind, Except.bind, pure, Except.pure]
  cases sv txt with
  | error e => simp
  | ok f =>
    cases i with
    | false => simp [eq_comm]
    | true =>
      simp only [Except.ok.injEq, exists_eq_left', if_true]
      cases hf : f.toInt with
      | error e => simp
      | ok n => simp [eq_comm]

theorem applyRegD_spec (sv : String → Except Err Flt) (g : String → Val) : ∀ (es : List (String × Reg)) (n : String)
    (kvs : List (String × Val)), (dkeys es).Nodup →
    (∀ k r, (k, r) ∈ es → ∃ x, dget kvs k = some x ∧
      match r with
      | .sched txt i a => a = k ∧ schedVal sv txt i = .ok (g k)
      | .node es' => applyRegD sv es' x = .ok (g k)) →
    ∃ kvs', applyRegD sv es (.inst n kvs) = .ok (.inst n kvs') ∧ dkeys kvs' = dkeys kvs ∧
      ∀ k, dget kvs' k = if k ∈ dkeys es then some (g k) else dget kvs k := by
  intro es
  induction es with
  | nil => intro n kvs _ _; exact ⟨kvs, by simp [applyRegD], rfl, by simp [dkeys]⟩
  | cons e es ih =>
    obtain ⟨k0, r0⟩ := e
    intro n kvs hn h
    simp only [dkeys, List.map_cons, List.nodup_cons] at hn
    obtain ⟨x, hx, hr⟩ := h k0 r0 (by simp)
    have hstep : applyRegE sv (k0, r0) (.inst n kvs) = .ok (.inst n (dset kvs k0 (g k0))) := by
      cases r0 with
      | sched txt i a =>
        simp only at hr
        obtain ⟨rfl, hv⟩ := hr
        simp [applyRegE, applyReg, hv, setAttr, bind, Except.bind]
      | node es' =>
        simp only at hr
        simp [applyRegE, applyReg, getAttr, hx, hr, setAttr, bind, Except.bind]
    obtain ⟨kvs', h1, h2, h3⟩ := ih n (dset kvs k0 (g k0)) hn.2 (by
      intro k r hm
      obtain ⟨y, hy, hr⟩ := h k r (List.mem_cons_of_mem _ hm)
      have hne : k ≠ k0 := by
        rintro rfl
        exact hn.1 (List.mem_map.2 ⟨(k, r), hm, rfl⟩)
      exact ⟨y, by rw [dget_dset_ne _ _ (Ne.symm hne)]; exact hy, hr⟩)
    refine ⟨kvs', ?_, ?_, ?_⟩
    · simp only [applyRegD, hstep, bind, Except.bind, h1]
    · rw [h2]; exact dkeys_dset_of_mem _ hx
    · intro k
      rw [h3 k]
      have hd : ∀ k, k ∈ dkeys ((k0, r0) :: es) ↔ k = k0 ∨ k ∈ dkeys es := by
        intro k; simp only [dkeys, List.map_cons, List.mem_cons]
      by_cases hk : k ∈ dkeys es
      · rw [if_pos hk, if_pos ((hd k).2 (Or.inr hk))]
      · by_cases hk0 : k = k0
        · subst hk0; rw [if_neg hk, if_pos ((hd k).2 (Or.inl rfl)), dget_dset_self]
        · rw [if_neg hk, if_neg (by rw [hd]; simp [hk, hk0]), dget_dset_ne _ _ (Ne.symm hk0)]

/-! ## the events of a load and the registry -/

/-- the segments of a path -/
def segsOf (p : String) : List String := if p = "" then [] else pySplit '.' p

theorem segsOf_join {p k : String} (hk : IdOK k) : segsOf (joinPath p k) = segsOf p ++ [k] := by
  have h1 := joinPath_ne (p := p) hk.1
  simp only [segsOf, if_neg h1]
  by_cases hp : p = ""
  · subst hp; simp [joinPath, pySplit_id hk.2.1]
  · simp [joinPath, hp, pySplit_join, pySplit_id hk.2.1]

def Ev.sched? : Ev → Option (List String × (String × Bool))
  | .sched p t i => some (segsOf p, (t, i))
  | _ => none

def schedsOf (es : List Ev) : List (List String × (String × Bool)) := es.filterMap Ev.sched?

theorem schedsOf_append (a b : List Ev) : schedsOf (a ++ b) = schedsOf a ++ schedsOf b := List.filterMap_append ..

/-- the schedules found by loading are those registered -/
structure EvsOK (r : Option Reg) (path : String) (es : List Ev) : Prop where
  sound : ∀ x ∈ schedsOf es, ∃ segs, x.1 = segsOf path ++ segs ∧ Reg.at r segs = some x.2
  complete : ∀ segs x, Reg.at r segs = some x → (segsOf path ++ segs, x) ∈ schedsOf es
  nodup : ((schedsOf es).map Prod.fst).Nodup

theorem EvsOK.none (path : String) : EvsOK none path [] :=
  ⟨by simp [schedsOf], by intro segs x h; rw [Reg.at_none] at h; exact (nomatch h), by simp [schedsOf]⟩

/-- the events found in some of the fields -/
structure EvsOKf (names : List String) (r : Option Reg) (path : String) (es : List Ev) : Prop where
  sound : ∀ x ∈ schedsOf es, ∃ k ∈ names, ∃ segs, x.1 = segsOf path ++ k :: segs ∧ Reg.at (Reg.child r k) segs = some x.2
  complete : ∀ k ∈ names, ∀ segs x, Reg.at (Reg.child r k) segs = some x → (segsOf path ++ k :: segs, x) ∈ schedsOf es
  nodup : ((schedsOf es).map Prod.fst).Nodup

mutual
theorem evs_restored (e : Ext) : ∀ (t : PyTy) (r : Option Reg) (path : String)
    (v v' : Val) (bs : List (String × Val)) (es : List Ev), Restored e t r path v v' bs es → EvsOK r path es
  | .int, r, path, v, v', bs, es, h => by
    simp only [Restored] at h
    obtain ⟨hv, rfl, ⟨rfl, rfl, rfl⟩ | ⟨txt, a, f, i, rfl, htxt, hf, hi, rfl, rfl⟩⟩ := h
    · exact .none path
    · refine ⟨?_, ?_, by simp [schedsOf, Ev.sched?]⟩
      · intro x hx
        simp [schedsOf, Ev.sched?] at hx
        subst hx
        exact ⟨[], by simp, rfl⟩
      · intro segs x h
        cases segs <;> simp [Reg.at] at h
        subst h
        simp [schedsOf, Ev.sched?]
  | .float, r, path, v, v', bs, es, h => by
    simp only [Restored] at h
    obtain ⟨hv, rfl, ⟨rfl, rfl, rfl⟩ | ⟨txt, a, f, rfl, htxt, hf, rfl, rfl⟩⟩ := h
    · exact .none path
    · refine ⟨?_, ?_, by simp [schedsOf, Ev.sched?]⟩
      · intro x hx
        simp [schedsOf, Ev.sched?] at hx
        subst hx
        exact ⟨[], by simp, rfl⟩
      · intro segs x h
        cases segs <;> simp [Reg.at] at h
        subst h
        simp [schedsOf, Ev.sched?]
  | .str, r, path, v, v', bs, es, h => by
    simp only [Restored] at h
    obtain ⟨rfl, _, _, _, _, rfl⟩ := h; exact .none path
  | .bool, r, path, v, v', bs, es, h => by
    simp only [Restored] at h
    obtain ⟨rfl, _, _, _, _, rfl⟩ := h; exact .none path
  | .noneT, r, path, v, v', bs, es, h => by
    simp only [Restored] at h
    obtain ⟨rfl, _, _, _, _, rfl⟩ := h; exact .none path
  | .list _, r, path, v, v', bs, es, h => by
    simp only [Restored] at h
    obtain ⟨rfl, _, _, _, _, rfl⟩ := h; exact .none path
  | .tuple _, r, path, v, v', bs, es, h => by
    simp only [Restored] at h
    obtain ⟨rfl, _, _, _, _, rfl⟩ := h; exact .none path
  | .dict _ _, r, path, v, v', bs, es, h => by
    simp only [Restored] at h
    obtain ⟨rfl, _, _, _, _, rfl⟩ := h; exact .none path
  | .enum _ _, r, path, v, v', bs, es, h => by
    simp only [Restored] at h
    obtain ⟨rfl, _, _, _, _, rfl⟩ := h; exact .none path
  | .literal _, r, path, v, v', bs, es, h => by
    simp only [Restored] at h
    obtain ⟨rfl, _, _, _, _, rfl⟩ := h; exact .none path
  | .blob n, r, path, v, v', bs, es, h => by
    simp only [Restored] at h
    obtain ⟨rfl, x, rfl, rfl, rfl, rfl⟩ := h
    exact ⟨by simp [schedsOf, Ev.sched?], by intro segs x h; rw [Reg.at_none] at h; exact (nomatch h), List.nodup_nil⟩
  | .union as, r, path, v, v', bs, es, h => by
    simp only [Restored] at h
    rcases h with ⟨rfl, _, _, _, _, rfl⟩ | ⟨_, rfl, _, _, _, rfl⟩ | ⟨hopt, h⟩
    · exact .none path
    · exact .none path
    · exact evs_restoredH e as r path v v' bs es h
  | .data n fs ver, r, path, v, v', bs, es, h => by
    simp only [Restored] at h
    obtain ⟨hcl, hr, hch, kvs, kvs', rfl, rfl, hfs⟩ := h
    have := evs_restoredF e fs r path kvs kvs' bs es hfs hcl.1 (fun f h => (hcl.2.1 f h).2)
    refine ⟨?_, ?_, this.nodup⟩
    · intro x hx
      obtain ⟨k, hk, segs, h1, h2⟩ := this.sound x hx
      refine ⟨k :: segs, h1, ?_⟩
      rw [← h2]
      cases r with
      | none => simp [Reg.at_none, Reg.child]
      | some r => cases r <;> simp [Reg.at, Reg.child, Reg.at_none]
    · intro segs x h
      match r, hr, segs, h with
      | some (.node es'), _, k :: segs, h =>
        simp only [Reg.at] at h
        by_cases hk : k ∈ fs.map Fld.name
        · exact this.complete k hk segs x h
        · have := hch k hk
          simp only [Reg.child] at this
          rw [this, Reg.at_none] at h
          cases h
      | some (.node _), _, [], h => simp [Reg.at] at h
      | none, _, segs, h => rw [Reg.at_none] at h; cases h
theorem evs_restoredH (e : Ext) : ∀ (ts : List PyTy) (r : Option Reg) (path : String)
    (v v' : Val) (bs : List (String × Val)) (es : List Ev), RestoredHead e ts r path v v' bs es → EvsOK r path es
  | [], _, _, _, _, _, _, h => by simp [RestoredHead] at h
  | t :: ts, r, path, v, v', bs, es, h => by
    simp only [RestoredHead] at h
    exact evs_restored e t r path v v' bs es h
theorem evs_restoredF (e : Ext) : ∀ (fs : List Fld) (r : Option Reg) (path : String)
    (kvs kvs' bs : List (String × Val)) (es : List Ev), RestoredFs e fs r path kvs kvs' bs es →
    (fs.map Fld.name).Nodup → (∀ f ∈ fs, IdOK f.name) → EvsOKf (fs.map Fld.name) r path es
  | [], r, path, kvs, kvs', bs, es, h, _, _ => by
    simp only [RestoredFs] at h
    obtain ⟨rfl, rfl, rfl, rfl⟩ := h
    exact ⟨by simp [schedsOf], by simp, by simp [schedsOf]⟩
  | .mk n t d :: fs, r, path, kvs, kvs', bs, es, h, hn, hid => by
    simp only [RestoredFs, RestoredF] at h
    obtain ⟨v, v', bs1, es1, rest, rest', bs2, es2, h1, h2, rfl, rfl, rfl, rfl⟩ := h
    simp only [List.map_cons, List.nodup_cons, Fld.name] at hn
    have hidn : IdOK n := hid (.mk n t d) (by simp)
    have e1 := evs_restored e t _ _ v v' bs1 es1 h1
    have e2 := evs_restoredF e fs r path rest rest' bs2 es2 h2 hn.2 (fun f h => hid f (List.mem_cons_of_mem _ h))
    have hs := segsOf_join (p := path) hidn
    refine ⟨?_, ?_, ?_⟩
    · intro x hx
      rw [schedsOf_append, List.mem_append] at hx
      rcases hx with hx | hx
      · obtain ⟨segs, h1, h2⟩ := e1.sound x hx
        exact ⟨n, by simp [Fld.name], segs, by rw [h1, hs]; simp, h2⟩
      · obtain ⟨k, hk, segs, h1, h2⟩ := e2.sound x hx
        exact ⟨k, List.mem_cons_of_mem _ hk, segs, h1, h2⟩
    · intro k hk segs x hx
      rw [schedsOf_append, List.mem_append]
      rcases List.mem_cons.1 hk with rfl | hk
      · left
        have := e1.complete segs x hx
        rw [hs] at this
        simpa [Fld.name] using this
      · right; exact e2.complete k hk segs x hx
    · rw [schedsOf_append, List.map_append, List.nodup_append]
      refine ⟨e1.nodup, e2.nodup, ?_⟩
      intro a ha b hb hab
      obtain ⟨x, hx, rfl⟩ := List.mem_map.1 ha
      obtain ⟨y, hy, rfl⟩ := List.mem_map.1 hb
      obtain ⟨s1, q1, _⟩ := e1.sound x hx
      obtain ⟨k, hk, s2, q2, _⟩ := e2.sound y hy
      rw [q1, q2, hs, List.append_assoc, List.append_cancel_left_eq] at hab
      simp only [List.singleton_append, List.cons.injEq] at hab
      rw [← hab.1] at hk
      exact hn.1 hk
end

/-! ## building the registry -/

/-- a registry with entries at depth one and two only -/
structure Flat (top : RegD) : Prop where
  wf : RegWFD top
  nodup : (dkeys top).Nodup
  two : ∀ k es, (k, Reg.node es) ∈ top → ∀ k' r, (k', r) ∈ es → ∃ t i a, r = .sched t i a

theorem mem_dset {α : Type} : ∀ {d : List (String × α)} {k : String} {v : α} {x : String × α}, x ∈ dset d k v →
    x = (k, v) ∨ x ∈ d := by
  intro d
  induction d with
  | nil => intro k v x h; simp [dset] at h; exact Or.inl h
  | cons a d ih =>
    intro k v x h
    simp only [dset] at h
    split at h
    · rcases List.mem_cons.1 h with rfl | h
      · exact Or.inl rfl
      · exact Or.inr (List.mem_cons_of_mem _ h)
    · rcases List.mem_cons.1 h with rfl | h
      · exact Or.inr (by simp)
      · exact (ih h).imp id (List.mem_cons_of_mem _)

theorem dset_ne_nil {α : Type} (d : List (String × α)) (k : String) (v : α) : dset d k v ≠ [] := by
  cases d with
  | nil => simp [dset]
  | cons a d => simp only [dset]; split <;> simp

/-- the path does not run into, or through, a registered schedule -/
def Free (top : RegD) (segs : List String) : Prop :=
  ∀ segs' x, Reg.at (some (.node top)) segs' = some x → ¬ segs <+: segs' ∧ ¬ segs' <+: segs

theorem regInsert_spec {top : RegD} (hf : Flat top) {path : String} {segs : List String} (hs : pySplit '.' path = segs)
    (hlen : segs.length ≤ 2) (hne : segs ≠ []) (hfree : Free top segs) (t : String) (i : Bool) :
    ∃ top', regInsert top path t i = .ok top' ∧ Flat top' ∧
      ∀ segs', Reg.at (some (.node top')) segs' = if segs' = segs then some (t, i) else Reg.at (some (.node top)) segs' := by
  match segs, hlen, hne with
  | [a], _, _ =>
    have hda : ∀ es, dget top a ≠ some (.node es) := by
      intro es h
      obtain ⟨segs, x, hx⟩ := Reg.WF.nonempty _ a (hf.wf.mem (dget_mem h))
      have := hfree (a :: segs) x (by simp [Reg.at, h, hx])
      exact this.1 ⟨segs, rfl⟩
    refine ⟨dset top a (.sched t i a), ?_, ⟨?_, nodup_dset _ _ _ hf.nodup, ?_⟩, ?_⟩
    · simp [regInsert, hs, regWalk, bind, Except.bind, pure, Except.pure]
    · rw [regWFD_iff]
      intro kr hm
      rcases mem_dset hm with rfl | hm
      · simp [Reg.WF]
      · exact hf.wf.mem hm
    · intro k es hm
      rcases mem_dset hm with h | hm
      · cases h
      · exact hf.two k es hm
    · intro segs'
      cases segs' with
      | nil => simp [Reg.at]
      | cons s ss =>
        simp only [Reg.at]
        by_cases hsa : s = a
        · subst hsa
          rw [dget_dset_self]
          cases ss with
          | nil => simp [Reg.at]
          | cons s' ss =>
            simp only [Reg.at]
            cases hd : dget top s with
            | none => simp [Reg.at_none]
            | some r =>
              cases r with
              | sched => simp [Reg.at]
              | node es => exact absurd hd (hda es)
        · rw [dget_dset_ne _ _ (Ne.symm hsa)]
          simp [hsa]
  | [a, b], _, _ =>
    have hda : ∀ t i at', dget top a ≠ some (.sched t i at') := by
      intro t' i' a' h
      have := hfree [a] (t', i') (by simp [Reg.at, h])
      exact this.2 ⟨[b], rfl⟩
    have key : ∀ es : RegD, (dget top a = some (.node es) ∨ (dget top a = none ∧ es = [])) →
        regInsert top path t i = .ok (dset top a (.node (dset es b (.sched t i b)))) := by
      intro es h
      rcases h with h | ⟨h, rfl⟩
      · have hh : dhas top a = true := by simp [dhas, h]
        simp [regInsert, hs, regWalk, regEnsure, hh, h, bind, Except.bind, pure, Except.pure]
      · have dd : ∀ (d : RegD) (x y : Reg), dset (dset d a x) a y = dset d a y := by
          intro d x y
          induction d with
          | nil => simp [dset]
          | cons c d ih =>
            simp only [dset]
            split
            · simp [dset]
            · rename_i hc; simp only [dset]; rw [if_neg hc, ih]
        simp [regInsert, hs, regWalk, regEnsure, h, bind, Except.bind, pure, Except.pure, dhas, dset, dd]
    obtain ⟨es, hes⟩ : ∃ es : RegD, dget top a = some (.node es) ∨ (dget top a = none ∧ es = []) := by
      cases hd : dget top a with
      | none => exact ⟨[], Or.inr ⟨rfl, rfl⟩⟩
      | some r =>
        cases r with
        | sched t' i' a' => exact absurd hd (hda t' i' a')
        | node es => exact ⟨es, Or.inl rfl⟩
    have hwes : (dkeys es).Nodup ∧ RegWFD es ∧ ∀ k' r, (k', r) ∈ es → ∃ t i a, r = .sched t i a := by
      rcases hes with h | ⟨_, rfl⟩
      · have := hf.wf.mem (dget_mem h)
        simp only [Reg.WF] at this
        exact ⟨this.2.1, this.2.2, hf.two a es (dget_mem h)⟩
      · exact ⟨by simp [dkeys], by simp [RegWFD], by simp⟩
    refine ⟨_, key es hes, ⟨?_, nodup_dset _ _ _ hf.nodup, ?_⟩, ?_⟩
    · rw [regWFD_iff]
      intro kr hm
      rcases mem_dset hm with rfl | hm
      · simp only [Reg.WF]
        refine ⟨dset_ne_nil _ _ _, nodup_dset _ _ _ hwes.1, ?_⟩
        rw [regWFD_iff]
        intro kr hm
        rcases mem_dset hm with rfl | hm
        · simp [Reg.WF]
        · exact hwes.2.1.mem hm
      · exact hf.wf.mem hm
    · intro k es' hm
      rcases mem_dset hm with h | hm
      · cases h
        intro k' r hm
        rcases mem_dset hm with h | hm
        · cases h; exact ⟨_, _, _, rfl⟩
        · exact hwes.2.2 k' r hm
      · exact hf.two k es' hm
    · intro segs'
      have hatop : ∀ ss, Reg.at (dget top a) ss = Reg.at (some (.node es)) ss := by
        intro ss
        rcases hes with h | ⟨h, rfl⟩
        · rw [h]
        · rw [h, Reg.at_none]; cases ss <;> simp [Reg.at, Reg.at_none]
      cases segs' with
      | nil => simp [Reg.at]
      | cons s ss =>
        simp only [Reg.at]
        by_cases hsa : s = a
        · subst hsa
          rw [dget_dset_self, hatop]
          cases ss with
          | nil => simp [Reg.at]
          | cons s' ss =>
            simp only [Reg.at]
            by_cases hsb : s' = b
            · subst hsb
              rw [dget_dset_self]
              cases ss with
              | nil => simp [Reg.at]
              | cons s'' ss =>
                simp only [Reg.at]
                cases hd : dget es s' with
                | none => simp [Reg.at_none]
                | some r =>
                  obtain ⟨t', i', a', rfl⟩ := hwes.2.2 s' r (dget_mem hd)
                  simp [Reg.at]
            · rw [dget_dset_ne _ _ (Ne.symm hsb)]
              simp [hsb]
        · rw [dget_dset_ne _ _ (Ne.symm hsa)]
          simp [hsa]

/-- paths of schedules: at most two segments, and none runs through another -/
structure PathsOK (S : List (List String × (String × Bool))) : Prop where
  len : ∀ x ∈ S, x.1.length ≤ 2 ∧ x.1 ≠ []
  free : ∀ x ∈ S, ∀ y ∈ S, x.1 <+: y.1 → x.1 = y.1
  nodup : (S.map Prod.fst).Nodup

theorem regAll_spec : ∀ (es : List Ev) (top : RegD), Flat top → PathsOK (schedsOf es) →
    (∀ x ∈ schedsOf es, Free top x.1) →
    ∃ top', regAll top es = .ok top' ∧ Flat top' ∧
      ∀ segs x, Reg.at (some (.node top')) segs = some x ↔ (segs, x) ∈ schedsOf es ∨ Reg.at (some (.node top)) segs = some x := by
  intro es
  induction es with
  | nil => intro top hf _ _; exact ⟨top, rfl, hf, by simp [schedsOf]⟩
  | cons ev es ih =>
    intro top hf hp hfree
    cases ev with
    | lazy p c f k =>
      have hs : schedsOf (.lazy p c f k :: es) = schedsOf es := rfl
      rw [hs] at hp hfree ⊢
      obtain ⟨top', h1, h2, h3⟩ := ih top hf hp hfree
      exact ⟨top', by simp [regAll, h1], h2, h3⟩
    | sched p t i =>
      have hs : schedsOf (.sched p t i :: es) = (segsOf p, (t, i)) :: schedsOf es := rfl
      rw [hs] at hp hfree ⊢
      have hl := hp.len _ (List.mem_cons_self ..)
      simp only at hl
      have hpne : p ≠ "" := by intro h; simp [segsOf, h] at hl
      have hsp : pySplit '.' p = segsOf p := by simp [segsOf, hpne]
      obtain ⟨top1, g1, g2, g3⟩ := regInsert_spec hf hsp hl.1 hl.2 (hfree _ (List.mem_cons_self ..)) t i
      have hnd := hp.nodup
      simp only [List.map_cons, List.nodup_cons] at hnd
      obtain ⟨top', h1, h2, h3⟩ := ih top1 g2
        ⟨fun x hx => hp.len x (List.mem_cons_of_mem _ hx),
         fun x hx y hy => hp.free x (List.mem_cons_of_mem _ hx) y (List.mem_cons_of_mem _ hy), hnd.2⟩
        (by
          intro x hx segs' y hy
          rw [g3] at hy
          have hxm : x ∈ (segsOf p, (t, i)) :: schedsOf es := List.mem_cons_of_mem _ hx
          have hxne : x.1 ≠ segsOf p := fun h => hnd.1 (List.mem_map.2 ⟨x, hx, h⟩)
          split at hy
          · rename_i he
            subst he
            exact ⟨fun h => hxne (hp.free x hxm _ (List.mem_cons_self ..) h),
              fun h => hxne (hp.free _ (List.mem_cons_self ..) x hxm h).symm⟩
          · exact hfree x hxm segs' y hy)
      refine ⟨top', by simp [regAll, g1, h1, bind, Except.bind], h2, ?_⟩
      intro segs x
      rw [h3, g3]
      simp only [List.mem_cons, Prod.mk.injEq]
      by_cases he : segs = segsOf p
      · subst he
        simp only [if_pos, true_and, Option.some.injEq]
        constructor
        · rintro (h | h)
          · exact Or.inl (Or.inr h)
          · exact Or.inl (Or.inl h.symm)
        · rintro ((h | h) | h)
          · exact Or.inr h.symm
          · exact Or.inl h
          · exact absurd h (by
              intro h
              have := hfree _ (List.mem_cons_self ..) _ _ h
              exact this.1 (List.prefix_refl _))
      · simp [he]

/-! ## applying the schedules of a restored config -/

theorem Reg.at_cons (r : Option Reg) (k : String) (segs : List String) : Reg.at r (k :: segs) = Reg.at (Reg.child r k) segs := by
  match r with
  | some (.node es) => rfl
  | some (.sched _ _ _) => simp [Reg.at, Reg.child, Reg.at_none]
  | none => simp [Reg.at_none, Reg.child]

theorem RegEqv.child {r r' : Option Reg} (h : RegEqv r r') (k : String) : RegEqv (Reg.child r k) (Reg.child r' k) := by
  intro segs
  rw [← Reg.at_cons, ← Reg.at_cons]
  exact h _

theorem Current.child {sv r n kvs} (h : Current sv r (.inst n kvs)) {k : String} {v : Val} (hk : dget kvs k = some v) :
    Current sv (Reg.child r k) v := by
  intro segs txt i ha
  rw [← Reg.at_cons] at ha
  obtain ⟨x, h1, h2⟩ := h _ _ _ ha
  refine ⟨x, h1, ?_⟩
  simpa [valAt, hk] using h2

/-- what applying the registry `r'` to `v'` should do -/
def ApplyTo (sv : String → Except Err Flt) (r' : Option Reg) (v' v : Val) : Prop :=
  match r' with
  | none => v' = v
  | some (.sched txt i _) => schedVal sv txt i = .ok v
  | some (.node es) => applyRegD sv es v' = .ok v

theorem ext_kvs : ∀ (a b : List (String × Val)), (dkeys a).Nodup → dkeys a = dkeys b → (∀ k, dget a k = dget b k) → a = b := by
  intro a
  induction a with
  | nil => intro b _ hk _; cases b <;> simp_all [dkeys]
  | cons x a ih =>
    intro b hn hk hg
    cases b with
    | nil => simp [dkeys] at hk
    | cons y b =>
      obtain ⟨kx, vx⟩ := x
      obtain ⟨ky, vy⟩ := y
      simp only [dkeys, List.map_cons, List.cons.injEq, List.nodup_cons] at hk hn
      obtain ⟨rfl, hk⟩ := hk
      have h0 := hg kx
      simp [dget] at h0
      subst h0
      congr 1
      apply ih b hn.2 hk
      intro k
      by_cases hkk : k = kx
      · subst hkk
        rw [(dget_eq_none_iff a k).2 hn.1, (dget_eq_none_iff b k).2 (by simp only [dkeys]; rw [← hk]; exact hn.1)]
      · have := hg k
        simpa [dget, Ne.symm hkk] using this

theorem dkeys_restored (e : Ext) : ∀ (fs : List Fld) (r : Option Reg) (path : String)
    (kvs kvs' bs : List (String × Val)) (es : List Ev), RestoredFs e fs r path kvs kvs' bs es →
    dkeys kvs = fs.map Fld.name ∧ dkeys kvs' = fs.map Fld.name
  | [], _, _, kvs, kvs', bs, es, h => by
    simp only [RestoredFs] at h
    obtain ⟨rfl, rfl, rfl, rfl⟩ := h
    exact ⟨rfl, rfl⟩
  | f :: fs, r, path, kvs, kvs', bs, es, h => by
    simp only [RestoredFs] at h
    obtain ⟨v, v', bs1, es1, rest, rest', bs2, es2, h1, h2, rfl, rfl, rfl, rfl⟩ := h
    obtain ⟨q1, q2⟩ := dkeys_restored e fs r path rest rest' bs2 es2 h2
    simp only [dkeys] at q1 q2
    exact ⟨by simp [dkeys, q1], by simp [dkeys, q2]⟩

/-- well-formedness of an optional registry entry -/
def WF? (r : Option Reg) : Prop := match r with
  | none => True
  | some (.sched _ _ _) => True
  | some (.node es) => (dkeys es).Nodup ∧ RegWFD es

theorem WF?.child {r : Option Reg} (h : WF? r) (k : String) : WF? (Reg.child r k) := by
  match r, h with
  | none, _ => trivial
  | some (.sched _ _ _), _ => trivial
  | some (.node es), h =>
    simp only [Reg.child]
    cases hd : dget es k with
    | none => trivial
    | some r =>
      have := h.2.mem (dget_mem hd)
      cases r with
      | sched => trivial
      | node es' => simp only [Reg.WF] at this; exact this.2

/-- no blobs: what is restored lazily is not restored by applying schedules -/
theorem applyTo_plain {sv r' v} (h : RegEqv none r') (hw : WF? r') (hne : ∀ es, r' = some (.node es) → es ≠ []) :
    ApplyTo sv r' v v := by
  match r', h, hw, hne with
  | none, _, _, _ => rfl
  | some (.sched t i a), h, _, _ => exact absurd (h []) (by simp [Reg.at])
  | some (.node es), h, hw, hne =>
    obtain ⟨segs, x, hx⟩ := Reg.WF.nonempty (.node es) "" (by simp only [Reg.WF]; exact ⟨hne es rfl, hw⟩)
    have := h segs
    rw [hx, Reg.at_none] at this
    cases this

mutual
theorem apply_restored (e : Ext) (sv : String → Except Err Flt) : ∀ (t : PyTy) (r r' : Option Reg) (path : String)
    (v v' : Val) (es : List Ev), Restored e t r path v v' [] es → Current sv r v → RegEqv r r' → WF? r' →
    (∀ es, r' = some (.node es) → isData t = false → es ≠ []) → ApplyTo sv r' v' v
  | .int, r, r', path, v, v', es, h, hcur, heq, hw, hne => by
    simp only [Restored] at h
    obtain ⟨hv, _, ⟨rfl, rfl, rfl⟩ | ⟨txt, a, f, i, rfl, htxt, hf, hi, rfl, rfl⟩⟩ := h
    · exact applyTo_plain heq hw (fun es h => hne es h rfl)
    · have h0 := heq []
      obtain ⟨x, h1, h2⟩ := hcur [] txt true rfl
      rw [← schedVal_iff] at h1
      simp only [valAt, Option.some.injEq] at h2
      subst h2
      match r', h0 with
      | some (.sched t' i' a'), h0 =>
        simp [Reg.at] at h0
        obtain ⟨rfl, rfl⟩ := h0
        exact h1
      | some (.node _), h0 => simp [Reg.at] at h0
      | none, h0 => simp [Reg.at] at h0
  | .float, r, r', path, v, v', es, h, hcur, heq, hw, hne => by
    simp only [Restored] at h
    obtain ⟨hv, _, ⟨rfl, rfl, rfl⟩ | ⟨txt, a, f, rfl, htxt, hf, rfl, rfl⟩⟩ := h
    · exact applyTo_plain heq hw (fun es h => hne es h rfl)
    · have h0 := heq []
      obtain ⟨x, h1, h2⟩ := hcur [] txt false rfl
      rw [← schedVal_iff] at h1
      simp only [valAt, Option.some.injEq] at h2
      subst h2
      match r', h0 with
      | some (.sched t' i' a'), h0 =>
        simp [Reg.at] at h0
        obtain ⟨rfl, rfl⟩ := h0
        exact h1
      | some (.node _), h0 => simp [Reg.at] at h0
      | none, h0 => simp [Reg.at] at h0
  | .str, r, r', path, v, v', es, h, hcur, heq, hw, hne => by
    simp only [Restored] at h
    obtain ⟨rfl, _, _, rfl, _, rfl⟩ := h; exact applyTo_plain heq hw (fun es h => hne es h rfl)
  | .bool, r, r', path, v, v', es, h, hcur, heq, hw, hne => by
    simp only [Restored] at h
    obtain ⟨rfl, _, _, rfl, _, rfl⟩ := h; exact applyTo_plain heq hw (fun es h => hne es h rfl)
  | .noneT, r, r', path, v, v', es, h, hcur, heq, hw, hne => by
    simp only [Restored] at h
    obtain ⟨rfl, _, _, rfl, _, rfl⟩ := h; exact applyTo_plain heq hw (fun es h => hne es h rfl)
  | .list _, r, r', path, v, v', es, h, hcur, heq, hw, hne => by
    simp only [Restored] at h
    obtain ⟨rfl, _, _, rfl, _, rfl⟩ := h; exact applyTo_plain heq hw (fun es h => hne es h rfl)
  | .tuple _, r, r', path, v, v', es, h, hcur, heq, hw, hne => by
    simp only [Restored] at h
    obtain ⟨rfl, _, _, rfl, _, rfl⟩ := h; exact applyTo_plain heq hw (fun es h => hne es h rfl)
  | .dict _ _, r, r', path, v, v', es, h, hcur, heq, hw, hne => by
    simp only [Restored] at h
    obtain ⟨rfl, _, _, rfl, _, rfl⟩ := h; exact applyTo_plain heq hw (fun es h => hne es h rfl)
  | .enum _ _, r, r', path, v, v', es, h, hcur, heq, hw, hne => by
    simp only [Restored] at h
    obtain ⟨rfl, _, _, rfl, _, rfl⟩ := h; exact applyTo_plain heq hw (fun es h => hne es h rfl)
  | .literal _, r, r', path, v, v', es, h, hcur, heq, hw, hne => by
    simp only [Restored] at h
    obtain ⟨rfl, _, _, rfl, _, rfl⟩ := h; exact applyTo_plain heq hw (fun es h => hne es h rfl)
  | .blob n, r, r', path, v, v', es, h, hcur, heq, hw, hne => by
    simp only [Restored] at h
    obtain ⟨rfl, x, rfl, rfl, h, rfl⟩ := h
    cases h
  | .union as, r, r', path, v, v', es, h, hcur, heq, hw, hne => by
    simp only [Restored] at h
    rcases h with ⟨rfl, _, _, rfl, _, rfl⟩ | ⟨_, rfl, rfl, rfl, _, rfl⟩ | ⟨hopt, h⟩
    · exact applyTo_plain heq hw (fun es h => hne es h rfl)
    · exact applyTo_plain heq hw (fun es h => hne es h rfl)
    · exact apply_restoredH e sv as r r' path v v' es h hcur heq hw (fun es h => hne es h rfl)
  | .data n fs ver, r, r', path, v, v', es, h, hcur, heq, hw, hne => by
    simp only [Restored] at h
    obtain ⟨hcl, hr, hch, kvs, kvs', rfl, rfl, hfs⟩ := h
    obtain ⟨hk, hk'⟩ := dkeys_restored e fs r path kvs kvs' [] es hfs
    have hnd : (dkeys kvs).Nodup := by rw [hk]; exact hcl.1
    have hall := apply_restoredF e sv fs r r' path kvs kvs' es hfs
      (fun f v hm => hcur.child (dget_of_mem hnd hm)) heq hw
      (by
        intro f es' h
        match r', h, hw with
        | some (.node es0), h, hw =>
          simp only [Reg.child] at h
          have := hw.2.mem (dget_mem h)
          simp only [Reg.WF] at this
          exact this.1)
    -- fieldwise
    have hfield : ∀ k v0, dget kvs k = some v0 → ∃ v1, dget kvs' k = some v1 ∧ ApplyTo sv (Reg.child r' k) v1 v0 := by
      intro k v0 hg
      exact hall hcl.1 k v0 hg
    match r', heq, hw, hfield with
    | none, heq, hw, hfield =>
      simp only [ApplyTo]
      congr 1
      apply ext_kvs _ _ (by rw [hk']; exact hcl.1) (by rw [hk, hk'])
      intro k
      cases hg : dget kvs k with
      | some v0 =>
        obtain ⟨v1, h1, h2⟩ := hfield k v0 hg
        simp only [Reg.child, ApplyTo] at h2
        rw [h1, h2]
      | none =>
        rw [dget_eq_none_iff] at hg ⊢
        rw [hk'] ; rw [hk] at hg; exact hg
    | some (.sched t i a), heq, _, _ =>
      have := heq []
      match r, hr, this with
      | none, _, h => simp [Reg.at] at h
      | some (.node _), _, h => simp [Reg.at] at h
    | some (.node es'), heq, hw, hfield =>
      simp only [ApplyTo]
      have hkey : ∀ k r0, (k, r0) ∈ es' → ∃ v0, dget kvs k = some v0 := by
        intro k r0 hm
        obtain ⟨segs, x, hx⟩ := Reg.WF.nonempty r0 k (hw.2.mem hm)
        have hd := dget_of_mem hw.1 hm
        have h1 := heq (k :: segs)
        rw [show Reg.at (some (Reg.node es')) (k :: segs) = some x from by simp [Reg.at, hd, hx], Reg.at_cons] at h1
        have hkf : k ∈ fs.map Fld.name := by
          refine Classical.byContradiction fun hc => ?_
          rw [hch k hc, Reg.at_none] at h1
          cases h1
        rw [← hk] at hkf
        cases hg : dget kvs k with
        | some v0 => exact ⟨v0, rfl⟩
        | none => exact absurd hkf ((dget_eq_none_iff _ _).1 hg)
      obtain ⟨kvs1, a1, a2, a3⟩ := applyRegD_spec sv (fun k => (dget kvs k).getD .none) es' n kvs' hw.1 (by
        intro k r0 hm
        obtain ⟨v0, hv0⟩ := hkey k r0 hm
        obtain ⟨v1, h1, h2⟩ := hfield k v0 hv0
        have hd := dget_of_mem hw.1 hm
        refine ⟨v1, h1, ?_⟩
        simp only [Reg.child, hd, ApplyTo] at h2
        simp only [hv0, Option.getD_some]
        cases r0 with
        | sched t i a =>
          have := hw.2.mem hm
          simp only [Reg.WF] at this
          exact ⟨this, h2⟩
        | node es0 => exact h2)
      rw [a1]
      congr 2
      apply ext_kvs _ _ (by rw [a2, hk']; exact hcl.1) (by rw [a2, hk, hk'])
      intro k
      rw [a3]
      split
      · rename_i hm
        obtain ⟨kr, hkr, rfl⟩ := List.mem_map.1 hm
        obtain ⟨v0, hv0⟩ := hkey kr.1 kr.2 hkr
        simp [hv0]
      · rename_i hm
        have hd := (dget_eq_none_iff es' k).2 hm
        cases hg : dget kvs k with
        | some v0 =>
          obtain ⟨v1, h1, h2⟩ := hfield k v0 hg
          simp only [Reg.child, hd, ApplyTo] at h2
          rw [h1, h2]
        | none =>
          rw [dget_eq_none_iff] at hg ⊢
          rw [hk'] ; rw [hk] at hg; exact hg
theorem apply_restoredH (e : Ext) (sv : String → Except Err Flt) : ∀ (ts : List PyTy) (r r' : Option Reg) (path : String)
    (v v' : Val) (es : List Ev), RestoredHead e ts r path v v' [] es → Current sv r v → RegEqv r r' → WF? r' →
    (∀ es, r' = some (.node es) → es ≠ []) → ApplyTo sv r' v' v
  | [], _, _, _, _, _, _, h, _, _, _, _ => by simp [RestoredHead] at h
  | t :: ts, r, r', path, v, v', es, h, hcur, heq, hw, hne => by
    simp only [RestoredHead] at h
    exact apply_restored e sv t r r' path v v' es h hcur heq hw (fun es h _ => hne es h)
theorem apply_restoredF (e : Ext) (sv : String → Except Err Flt) : ∀ (fs : List Fld) (r r' : Option Reg) (path : String)
    (kvs kvs' : List (String × Val)) (es : List Ev), RestoredFs e fs r path kvs kvs' [] es →
    (∀ k v, (k, v) ∈ kvs → Current sv (Reg.child r k) v) → RegEqv r r' → WF? r' →
    (∀ k es, Reg.child r' k = some (.node es) → es ≠ []) → (fs.map Fld.name).Nodup →
    ∀ k v0, dget kvs k = some v0 → ∃ v1, dget kvs' k = some v1 ∧ ApplyTo sv (Reg.child r' k) v1 v0
  | [], r, r', path, kvs, kvs', es, h, _, _, _, _, _ => by
    simp only [RestoredFs] at h
    obtain ⟨rfl, rfl, _, rfl⟩ := h
    simp
  | .mk n t d :: fs, r, r', path, kvs, kvs', es, h, hcur, heq, hw, hne, hn => by
    simp only [RestoredFs, RestoredF] at h
    obtain ⟨v, v', bs1, es1, rest, rest', bs2, es2, h1, h2, rfl, rfl, hbs, rfl⟩ := h
    have hb : bs1 = [] ∧ bs2 = [] := by simpa using hbs.symm
    obtain ⟨rfl, rfl⟩ := hb
    simp only [List.map_cons, List.nodup_cons] at hn
    have ih1 := apply_restored e sv t _ _ _ v v' es1 h1 (hcur n v (by simp [Fld.name])) (heq.child n) (hw.child n)
      (fun es h _ => hne n es h)
    have ih2 := apply_restoredF e sv fs r r' path rest rest' es2 h2 (fun k v hm => hcur k v (List.mem_cons_of_mem _ hm)) heq hw hne hn.2
    intro k v0 hg
    have hname : (Fld.mk n t d).name = n := rfl
    rw [hname] at hg ⊢
    simp only [dget] at hg ⊢
    by_cases hk : n = k
    · subst hk
      rw [if_pos rfl] at hg ⊢
      cases hg
      exact ⟨v', rfl, ih1⟩
    · rw [if_neg hk] at hg ⊢
      exact ih2 k v0 hg
end

end HS
