import Verif.Model.ManagerExc
import Verif.Proofs.ConfigHist
/-!
# The two models of a StateManager agree; what stays after an exception
-/
namespace HS

set_option linter.unusedSimpArgs false

theorem Call.bind_eq {α β : Type} (x : Call α) (f : α → Call β) (m : Mgr) :
    (x >>= f) m = match x m with
      | (.ok a, m) => f a m
      | (.error e, m) => (.error e, m) := rfl
theorem Call.pure_eq {α : Type} (a : α) (m : Mgr) : (pure a : Call α) m = (.ok a, m) := rfl
theorem Call.lift_eq {α : Type} (x : Except Err α) (m : Mgr) : Call.lift x m = (x, m) := rfl
theorem Call.self_eq (m : Mgr) : Call.self m = (.ok m, m) := rfl
theorem Call.modify_eq (f : Mgr → Mgr) (m : Mgr) : Call.modify f m = (.ok (), f m) := rfl
theorem Except.bind_eq' {α β : Type} (x : Except Err α) (f : α → Except Err β) :
    (x >>= f) = match x with
      | .error e => .error e
      | .ok a => f a := by cases x <;> rfl
theorem Call.ite_eq {α : Type} (b : Bool) (x y : Call α) (m : Mgr) : Call.ite b x y m = if b then x m else y m := rfl

/-- the outcome of a call in the two models -/
def Agrees {α : Type} (x : Except Err (α × Mgr)) (y : Except Err α × Mgr) : Prop :=
  match x with
  | .ok (a, m) => y = (.ok a, m)
  | .error e => y.1 = .error e

theorem Agrees.ok {α : Type} {x : Except Err (α × Mgr)} {y : Except Err α × Mgr} (h : Agrees x y) {a : α} {m : Mgr}
    (hx : x = .ok (a, m)) : y = (.ok a, m) := by subst hx; exact h

theorem Agrees.err {α : Type} {x : Except Err (α × Mgr)} {y : Except Err α × Mgr} (h : Agrees x y) {e : Err}
    (hx : x = .error e) : ∃ m, y = (.error e, m) := by
  subst hx
  exact ⟨y.2, Prod.ext h rfl⟩

/-- one after the other -/
theorem Agrees.bind {α β : Type} {x : Except Err (α × Mgr)} {y : Call α} {m : Mgr} {f : α × Mgr → Except Err (β × Mgr)}
    {g : α → Call β} (h : Agrees x (y m)) (hf : ∀ a m', x = .ok (a, m') → Agrees (f (a, m')) (g a m')) :
    Agrees (x >>= f) ((y >>= g) m) := by
  rw [Call.bind_eq]
  cases x with
  | error e =>
    obtain ⟨m', hm⟩ := h.err rfl
    rw [hm]
    exact rfl
  | ok q =>
    obtain ⟨a, m'⟩ := q
    rw [h.ok rfl]
    exact hf a m' rfl

/-- something that does not change the manager first -/
theorem Agrees.lift {α β : Type} {x : Except Err α} {m : Mgr} {f : α → Except Err (β × Mgr)} {g : α → Call β}
    (hf : ∀ a, x = .ok a → Agrees (f a) (g a m)) : Agrees (x >>= f) ((Call.lift x >>= g) m) := by
  rw [Call.bind_eq, Call.lift_eq]
  cases x with
  | error e => exact rfl
  | ok a => exact hf a rfl

/-! ## applying schedules -/

theorem setAttr_inst {name : String} {x cfg cfg' : Val} (h : setAttr name x cfg = .ok cfg') :
    ∃ n kvs, cfg = .inst n kvs ∧ cfg' = .inst n (dset kvs name x) := by
  cases cfg <;> simp [setAttr] at h
  exact ⟨_, _, rfl, h.symm⟩

theorem getAttr_inst {name : String} {x cfg : Val} (h : getAttr name cfg = .ok x) :
    ∃ n kvs, cfg = .inst n kvs ∧ dget kvs name = some x := by
  cases cfg with
  | inst n kvs =>
    simp only [getAttr] at h
    split at h
    · rename_i v hv
      simp only [Except.ok.injEq] at h
      exact ⟨n, kvs, rfl, by rw [hv, h]⟩
    · exact (nomatch h)
  | _ => simp [getAttr] at h

mutual
theorem applyReg_agree (sv : String → Except Err Flt) : ∀ (r : Reg) (name : String) (cfg : Val),
    applyReg sv r name cfg = ((applyRegX sv r name cfg).1.map fun _ => (applyRegX sv r name cfg).2)
  | .sched txt isInt attr, name, cfg => by
    simp only [applyReg, applyRegX, bind, Except.bind]
    cases schedVal sv txt isInt with
    | error e => rfl
    | ok x =>
      simp only
      cases setAttr attr x cfg <;> rfl
  | .node es, name, cfg => by
    simp only [applyReg, applyRegX, bind, Except.bind]
    cases hg : getAttr name cfg with
    | error e => rfl
    | ok c =>
      obtain ⟨n, kvs, rfl, _⟩ := getAttr_inst hg
      simp only [applyRegD_agree sv es c, setAttr]
      cases (applyRegDX sv es c).1 <;> rfl
termination_by structural x => x
theorem applyRegD_agree (sv : String → Except Err Flt) : ∀ (es : RegD) (cfg : Val),
    applyRegD sv es cfg = ((applyRegDX sv es cfg).1.map fun _ => (applyRegDX sv es cfg).2)
  | [], cfg => rfl
  | e :: es, cfg => by
    simp only [applyRegD, applyRegDX, bind, Except.bind, applyRegE_agree sv e cfg]
    cases hr : (applyRegEX sv e cfg).1 with
    | error e => rfl
    | ok u =>
      simp only [Except.map]
      exact applyRegD_agree sv es _
termination_by structural x => x
theorem applyRegE_agree (sv : String → Except Err Flt) : ∀ (e : String × Reg) (cfg : Val),
    applyRegE sv e cfg = ((applyRegEX sv e cfg).1.map fun _ => (applyRegEX sv e cfg).2)
  | (name, r), cfg => by
    simp only [applyRegE, applyRegEX]
    exact applyReg_agree sv r name cfg
termination_by structural x => x
end

/-! ## the calls -/

theorem configX_agree (E : MgrEnv) (m : Mgr) : Agrees (m.readConfig E) (configX E m) := by
  simp only [Mgr.readConfig, configX]
  cases m.config with
  | some c => exact rfl
  | none =>
    simp only [bind, Except.bind]
    cases m.loadConfig E <;> exact rfl

/-- the same for `_load_state`, which also returns where the state came from -/
theorem loadStateX_agree (E : MgrEnv) (m : Mgr) :
    Agrees ((m.loadState E).map fun q => ((q.1, q.2.1), q.2.2)) (loadStateX E m) := by
  simp only [Mgr.loadState, loadStateX, Call.bind_eq, Call.self_eq]
  have hc := configX_agree E m
  have hk : ∀ c m1, m.readConfig E = .ok (c, m1) → m1.disk = m.disk := by
    intro c m1 h
    rcases readConfig_inv h with ⟨_, rfl⟩ | ⟨_, l, _, _, rfl⟩ <;> rfl
  cases hl : m.last with
  | some n =>
    simp only [bind, Except.bind]
    cases hr : m.readConfig E with
    | error e =>
      obtain ⟨m', hm⟩ := hc.err hr
      (try rw [Call.bind_eq]); rw [hm]
      exact rfl
    | ok q =>
      obtain ⟨c, m1⟩ := q
      (try rw [Call.bind_eq]); rw [hc.ok hr]
      simp only [Call.bind_eq, Call.lift_eq, hk c m1 hr]
      cases ckptFiles m.disk n with
      | error e => exact rfl
      | ok f =>
        simp only
        cases loadStateObj E f.state <;> exact rfl
  | none =>
    simp only
    cases E.init with
    | dir f =>
      simp only [bind, Except.bind]
      cases hr : m.readConfig E with
      | error e =>
        obtain ⟨m', hm⟩ := hc.err hr
        (try rw [Call.bind_eq]); rw [hm]
        exact rfl
      | ok q =>
        obtain ⟨c, m1⟩ := q
        (try rw [Call.bind_eq]); rw [hc.ok hr]
        simp only [Call.bind_eq, Call.lift_eq]
        cases loadStateObj E f.state <;> exact rfl
    | absent =>
      simp only [bind, Except.bind]
      cases hr : m.readConfig E with
      | error e =>
        obtain ⟨m', hm⟩ := hc.err hr
        (try rw [Call.bind_eq]); rw [hm]
        exact rfl
      | ok q =>
        obtain ⟨c, m1⟩ := q
        (try rw [Call.bind_eq]); rw [hc.ok hr]
        simp only [Call.bind_eq, Call.lift_eq]
        cases E.initial c <;> exact rfl
    | file doc =>
      simp only [bind, Except.bind]
      cases hr : m.readConfig E with
      | error e =>
        obtain ⟨m', hm⟩ := hc.err hr
        (try rw [Call.bind_eq]); rw [hm]
        exact rfl
      | ok q =>
        obtain ⟨c, m1⟩ := q
        (try rw [Call.bind_eq]); rw [hc.ok hr]
        simp only [Call.bind_eq, Call.lift_eq]
        cases E.initial c <;> exact rfl

theorem applyX_agree (E : MgrEnv) (m : Mgr) (o : LObj) :
    Agrees ((m.apply E o).map fun m => ((), m)) (applyX E o m) := by
  simp only [Mgr.apply, applyX, bind, Except.bind]
  have hc := configX_agree E m
  cases hr : m.readConfig E with
  | error e =>
    obtain ⟨m', hm⟩ := hc.err hr
    (try rw [Call.bind_eq]); rw [hm]
    exact rfl
  | ok q =>
    obtain ⟨c, m1⟩ := q
    (try rw [Call.bind_eq]); rw [hc.ok hr]
    simp only [Call.bind_eq, Call.lift_eq, Call.self_eq, Call.modify_eq, applyRegD_agree]
    cases (applyRegDX (E.sv o.attrs) m1.schedules c).1 <;> exact rfl

theorem stateX_agree (E : MgrEnv) (m : Mgr) : Agrees (m.readState E) (stateX E m) := by
  simp only [Mgr.readState, stateX, Call.bind_eq, Call.self_eq]
  cases m.state with
  | some o => exact rfl
  | none =>
    simp only [bind, Except.bind]
    have hc := loadStateX_agree E m
    cases hr : m.loadState E with
    | error e =>
      obtain ⟨m', hm⟩ := hc.err (by rw [hr]; rfl)
      (try rw [Call.bind_eq]); rw [hm]
      exact rfl
    | ok q =>
      obtain ⟨o, src, m1⟩ := q
      (try rw [Call.bind_eq]); rw [hc.ok (by rw [hr]; rfl)]
      simp only [Call.bind_eq, Call.modify_eq]
      have ha := applyX_agree E { m1 with state := some o, src := src } o
      cases hr2 : Mgr.apply E { m1 with state := some o, src := src } o with
      | error e =>
        obtain ⟨m', hm⟩ := ha.err (by rw [hr2]; rfl)
        rw [hm]
        exact rfl
      | ok m2 =>
        rw [ha.ok (by rw [hr2]; rfl)]
        exact rfl

theorem getStateX_agree (E : MgrEnv) (m : Mgr) (k : String) : Agrees (m.getState E k) (getStateX E k m) := by
  simp only [Mgr.getState, getStateX]
  refine (stateX_agree E m).bind ?_
  intro o m1 _
  simp only [Call.bind_eq, Call.self_eq, Call.modify_eq, Call.lift_eq, bind, Except.bind]
  cases (lazyGet (m1.lenv E) E.depth o k).res <;> exact rfl

theorem setStateX_agree (E : MgrEnv) (m : Mgr) (k : String) (v : Val) :
    Agrees ((m.setState E k v).map fun m => ((), m)) (setStateX E k v m) := by
  simp only [Mgr.setState, setStateX, bind, Except.bind]
  have hc := stateX_agree E m
  cases hr : m.readState E with
  | error e =>
    obtain ⟨m', hm⟩ := hc.err hr
    (try rw [Call.bind_eq]); rw [hm]
    exact rfl
  | ok q =>
    obtain ⟨c, m1⟩ := q
    (try rw [Call.bind_eq]); rw [hc.ok hr]
    exact rfl

theorem dumpX_agree (E : MgrEnv) (m : Mgr) (c : Val) (o : LObj) :
    Agrees ((m.dump E c o).map fun q => (q.1, { m with state := some q.2 })) (dumpX E c o m) := by
  simp only [Mgr.dump, dumpX, bind, Except.bind, Call.bind_eq, Call.self_eq, Call.modify_eq, Call.lift_eq]
  cases typedDump E.w.env (some m.schedules) false c with
  | error e => exact rfl
  | ok q =>
    simp only
    cases (readAll (lazyGet (m.lenv E) E.depth) o E.stTy.fieldNames).res with
    | error e => exact rfl
    | ok vs =>
      simp only
      cases typedDump E.w.env .none false (.inst o.cls (E.stTy.fieldNames.zip vs)) <;> exact rfl

theorem checkpointX_agree (E : MgrEnv) (m : Mgr) : Agrees (m.checkpoint E) (checkpointX E m) := by
  simp only [Mgr.checkpoint, checkpointX]
  refine (configX_agree E m).bind ?_
  intro c m1 _
  simp only [Call.bind_eq, Call.self_eq, Call.lift_eq, bind, Except.bind]
  cases typedDump E.w.env (some m1.schedules) false c with
  | error e => exact rfl
  | ok q =>
    simp only
    have hs := stateX_agree E m1
    cases hr : m1.readState E with
    | error e =>
      obtain ⟨m', hm⟩ := hs.err hr
      (try rw [Call.bind_eq]); rw [hm]
      exact rfl
    | ok q2 =>
      obtain ⟨o, m2⟩ := q2
      (try rw [Call.bind_eq]); rw [hs.ok hr]
      simp only [Call.bind_eq, Call.self_eq, Call.modify_eq, Call.lift_eq]
      cases (readAll (lazyGet (m2.lenv E) E.depth) o E.stTy.fieldNames).res with
      | error e => exact rfl
      | ok vs =>
        simp only
        cases typedDump E.w.env .none false (.inst o.cls (E.stTy.fieldNames.zip vs)) <;> exact rfl

theorem configDictX_agree (E : MgrEnv) (m : Mgr) : Agrees (m.configDict E) (configDictX E m) := by
  simp only [Mgr.configDict, configDictX]
  refine (configX_agree E m).bind ?_
  intro c m1 _
  simp only [Call.bind_eq, Call.lift_eq, bind, Except.bind]
  cases asdict (configDictCfg E.w.env) "" c <;> exact rfl

theorem readState_state {E : MgrEnv} {m m1 : Mgr} {o : LObj} (h : m.readState E = .ok (o, m1)) : m1.state = some o := by
  simp only [Mgr.readState] at h
  split at h
  · rename_i hs
    simp only [Except.ok.injEq, Prod.mk.injEq] at h
    rw [← h.2, hs, h.1]
  · simp only [bind, Except.bind] at h
    cases hl : m.loadState E with
    | error e => rw [hl] at h; exact (nomatch h)
    | ok q =>
      rw [hl] at h
      simp only [Mgr.apply, bind, Except.bind] at h
      split at h
      · exact (nomatch h)
      · rename_i m2 h2
        simp only [pure, Except.pure, Except.ok.injEq, Prod.mk.injEq] at h
        split at h2
        · exact (nomatch h2)
        · rename_i q2 hq2
          split at h2
          · exact (nomatch h2)
          · simp only [pure, Except.pure, Except.ok.injEq] at h2
            rw [← h.2, ← h2, ← h.1]
            rcases readConfig_inv (c := q2.1) (m1 := q2.2) hq2 with ⟨_, he⟩ | ⟨_, l, _, _, he⟩ <;> rw [he]

theorem stepX_agree (E : MgrEnv) (mv : Move) (m : Mgr) : Agrees ((m.step E mv).map fun m => ((), m)) (stepX E mv m) := by
  simp only [Mgr.step, stepX, Except.bind_eq']
  have hs := stateX_agree E m
  cases hr : m.readState E with
  | error e =>
    obtain ⟨m', hm⟩ := hs.err hr
    (try rw [Call.bind_eq]); rw [hm]
    exact rfl
  | ok q =>
    obtain ⟨o, m1⟩ := q
    (try rw [Call.bind_eq]); rw [hs.ok hr]
    simp only
    have ha := applyX_agree E m1 o
    cases hr2 : m1.apply E o with
    | error e =>
      obtain ⟨m', hm⟩ := ha.err (by rw [hr2]; rfl)
      (try rw [Call.bind_eq]); rw [hm]
      exact rfl
    | ok m2 =>
      (try rw [Call.bind_eq]); rw [ha.ok (by rw [hr2]; rfl)]
      simp only
      by_cases hck : E.ckpt = true
      · simp only [hck, if_true, Call.ite_eq]
        have hg := getStateX_agree E m2 E.key
        cases hr3 : m2.getState E E.key with
        | error e =>
          obtain ⟨m', hm⟩ := hg.err hr3
          (try rw [Call.bind_eq]); rw [hm]
          exact rfl
        | ok q3 =>
          obtain ⟨kv, m3⟩ := q3
          (try rw [Call.bind_eq]); rw [hg.ok hr3]
          simp only [Call.bind_eq, Call.lift_eq]
          cases ckptVal kv with
          | error e => exact rfl
          | ok val =>
            simp only
            have hs4 := stateX_agree E m3
            cases hr4 : m3.readState E with
            | error e =>
              obtain ⟨m', hm⟩ := hs4.err hr4
              rw [hm]
              exact rfl
            | ok q4 =>
              obtain ⟨o4, m4⟩ := q4
              rw [hs4.ok hr4]
              simp only
              have hs5 := configX_agree E m4
              cases hr5 : m4.readConfig E with
              | error e =>
                obtain ⟨m', hm⟩ := hs5.err hr5
                rw [hm]
                exact rfl
              | ok q5 =>
                obtain ⟨c, m5⟩ := q5
                rw [hs5.ok hr5]
                simp only [Call.self_eq, Call.ite_eq]
                have hst5 : m5.state = some o4 := by
                  have h4 := readState_state hr4
                  rcases readConfig_inv hr5 with ⟨_, rfl⟩ | ⟨_, l, _, _, rfl⟩ <;> exact h4
                by_cases hd : dhas m5.disk (ckptName E.key val) = true
                · simp only [hd, if_true, pure, Except.pure, stepRun]
                  rw [← hst5]
                  rcases stepOps mv E.key val (⟨.none, .none, []⟩ : Files) m5.disk m5.last with ⟨ops, _ | t⟩ <;> exact rfl
                · simp only [hd, Bool.false_eq_true, if_false]
                  have hs6 := dumpX_agree E m5 c o4
                  cases hr6 : m5.dump E c o4 with
                  | error e =>
                    obtain ⟨m', hm⟩ := hs6.err (by rw [hr6]; rfl)
                    rw [hm]
                    exact rfl
                  | ok q6 =>
                    rw [hs6.ok (by rw [hr6]; rfl)]
                    simp only [stepRun]
                    rcases stepOps mv E.key val q6.1 m5.disk m5.last with ⟨ops, _ | t⟩ <;> exact rfl
      · simp only [hck, Call.ite_eq]
        exact rfl

/-- the two models agree: a call that returns leaves the same manager, a call that raises raises the same exception -/
theorem execX_exec (E : MgrEnv) (m : Mgr) (op : MOp) : Agrees ((m.exec E op).map fun m => ((), m)) (m.execX E op) := by
  have key : ∀ {α : Type} {x : Except Err (α × Mgr)} {y : Call α}, Agrees x (y m) →
      Agrees (((do return (← x).2 : Except Err Mgr)).map fun m => ((), m)) ((do let _ ← y : Call Unit) m) := by
    intro α x y h
    cases hx : x with
    | error e =>
      obtain ⟨m', hm⟩ := h.err hx
      show Agrees _ (match y m with | (.ok a, m) => (.ok (), m) | (.error e, m) => (.error e, m))
      rw [hm]
      exact rfl
    | ok q =>
      show Agrees _ (match y m with | (.ok a, m) => (.ok (), m) | (.error e, m) => (.error e, m))
      rw [h.ok hx]
      exact rfl
  cases op with
  | readConfig => exact key (configX_agree E m)
  | getState k => exact key (getStateX_agree E m k)
  | setState k v => exact setStateX_agree E m k v
  | step mv => exact stepX_agree E mv m
  | configDict => exact key (configDictX_agree E m)
  | checkpoint => exact key (checkpointX_agree E m)

/-! ## what a failing `_apply_schedules` has done -/

/-- what one entry may have done to the attribute it belongs to: nothing, or all or part of its work -/
def TouchedX (sv : String → Except Err Flt) (r : Option Reg) (before after : Option Val) : Prop :=
  after = before ∨
  match r with
  | none => False
  | some (.sched t i _) => ∃ x, schedVal sv t i = .ok x ∧ after = some x
  | some (.node es) => ∃ c, before = some c ∧ after = some (applyRegDX sv es c).2

theorem applyRegDX_inv (sv : String → Except Err Flt) : ∀ (es : RegD) (v : Val), TopOK es →
    (applyRegDX sv es v).2 = v ∨ ∃ n kvs kvs', v = .inst n kvs ∧ (applyRegDX sv es v).2 = .inst n kvs' ∧
      ∀ k, TouchedX sv (dget es k) (dget kvs k) (dget kvs' k) := by
  intro es
  induction es with
  | nil => intro v _; exact .inl rfl
  | cons e es ih =>
    intro v hok
    obtain ⟨k, r⟩ := e
    obtain ⟨hnd, hwf⟩ := hok
    simp only [dkeys, List.map_cons, List.nodup_cons] at hnd
    simp only [RegWF0D, RegWF0E] at hwf
    have hstep : (applyRegX sv r k v).2 = v ∨ ∃ n kvs x, v = .inst n kvs ∧ (applyRegX sv r k v).2 = .inst n (dset kvs k x) ∧
        TouchedX sv (some r) (dget kvs k) (some x) := by
      cases r with
      | sched t i a =>
        simp only [Reg.WF0] at hwf
        simp only [applyRegX]
        cases hx : schedVal sv t i with
        | error e => exact .inl rfl
        | ok x =>
          simp only
          cases hs : setAttr a x v with
          | error e => exact .inl rfl
          | ok w =>
            obtain ⟨n, kvs, rfl, rfl⟩ := setAttr_inst hs
            obtain ⟨rfl, _⟩ := hwf
            exact .inr ⟨n, kvs, x, rfl, rfl, .inr ⟨x, hx, rfl⟩⟩
      | node es' =>
        simp only [applyRegX]
        cases hg : getAttr k v with
        | error e => exact .inl rfl
        | ok c =>
          obtain ⟨n, kvs, rfl, hd⟩ := getAttr_inst hg
          exact .inr ⟨n, kvs, (applyRegDX sv es' c).2, rfl, rfl, .inr ⟨c, hd, rfl⟩⟩
    have hone : ∀ (kvs : List (String × Val)) (x : Val), TouchedX sv (some r) (dget kvs k) (some x) →
        ∀ j, TouchedX sv (dget ((k, r) :: es) j) (dget kvs j) (dget (dset kvs k x) j) := by
      intro kvs x hx j
      by_cases hj : k = j
      · subst hj; simpa [dget] using hx
      · exact .inl (dget_dset_ne _ _ hj)
    simp only [applyRegDX, applyRegEX]
    cases hr : (applyRegX sv r k v).1 with
    | error e =>
      rcases hstep with h | ⟨n, kvs, x, h1, h2, h3⟩
      · exact .inl h
      · exact .inr ⟨n, kvs, _, h1, h2, hone kvs x h3⟩
    | ok u =>
      simp only
      have hnone : dget es k = none := by rw [dget_eq_none_iff]; exact hnd.1
      rcases hstep with h | ⟨n, kvs, x, h1, h2, h3⟩
      · rw [h]
        rcases ih v ⟨hnd.2, hwf.2⟩ with h | ⟨n, kvs, kvs', h1, h2, h3⟩
        · exact .inl h
        · refine .inr ⟨n, kvs, kvs', h1, h2, ?_⟩
          intro j
          by_cases hj : k = j
          · subst hj
            have := h3 k
            rw [hnone] at this
            rcases this with h | h
            · exact .inl h
            · exact h.elim
          · have := h3 j
            simpa [dget, hj] using this
      · rw [h2]
        rcases ih (.inst n (dset kvs k x)) ⟨hnd.2, hwf.2⟩ with h | ⟨n', kvs1, kvs', h4, h5, h6⟩
        · exact .inr ⟨n, kvs, _, h1, h, hone kvs x h3⟩
        · cases h4
          refine .inr ⟨n, kvs, kvs', h1, h5, ?_⟩
          intro j
          have := h6 j
          by_cases hj : k = j
          · subst hj
            rw [hnone, dget_dset_self] at this
            rcases this with h | h
            · rw [h]
              simpa [dget] using h3
            · exact h.elim
          · rw [dget_dset_ne _ _ hj] at this
            simpa [dget, hj] using this

/-- other fields stay as they are -/
theorem applyX_frame (sv : String → Except Err Flt) : ∀ (segs : List String) (es : RegD) (v : Val), TopOK es →
    ∀ x, (∀ n kvs, x ≠ .inst n kvs) → (∀ p y, Reg.at (some (.node es)) p = some y → ¬ p <+: segs) →
    (valAt (applyRegDX sv es v).2 segs = some x ↔ valAt v segs = some x) := by
  intro segs
  induction segs with
  | nil =>
    intro es v hok x hni _
    rcases applyRegDX_inv sv es v hok with h | ⟨n, kvs, kvs', rfl, h2, _⟩
    · rw [h]
    · rw [h2]
      simp only [valAt, Option.some.injEq]
      exact ⟨fun h => absurd h.symm (hni _ _), fun h => absurd h.symm (hni _ _)⟩
  | cons s segs ih =>
    intro es v hok x hni hp
    rcases applyRegDX_inv sv es v hok with h | ⟨n, kvs, kvs', rfl, h2, hall⟩
    · rw [h]
    · rw [h2]
      rcases hall s with h | h
      · simp only [valAt, h]
      · cases hd : dget es s with
        | none => rw [hd] at h; exact h.elim
        | some r =>
          rw [hd] at h
          cases r with
          | sched t j a => exact absurd (hp [s] (t, j) (by simp [Reg.at, hd])) (by simp)
          | node es' =>
            obtain ⟨c, h3, h4⟩ := h
            simp only [valAt, h3, h4]
            refine ih es' c (hok.child hd) x hni ?_
            intro p y hy hpre
            exact hp (s :: p) y (by simpa [Reg.at, hd] using hy) (by simpa using hpre)

/-- a scheduled field is as it was, or holds the value of its schedule -/
theorem applyX_sched (sv : String → Except Err Flt) : ∀ (segs : List String) (es : RegD) (v : Val), TopOK es →
    ∀ txt i, Reg.at (some (.node es)) segs = some (txt, i) →
    valAt (applyRegDX sv es v).2 segs = valAt v segs ∨
      ∃ x, SchedIs sv txt i x ∧ valAt (applyRegDX sv es v).2 segs = some x := by
  intro segs
  induction segs with
  | nil => intro es v _ txt i h; simp [Reg.at] at h
  | cons s segs ih =>
    intro es v hok txt i hat
    rcases applyRegDX_inv sv es v hok with h | ⟨n, kvs, kvs', rfl, h2, hall⟩
    · rw [h]; exact .inl rfl
    · rw [h2]
      rcases hall s with h | h
      · left; simp only [valAt, h]
      · cases hd : dget es s with
        | none => rw [hd] at h; exact h.elim
        | some r =>
          rw [hd] at h
          simp only [Reg.at, hd] at hat
          cases r with
          | sched t j a =>
            obtain ⟨x, h1, h2⟩ := h
            cases segs with
            | nil =>
              simp only [hd, Reg.at, Option.some.injEq, Prod.mk.injEq] at hat
              obtain ⟨rfl, rfl⟩ := hat
              exact .inr ⟨x, schedVal_iff.1 h1, by simp [valAt, h2]⟩
            | cons => simp [Reg.at, hd] at hat
          | node es' =>
            obtain ⟨c, h3, h4⟩ := h
            simp only [valAt, h3, h4]
            exact ih es' c (hok.child hd) txt i hat

/-! ## calls step by step -/

/-- when `P` holds before, `Q` holds after the call returned and `R` after it raised -/
def Trip {α : Type} (P : Mgr → Prop) (x : Call α) (Q : α → Mgr → Prop) (R : Mgr → Prop) : Prop :=
  ∀ m, P m → match x m with
    | (.ok a, m') => Q a m'
    | (.error _, m') => R m'

theorem Trip.bind {α β : Type} {P : Mgr → Prop} {x : Call α} {Q : α → Mgr → Prop} {R : Mgr → Prop} {f : α → Call β}
    {S : β → Mgr → Prop} (h : Trip P x Q R) (hf : ∀ a, Trip (Q a) (f a) S R) : Trip P (x >>= f) S R := by
  intro m hm
  have := h m hm
  rw [Call.bind_eq]
  split at this
  · rename_i a m' he; exact hf a m' this
  · exact this

theorem Trip.weaken {α : Type} {P P' : Mgr → Prop} {x : Call α} {Q Q' : α → Mgr → Prop} {R R' : Mgr → Prop}
    (h : Trip P x Q R) (hp : ∀ m, P' m → P m) (hq : ∀ a m, Q a m → Q' a m) (hr : ∀ m, R m → R' m) : Trip P' x Q' R' := by
  intro m hm
  have := h m (hp m hm)
  split at this
  · rename_i a m' he; exact hq _ _ this
  · rename_i e m' he; exact hr _ this

theorem Trip.pure {α : Type} {P R : Mgr → Prop} {Q : α → Mgr → Prop} {a : α} (h : ∀ m, P m → Q a m) : Trip P (pure a : Call α) Q R :=
  fun m hm => h m hm

theorem Trip.lift {α : Type} {P R : Mgr → Prop} {x : Except Err α} (hR : ∀ m, P m → R m) : Trip P (Call.lift x) (fun _ => P) R := by
  intro m hm
  cases x with
  | ok a => exact hm
  | error e => exact hR m hm

theorem Trip.self {P R : Mgr → Prop} : Trip P Call.self (fun a m => a = m ∧ P m) R := fun _ hm => ⟨rfl, hm⟩

theorem Trip.modify {P R : Mgr → Prop} {Q : Unit → Mgr → Prop} {f : Mgr → Mgr} (h : ∀ m, P m → Q () (f m)) :
    Trip P (Call.modify f) Q R := fun m hm => h m hm

theorem Trip.ite {α : Type} {P : Mgr → Prop} {b : Bool} {x y : Call α} {Q : α → Mgr → Prop} {R : Mgr → Prop}
    (h1 : b = true → Trip P x Q R) (h2 : b = false → Trip P y Q R) : Trip P (Call.ite b x y) Q R := by
  intro m hm
  rw [Call.ite_eq]
  cases b with
  | true => exact h1 rfl m hm
  | false => exact h2 rfl m hm

/-! ## the config after exceptions -/

/-- a property of the config that is kept by applying schedules, also when this fails half-way -/
def KeptX (E : MgrEnv) (P : Loaded → Val → Prop) : Prop :=
  ∀ l c attrs, TopOK l.schedules → P l c → P l (applyRegDX (E.sv attrs) l.schedules c).2

section
variable {E : MgrEnv} {disk : Dir Files} {P : Loaded → Val → Prop}

/-- what holds between the operations of a history -/
def Good (E : MgrEnv) (disk : Dir Files) (P : Loaded → Val → Prop) (m : Mgr) : Prop := MInv m ∧ HInv E disk P m
/-- and the config has been read -/
def GoodC (E : MgrEnv) (disk : Dir Files) (P : Loaded → Val → Prop) (m : Mgr) : Prop :=
  MInv m ∧ HInv E disk P m ∧ m.config.isSome = true

theorem GoodC.good {m : Mgr} (h : GoodC E disk P m) : Good E disk P m := ⟨h.1, h.2.1⟩

/-- assigning to something other than config and schedules -/
theorem GoodC.congr {m m' : Mgr} (h : GoodC E disk P m) (h1 : m'.config = m.config) (h2 : m'.schedules = m.schedules) :
    GoodC E disk P m' := by
  obtain ⟨a, b, c⟩ := h
  obtain ⟨v, hv⟩ := Option.isSome_iff_exists.1 c
  exact ⟨⟨h2 ▸ a.top, fun _ => by rw [h1]; exact c⟩, b.congr hv (by rw [h1]; exact hv) h2, by rw [h1]; exact c⟩

theorem configX_trip (hP : ∀ l : Loaded, ∀ doc, ConfigFrom E disk doc →
      smLoadConfig E.w E.cfgTy doc E.overrides E.ignoreExtra = .ok l → P l l.value) :
    Trip (Good E disk P) (configX E) (fun c m => GoodC E disk P m ∧ m.config = some c) (Good E disk P) := by
  rintro m ⟨hI, hH⟩
  have h := configX_agree E m
  cases hr : m.readConfig E with
  | error e =>
    have : configX E m = (.error e, m) := by
      simp only [Mgr.readConfig] at hr
      simp only [configX]
      split at hr
      · exact (nomatch hr)
      · rename_i hc
        rw [hc]
        simp only
        cases hl : m.loadConfig E with
        | error e' => rw [hl] at hr; simp only [bind, Except.bind, Except.error.injEq] at hr; rw [hr]
        | ok l => rw [hl] at hr; exact (nomatch hr)
    rw [this]
    exact ⟨hI, hH⟩
  | ok q =>
    obtain ⟨c, m1⟩ := q
    rw [h.ok hr]
    obtain ⟨k1, k2, _⟩ := readConfig_keep hI hr
    have k3 := (hH.readConfig hP hr).1
    exact ⟨⟨k1, k3, by rw [k2]; rfl⟩, k2⟩

theorem loadStateX_trip (hP : ∀ l : Loaded, ∀ doc, ConfigFrom E disk doc →
      smLoadConfig E.w E.cfgTy doc E.overrides E.ignoreExtra = .ok l → P l l.value) :
    Trip (Good E disk P) (loadStateX E) (fun _ => GoodC E disk P) (Good E disk P) := by
  refine Trip.self.bind fun m => ?_
  have hc := configX_trip (E := E) (disk := disk) hP
  split
  · refine (hc.weaken (fun m h => h.2) (fun c m h => h.1) (fun m h => h)).bind fun c => ?_
    refine (Trip.lift fun m h => h.good).bind fun f => ?_
    exact (Trip.lift fun m h => h.good).bind fun o => Trip.pure fun m h => h
  · split
    · refine (hc.weaken (fun m h => h.2) (fun c m h => h.1) (fun m h => h)).bind fun c => ?_
      exact (Trip.lift fun m h => h.good).bind fun o => Trip.pure fun m h => h
    · refine (hc.weaken (fun m h => h.2) (fun c m h => h.1) (fun m h => h)).bind fun c => ?_
      exact (Trip.lift fun m h => h.good).bind fun o => Trip.pure fun m h => h

theorem applyX_trip (hP : ∀ l : Loaded, ∀ doc, ConfigFrom E disk doc →
      smLoadConfig E.w E.cfgTy doc E.overrides E.ignoreExtra = .ok l → P l l.value) (hk : KeptX E P) (o : LObj) :
    Trip (Good E disk P) (applyX E o) (fun _ => GoodC E disk P) (Good E disk P) := by
  refine (configX_trip hP).bind fun c => ?_
  refine Trip.self.bind fun m => ?_
  refine (Trip.modify (Q := fun _ => GoodC E disk P) ?_).bind fun _ => (Trip.lift fun m h => h.good)
  rintro m' ⟨rfl, ⟨h1, h2, h3⟩, h4⟩
  obtain ⟨doc, l, a, b, d, e⟩ := h2.loaded h4
  refine ⟨⟨h1.top, fun _ => rfl⟩, .inr ⟨doc, l, _, a, b, d, rfl, ?_⟩, rfl⟩
  rw [d]
  exact hk l c _ (d ▸ h1.top) e

theorem stateX_trip (hP : ∀ l : Loaded, ∀ doc, ConfigFrom E disk doc →
      smLoadConfig E.w E.cfgTy doc E.overrides E.ignoreExtra = .ok l → P l l.value) (hk : KeptX E P) :
    Trip (Good E disk P) (stateX E) (fun _ => GoodC E disk P) (Good E disk P) := by
  refine Trip.self.bind fun m => ?_
  split
  · rename_i o ho
    refine Trip.pure ?_
    rintro m' ⟨rfl, h⟩
    exact ⟨h.1, h.2, h.1.cfg (by rw [ho]; rfl)⟩
  · refine ((loadStateX_trip hP).weaken (fun m h => h.2) (fun _ m h => h) (fun m h => h)).bind fun q => ?_
    refine (Trip.modify (Q := fun _ => Good E disk P) ?_).bind fun _ => ?_
    · intro m h; exact (h.congr (m' := { m with state := some q.1, src := q.2 }) rfl rfl).good
    · exact (applyX_trip hP hk q.1).bind fun _ => Trip.pure fun m h => h

theorem getStateX_trip (hP : ∀ l : Loaded, ∀ doc, ConfigFrom E disk doc →
      smLoadConfig E.w E.cfgTy doc E.overrides E.ignoreExtra = .ok l → P l l.value) (hk : KeptX E P) (k : String) :
    Trip (Good E disk P) (getStateX E k) (fun _ => GoodC E disk P) (Good E disk P) := by
  refine (stateX_trip hP hk).bind fun o => Trip.self.bind fun m => ?_
  refine (Trip.modify (Q := fun _ => GoodC E disk P) ?_).bind fun _ => Trip.lift fun m h => h.good
  rintro m' ⟨_, h⟩
  exact h.congr rfl rfl

theorem setStateX_trip (hP : ∀ l : Loaded, ∀ doc, ConfigFrom E disk doc →
      smLoadConfig E.w E.cfgTy doc E.overrides E.ignoreExtra = .ok l → P l l.value) (hk : KeptX E P) (k : String) (v : Val) :
    Trip (Good E disk P) (setStateX E k v) (fun _ => GoodC E disk P) (Good E disk P) :=
  (stateX_trip hP hk).bind fun _ => Trip.modify fun _ h => h.congr rfl rfl

theorem dumpX_trip (c : Val) (o : LObj) :
    Trip (GoodC E disk P) (dumpX E c o) (fun _ => GoodC E disk P) (Good E disk P) := by
  refine Trip.self.bind fun m => ?_
  refine (Trip.lift fun m h => h.2.good).bind fun q => ?_
  refine (Trip.modify (Q := fun _ => GoodC E disk P) fun m h => h.2.congr rfl rfl).bind fun _ => ?_
  refine (Trip.lift fun m h => h.good).bind fun vs => (Trip.lift fun m h => h.good).bind fun r => Trip.pure fun m h => h

theorem stepX_trip (hP : ∀ l : Loaded, ∀ doc, ConfigFrom E disk doc →
      smLoadConfig E.w E.cfgTy doc E.overrides E.ignoreExtra = .ok l → P l l.value) (hk : KeptX E P) (mv : Move) :
    Trip (Good E disk P) (stepX E mv) (fun _ => GoodC E disk P) (Good E disk P) := by
  refine (stateX_trip hP hk).bind fun o => ?_
  refine ((applyX_trip hP hk o).weaken (fun m h => h.good) (fun _ m h => h) (fun m h => h)).bind fun _ => ?_
  refine Trip.ite (fun _ => ?_) (fun _ => Trip.pure fun m h => h)
  refine ((getStateX_trip hP hk E.key).weaken (fun m h => h.good) (fun _ m h => h) (fun m h => h)).bind fun kv => ?_
  refine (Trip.lift fun m h => h.good).bind fun val => ?_
  refine ((stateX_trip hP hk).weaken (fun m h => h.good) (fun _ m h => h) (fun m h => h)).bind fun o => ?_
  refine ((configX_trip hP).weaken (fun m h => h.good) (fun _ m h => h.1) (fun m h => h)).bind fun c => ?_
  refine Trip.self.bind fun m => ?_
  refine (Trip.ite (Q := fun _ => GoodC E disk P) (fun _ => Trip.pure fun m h => h.2) (fun _ => (dumpX_trip c o).weaken (fun m h => h.2) (fun _ m h => h) (fun m h => h))).bind fun files => ?_
  split
  · exact Trip.modify fun _ h => h.congr rfl rfl
  · exact (Trip.modify (Q := fun _ => GoodC E disk P) fun _ h => h.congr rfl rfl).bind fun _ => Trip.lift fun m h => h.good

theorem checkpointX_trip (hP : ∀ l : Loaded, ∀ doc, ConfigFrom E disk doc →
      smLoadConfig E.w E.cfgTy doc E.overrides E.ignoreExtra = .ok l → P l l.value) (hk : KeptX E P) :
    Trip (Good E disk P) (checkpointX E) (fun _ => GoodC E disk P) (Good E disk P) := by
  refine ((configX_trip hP).weaken (fun m h => h) (fun _ m h => h.1) (fun m h => h)).bind fun c => ?_
  refine Trip.self.bind fun m => ?_
  refine (Trip.lift fun m h => h.2.good).bind fun q => ?_
  refine ((stateX_trip hP hk).weaken (fun m h => h.2.good) (fun _ m h => h) (fun m h => h)).bind fun o => ?_
  refine Trip.self.bind fun m => ?_
  refine (Trip.modify (Q := fun _ => GoodC E disk P) fun m h => h.2.congr rfl rfl).bind fun _ => ?_
  refine (Trip.lift fun m h => h.good).bind fun vs => (Trip.lift fun m h => h.good).bind fun r => Trip.pure fun m h => h

theorem Trip.both {α : Type} {P R : Mgr → Prop} {Q : α → Mgr → Prop} {x : Call α} (h : Trip P x Q R) (hq : ∀ a m, Q a m → R m)
    {m : Mgr} (hm : P m) : R (x m).2 := by
  have := h m hm
  split at this
  · rename_i a m' he; rw [he]; exact hq _ _ this
  · rename_i e m' he; rw [he]; exact this

theorem execX_good (hP : ∀ l : Loaded, ∀ doc, ConfigFrom E disk doc →
      smLoadConfig E.w E.cfgTy doc E.overrides E.ignoreExtra = .ok l → P l l.value) (hk : KeptX E P) {m : Mgr}
    (h : Good E disk P m) (op : MOp) : Good E disk P (m.execX E op).2 := by
  cases op with
  | readConfig => exact ((configX_trip hP).bind fun _ => Trip.pure (Q := fun _ => GoodC E disk P) fun m h => h.1).both (fun _ m h => h.good) h
  | getState k => exact ((getStateX_trip hP hk k).bind fun _ => Trip.pure (Q := fun _ => GoodC E disk P) fun m h => h).both (fun _ m h => h.good) h
  | setState k v => exact (setStateX_trip hP hk k v).both (fun _ m h => h.good) h
  | step mv => exact (stepX_trip hP hk mv).both (fun _ m h => h.good) h
  | configDict =>
    exact (((configX_trip hP).bind fun c => (Trip.lift fun m h => h.1.good).bind fun q =>
      Trip.pure (Q := fun _ => GoodC E disk P) fun m h => h.1).bind fun _ =>
      Trip.pure (Q := fun _ => GoodC E disk P) fun m h => h).both (fun _ m h => h.good) h
  | checkpoint => exact ((checkpointX_trip hP hk).bind fun _ => Trip.pure (Q := fun _ => GoodC E disk P) fun m h => h).both (fun _ m h => h.good) h

theorem runX_good (hP : ∀ l : Loaded, ∀ doc, ConfigFrom E disk doc →
      smLoadConfig E.w E.cfgTy doc E.overrides E.ignoreExtra = .ok l → P l l.value) (hk : KeptX E P) :
    ∀ (ops : List MOp) (m : Mgr), Good E disk P m → Good E disk P (m.runX E ops).2 := by
  intro ops
  induction ops with
  | nil => intro m h; exact h
  | cons op ops ih => intro m h; exact ih _ (execX_good hP hk h op)

/-- what holds of the loaded config and is kept by applying schedules, also when this fails half-way, holds whenever the config is
read -/
theorem config_historyX (hP : ∀ l : Loaded, ∀ doc, ConfigFrom E disk doc →
      smLoadConfig E.w E.cfgTy doc E.overrides E.ignoreExtra = .ok l → P l l.value) (hk : KeptX E P)
    (ops : List MOp) {m1 : Mgr} {c : Val} (hr : ((Mgr.new E disk).runX E ops).2.readConfig E = .ok (c, m1)) :
    ∃ doc l, ConfigFrom E disk doc ∧ smLoadConfig E.w E.cfgTy doc E.overrides E.ignoreExtra = .ok l ∧
      m1.schedules = l.schedules ∧ P l c := by
  have h := runX_good hP hk ops _ ⟨MInv.new E disk, .inl ⟨rfl, rfl, rfl⟩⟩
  obtain ⟨k1, k2⟩ := h.2.readConfig hP hr
  exact k1.loaded k2
end

theorem runX_inv (E : MgrEnv) (disk : Dir Files) (ops : List MOp) : MInv ((Mgr.new E disk).runX E ops).2 :=
  (runX_good (P := fun _ _ => True) (fun _ _ _ _ => trivial) (fun _ _ _ _ _ => trivial) ops _
    ⟨MInv.new E disk, .inl ⟨rfl, rfl, rfl⟩⟩).1

/-! ## what an operation may do to a manager -/

section
variable {E : MgrEnv} {P : Mgr → Prop}

theorem configX_keeps (h : ∀ m v s, P m → m.config = none → P { m with config := some v, schedules := s }) :
    Trip P (configX E) (fun c m => P m ∧ m.config = some c) P := by
  intro m hm
  simp only [configX]
  cases hc : m.config with
  | some c => exact ⟨hm, hc⟩
  | none =>
    simp only
    cases hl : m.loadConfig E with
    | error e => exact hm
    | ok l => exact ⟨h m _ _ hm hc, rfl⟩

theorem applyX_keeps (hc : Trip P (configX E) (fun c m => P m ∧ m.config = some c) P)
    (ha : ∀ m c, P m → m.config.isSome = true → P { m with config := some c }) (o : LObj) :
    Trip P (applyX E o) (fun _ => P) P := by
  refine hc.bind fun c => Trip.self.bind fun m => ?_
  refine (Trip.modify (Q := fun _ => P) ?_).bind fun _ => Trip.lift fun m h => h
  rintro m' ⟨_, h, hs⟩
  exact ha _ _ h (by rw [hs]; rfl)

theorem loadStateX_keeps (hc : Trip P (configX E) (fun c m => P m ∧ m.config = some c) P) :
    Trip P (loadStateX E) (fun _ => P) P := by
  refine Trip.self.bind fun m => ?_
  have hc : Trip (fun m' => m = m' ∧ P m') (configX E) (fun _ => P) P := hc.weaken (fun m h => h.2) (fun c m h => h.1) (fun m h => h)
  split
  · refine hc.bind fun c => (Trip.lift fun m h => h).bind fun f => ?_
    exact (Trip.lift fun m h => h).bind fun o => Trip.pure fun m h => h
  · split
    · exact hc.bind fun c => (Trip.lift fun m h => h).bind fun o => Trip.pure fun m h => h
    · exact hc.bind fun c => (Trip.lift fun m h => h).bind fun o => Trip.pure fun m h => h

theorem stateX_keeps (h : ∀ m v s, P m → m.config = none → P { m with config := some v, schedules := s })
    (ha : ∀ m c, P m → m.config.isSome = true → P { m with config := some c })
    (hn : ∀ m o src, P m → P { m with state := some o, src := src }) :
    Trip P (stateX E) (fun o m => P m ∧ m.state = some o) P := by
  refine Trip.self.bind fun m => ?_
  split
  · rename_i o ho
    refine Trip.pure ?_
    rintro m' ⟨rfl, h⟩
    exact ⟨h, ho⟩
  · refine ((loadStateX_keeps (configX_keeps h)).weaken (fun m h => h.2) (fun _ m h => h) (fun m h => h)).bind fun q => ?_
    refine (Trip.modify (Q := fun _ m => P m ∧ m.state = some q.1) fun m h => ⟨hn m _ _ h, rfl⟩).bind fun _ => ?_
    refine ((applyX_keeps (P := fun m => P m ∧ m.state = some q.1) (configX_keeps fun m v s hm hc => ⟨h m v s hm.1 hc, hm.2⟩)
      (fun m c hm hs => ⟨ha m c hm.1 hs, hm.2⟩) q.1).weaken (fun m h => h) (fun _ m h => h) (fun m h => h.1)).bind fun _ => Trip.pure fun m h => h

/-- a call with a state that has been read -/
theorem stateX_some (hs : ∀ m, P m → m.state.isSome = true) :
    Trip P (stateX E) (fun o m => P m ∧ m.state = some o) P := by
  refine Trip.self.bind fun m => ?_
  split
  · rename_i o ho
    refine Trip.pure ?_
    rintro m' ⟨rfl, h⟩
    exact ⟨h, ho⟩
  · rename_i hn
    rintro m' ⟨rfl, h⟩
    have := hs _ h
    rw [hn] at this
    exact (nomatch this)

/-- `o'` is what is left of `o` when attributes are read until one raises -/
def FromReads (L : LEnv) (depth : Nat) (o o' : LObj) : Prop := ∃ ks, o' = (readAll (lazyGet L depth) o ks).obj

theorem fromReads_get (L : LEnv) (depth : Nat) (o : LObj) (k : String) : FromReads L depth o (lazyGet L depth o k).obj := by
  refine ⟨[k], ?_⟩
  simp only [readAll]
  cases (lazyGet L depth o k).res <;> rfl

theorem getStateX_keeps (hs : Trip P (stateX E) (fun o m => P m ∧ m.state = some o) P)
    (ho : ∀ m o o' r, P m → m.state = some o → LExt o o' r → FromReads (m.lenv E) E.depth o o' → P { m with state := some o' }) (k : String) :
    Trip P (getStateX E k) (fun _ => P) P := by
  refine hs.bind fun o => Trip.self.bind fun m => ?_
  refine (Trip.modify (Q := fun _ => P) ?_).bind fun _ => Trip.lift fun m h => h
  rintro m' ⟨rfl, h, hst⟩
  exact ho _ _ _ _ h hst (lazyGet_ext _ _ _ _) (fromReads_get _ _ _ _)

theorem dumpX_keeps (ho : ∀ m o o' r, P m → m.state = some o → LExt o o' r → FromReads (m.lenv E) E.depth o o' → P { m with state := some o' }) (c : Val) (o : LObj) :
    Trip (fun m => P m ∧ m.state = some o) (dumpX E c o) (fun _ => P) P := by
  refine Trip.self.bind fun m => (Trip.lift fun m h => h.2.1).bind fun q => ?_
  refine (Trip.modify (Q := fun _ => P) ?_).bind fun _ => ?_
  · rintro m' ⟨rfl, h, hst⟩
    exact ho _ _ _ _ h hst (readAll_ext (fun o n => lazyGet_ext _ _ o n) _ _) ⟨_, rfl⟩
  · exact (Trip.lift fun m h => h).bind fun vs => (Trip.lift fun m h => h).bind fun r => Trip.pure fun m h => h

theorem checkpointX_keeps (hc : Trip P (configX E) (fun c m => P m ∧ m.config = some c) P)
    (hs : Trip P (stateX E) (fun o m => P m ∧ m.state = some o) P)
    (ho : ∀ m o o' r, P m → m.state = some o → LExt o o' r → FromReads (m.lenv E) E.depth o o' → P { m with state := some o' }) :
    Trip P (checkpointX E) (fun _ => P) P := by
  refine hc.bind fun c => Trip.self.bind fun m => (Trip.lift fun m h => h.2.1).bind fun q => ?_
  refine (hs.weaken (fun m h => h.2.1) (fun _ m h => h) (fun m h => h)).bind fun o => Trip.self.bind fun m => ?_
  refine (Trip.modify (Q := fun _ => P) ?_).bind fun _ => ?_
  · rintro m' ⟨rfl, h, hst⟩
    exact ho _ _ _ _ h hst (readAll_ext (fun o n => lazyGet_ext _ _ o n) _ _) ⟨_, rfl⟩
  · exact (Trip.lift fun m h => h).bind fun vs => (Trip.lift fun m h => h).bind fun r => Trip.pure fun m h => h

theorem configDictX_keeps (hc : Trip P (configX E) (fun c m => P m ∧ m.config = some c) P) :
    Trip P (configDictX E) (fun _ => P) P :=
  hc.bind fun _ => (Trip.lift fun _ h => h.1).bind fun _ => Trip.pure fun _ h => h.1

/-- everything `step` does before it moves files -/
theorem stepX_keeps {S R : Mgr → Prop} (hS : E.ckpt = false → ∀ m, P m → S m) (hR : ∀ m, P m → R m) (hc : Trip P (configX E) (fun c m => P m ∧ m.config = some c) P)
    (hs : Trip P (stateX E) (fun o m => P m ∧ m.state = some o) P)
    (ha : ∀ m c, P m → m.config.isSome = true → P { m with config := some c })
    (ho : ∀ m o o' r, P m → m.state = some o → LExt o o' r → FromReads (m.lenv E) E.depth o o' → P { m with state := some o' }) (mv : Move)
    {d : Dir Files} {l : Option String} (hdl : ∀ m, P m → m.disk = d ∧ m.last = l)
    (hst1 : ∀ m val files ops t, P m → stepOps mv E.key val files d l = (ops, some t) →
      S { m with disk := runOps d ops, last := some t })
    (hst2 : ∀ m val files ops, P m → stepOps mv E.key val files d l = (ops, none) → R { m with disk := runOps d ops }) :
    Trip P (stepX E mv) (fun _ => S) R := by
  refine (hs.weaken (fun m h => h) (fun _ m h => h.1) hR).bind fun o => ?_
  refine ((applyX_keeps hc ha o).weaken (fun m h => h) (fun _ m h => h) hR).bind fun _ => ?_
  refine Trip.ite (fun _ => ?_) (fun hck => Trip.pure (hS hck))
  refine ((getStateX_keeps hs ho E.key).weaken (fun m h => h) (fun _ m h => h) hR).bind fun kv => ?_
  refine (Trip.lift hR).bind fun val => ?_
  refine (hs.weaken (fun m h => h) (fun _ m h => h) hR).bind fun o => ?_
  have hc' : Trip (fun m => P m ∧ m.state = some o) (configX E) (fun _ m => P m ∧ m.state = some o) R := by
    intro m hm
    have := hc m hm.1
    have hst : (configX E m).2.state = m.state := by
      simp only [configX]
      split
      · rfl
      · split <;> rfl
    split at this
    · rename_i c m' he
      rw [he] at hst
      exact ⟨this.1, hst.trans hm.2⟩
    · exact hR _ this
  refine hc'.bind fun c => Trip.self.bind fun m => ?_
  refine (Trip.ite (Q := fun _ m' => P m' ∧ m.disk = d ∧ m.last = l) (fun _ => Trip.pure ?_) (fun _ => ?_)).bind fun files => ?_
  · rintro m' ⟨rfl, h, _⟩; exact ⟨h, hdl _ h⟩
  · intro m' hm'
    obtain ⟨rfl, h⟩ := hm'
    have := dumpX_keeps (E := E) ho c o m h
    split at this
    · exact ⟨this, hdl _ h.1⟩
    · exact hR _ this
  split
  · rename_i ops t he
    refine Trip.modify ?_
    rintro m' ⟨h, h1, h2⟩
    have hh := hdl _ h
    have := hst1 m' val files ops t h (by rw [← h1, ← h2]; exact he)
    rw [← hh.1] at this
    exact this
  · rename_i ops he
    refine (Trip.modify (Q := fun _ => R) ?_).bind fun _ => (fun m h => h)
    rintro m' ⟨h, h1, h2⟩
    have hh := hdl _ h
    have := hst2 m' val files ops h (by rw [← h1, ← h2]; exact he)
    rw [← hh.1] at this
    exact this
end

end HS
