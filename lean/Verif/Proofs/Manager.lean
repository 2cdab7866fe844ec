import Verif.Proofs.RestoreLoad
import Verif.Proofs.Lazy
import Verif.Model.Manager
/-!
# Lemmas about `StateManager`
-/
namespace HS

/-! ## what `_apply_schedules` does -/

mutual
/-- registries as `ScheduleDeserializer` builds them: distinct keys, a schedule is stored under the name of the attribute it
updates -/
def Reg.WF0 : Reg → String → Prop
  | .sched _ _ a, k => a = k
  | .node es, _ => (dkeys es).Nodup ∧ RegWF0D es
termination_by structural x => x
def RegWF0D : List (String × Reg) → Prop
  | [] => True
  | e :: es => RegWF0E e ∧ RegWF0D es
termination_by structural x => x
def RegWF0E : String × Reg → Prop
  | (k, r) => r.WF0 k
termination_by structural x => x
end

theorem RegWF0D_iff {es : List (String × Reg)} : RegWF0D es ↔ ∀ k r, (k, r) ∈ es → r.WF0 k := by
  induction es with
  | nil => simp [RegWF0D]
  | cons e es ih =>
    obtain ⟨k, r⟩ := e
    simp only [RegWF0D, RegWF0E, ih, List.mem_cons, Prod.mk.injEq]
    constructor
    · rintro ⟨h1, h2⟩ k' r' (⟨rfl, rfl⟩ | h)
      · exact h1
      · exact h2 k' r' h
    · intro h
      exact ⟨h k r (.inl ⟨rfl, rfl⟩), fun k' r' h' => h k' r' (.inr h')⟩

/-- a registry dict -/
def TopOK (es : RegD) : Prop := (dkeys es).Nodup ∧ RegWF0D es

/-- what applying one entry does to the attribute it belongs to -/
def Applied (sv : String → Except Err Flt) (r : Option Reg) (before after : Option Val) : Prop :=
  match r with
  | none => after = before
  | some (.sched t i _) => ∃ x, schedVal sv t i = .ok x ∧ after = some x
  | some (.node es) => ∃ c c', before = some c ∧ applyRegD sv es c = .ok c' ∧ after = some c'

theorem applyRegD_inv (sv : String → Except Err Flt) : ∀ (es : RegD) (v v' : Val), TopOK es → applyRegD sv es v = .ok v' →
    (es = [] ∧ v' = v) ∨ ∃ n kvs kvs', v = .inst n kvs ∧ v' = .inst n kvs' ∧
      ∀ k, Applied sv (dget es k) (dget kvs k) (dget kvs' k) := by
  intro es
  induction es with
  | nil => intro v v' _ h; simp [applyRegD] at h; exact .inl ⟨rfl, h.symm⟩
  | cons e es ih =>
    intro v v' hok h
    obtain ⟨k, r⟩ := e
    obtain ⟨hnd, hwf⟩ := hok
    simp only [dkeys, List.map_cons, List.nodup_cons] at hnd
    simp only [RegWF0D, RegWF0E] at hwf
    simp only [applyRegD, applyRegE, bind, Except.bind] at h
    cases h1 : applyReg sv r k v with
    | error e => rw [h1] at h; exact (nomatch h)
    | ok w =>
      rw [h1] at h
      right
      have hstep : ∃ n kvs x, v = .inst n kvs ∧ w = .inst n (dset kvs k x) ∧ Applied sv (some r) (dget kvs k) (some x) := by
        cases r with
        | sched t i a =>
          simp only [Reg.WF0] at hwf
          simp only [applyReg, bind, Except.bind] at h1
          cases hx : schedVal sv t i with
          | error e => rw [hx] at h1; exact (nomatch h1)
          | ok x =>
            rw [hx] at h1
            cases v with
            | inst n kvs =>
              simp only [setAttr, Except.ok.injEq] at h1
              obtain ⟨rfl, _⟩ := hwf
              exact ⟨n, kvs, x, rfl, h1.symm, x, hx, rfl⟩
            | _ => simp [setAttr] at h1
        | node es' =>
          simp only [applyReg, bind, Except.bind] at h1
          cases v with
          | inst n kvs =>
            simp only [getAttr] at h1
            cases hd : dget kvs k with
            | none => rw [hd] at h1; exact (nomatch h1)
            | some c =>
              rw [hd] at h1
              simp only at h1
              cases hc : applyRegD sv es' c with
              | error e => rw [hc] at h1; exact (nomatch h1)
              | ok c' =>
                rw [hc] at h1
                simp only [setAttr, Except.ok.injEq] at h1
                exact ⟨n, kvs, c', rfl, h1.symm, c, c', hd, hc, rfl⟩
          | _ => simp [getAttr] at h1
      obtain ⟨n, kvs, x, rfl, rfl, hx⟩ := hstep
      rcases ih _ _ ⟨hnd.2, hwf.2⟩ h with ⟨rfl, rfl⟩ | ⟨n', kvs1, kvs2, he, rfl, hall⟩
      · refine ⟨n, kvs, _, rfl, rfl, ?_⟩
        intro j
        by_cases hj : k = j
        · subst hj; simpa [dget] using hx
        · simp [dget, hj, Applied, dget_dset_ne _ _ hj]
      · cases he
        refine ⟨n, kvs, kvs2, rfl, rfl, ?_⟩
        intro j
        have := hall j
        by_cases hj : k = j
        · subst hj
          have hnone : dget es k = none := by rw [dget_eq_none_iff]; exact hnd.1
          rw [hnone] at this
          simp only [Applied, dget_dset_self] at this
          simp only [dget, if_true, this]
          exact hx
        · rw [dget_dset_ne _ _ hj] at this
          simpa [dget, hj] using this

theorem TopOK.child {es es' : RegD} {k : String} (h : TopOK es) (hd : dget es k = some (.node es')) : TopOK es' := by
  have := (RegWF0D_iff.1 h.2) k _ (dget_mem hd)
  simpa [Reg.WF0, TopOK] using this

/-- after `_apply_schedules` every scheduled field holds the value of its schedule -/
theorem apply_current (sv : String → Except Err Flt) : ∀ (segs : List String) (es : RegD) (v v' : Val), TopOK es →
    applyRegD sv es v = .ok v' → ∀ txt i, Reg.at (some (.node es)) segs = some (txt, i) →
    ∃ x, SchedIs sv txt i x ∧ valAt v' segs = some x := by
  intro segs
  induction segs with
  | nil => intro es v v' _ _ txt i h; simp [Reg.at] at h
  | cons s segs ih =>
    intro es v v' hok h txt i hat
    simp only [Reg.at] at hat
    rcases applyRegD_inv sv es v v' hok h with ⟨rfl, rfl⟩ | ⟨n, kvs, kvs', rfl, rfl, hall⟩
    · simp [Reg.at_none] at hat
    · have := hall s
      cases hd : dget es s with
      | none => rw [hd, Reg.at_none] at hat; exact (nomatch hat)
      | some r =>
        rw [hd] at this hat
        cases r with
        | sched t j a =>
          obtain ⟨x, h1, h2⟩ := this
          cases segs with
          | nil =>
            simp only [Reg.at, Option.some.injEq, Prod.mk.injEq] at hat
            obtain ⟨rfl, rfl⟩ := hat
            exact ⟨x, schedVal_iff.1 h1, by simp [valAt, h2]⟩
          | cons => simp [Reg.at] at hat
        | node es' =>
          obtain ⟨c, c', h1, h2, h3⟩ := this
          obtain ⟨x, h4, h5⟩ := ih es' c c' (hok.child hd) h2 txt i hat
          exact ⟨x, h4, by simp [valAt, h3, h5]⟩

/-- `_apply_schedules` changes nothing else -/
theorem apply_frame (sv : String → Except Err Flt) : ∀ (segs : List String) (es : RegD) (v v' : Val), TopOK es →
    applyRegD sv es v = .ok v' → ∀ x, valAt v segs = some x → (∀ n kvs, x ≠ .inst n kvs) →
    (∀ p y, Reg.at (some (.node es)) p = some y → ¬ p <+: segs) → valAt v' segs = some x := by
  intro segs
  induction segs with
  | nil =>
    intro es v v' hok h x hx hni _
    rcases applyRegD_inv sv es v v' hok h with ⟨rfl, rfl⟩ | ⟨n, kvs, kvs', rfl, rfl, hall⟩
    · exact hx
    · simp only [valAt, Option.some.injEq] at hx
      exact absurd hx.symm (hni n kvs)
  | cons s segs ih =>
    intro es v v' hok h x hx hni hp
    rcases applyRegD_inv sv es v v' hok h with ⟨rfl, rfl⟩ | ⟨n, kvs, kvs', rfl, rfl, hall⟩
    · exact hx
    · have := hall s
      cases hd : dget es s with
      | none =>
        rw [hd] at this
        simp only [Applied] at this
        simpa [valAt, this] using hx
      | some r =>
        rw [hd] at this
        cases r with
        | sched t j a =>
          exact absurd (hp [s] (t, j) (by simp [Reg.at, hd])) (by simp)
        | node es' =>
          obtain ⟨c, c', h1, h2, h3⟩ := this
          have hx' : valAt c segs = some x := by simpa [valAt, h1] using hx
          have := ih es' c c' (hok.child hd) h2 x hx' hni (by
            intro p y hy hpre
            exact hp (s :: p) y (by simp [Reg.at, hd, hy]) (by simpa using hpre))
          simpa [valAt, h3] using this

/-! ## the registry built by a load -/

theorem TopOK.dset {es : RegD} (h : TopOK es) {k : String} {r : Reg} (hr : r.WF0 k) : TopOK (dset es k r) := by
  refine ⟨nodup_dset _ _ _ h.1, RegWF0D_iff.2 ?_⟩
  intro k' r' hm
  rcases mem_dset hm with he | hm
  · cases he; exact hr
  · exact RegWF0D_iff.1 h.2 k' r' hm

theorem regEnsure_ok {top top' : RegD} {cur : Option String} {s : String} (h : TopOK top) (he : regEnsure top cur s = .ok top') :
    TopOK top' := by
  have hnil : (Reg.node []).WF0 s := by simp [Reg.WF0, dkeys, RegWF0D]
  cases cur with
  | none =>
    simp only [regEnsure, Except.ok.injEq] at he
    subst he
    split
    · exact h
    · exact h.dset hnil
  | some c =>
    simp only [regEnsure] at he
    split at he
    · rename_i es hes
      simp only [Except.ok.injEq] at he
      subst he
      split
      · exact h
      · have := h.child hes
        exact h.dset (by simp only [Reg.WF0]; exact this.dset hnil)
    · exact (nomatch he)
    · exact (nomatch he)

theorem regWalk_ok : ∀ (ss : List String) (top top' : RegD) (cur cur' : Option String), TopOK top →
    regWalk top cur ss = .ok (top', cur') → TopOK top' := by
  intro ss
  induction ss with
  | nil => intro top top' cur cur' h he; simp [regWalk] at he; exact he.1 ▸ h
  | cons s ss ih =>
    intro top top' cur cur' h he
    simp only [regWalk, bind, Except.bind] at he
    cases h1 : regEnsure top cur s with
    | error e => rw [h1] at he; exact (nomatch he)
    | ok t =>
      rw [h1] at he
      simp only at he
      split at he
      · exact ih _ _ _ _ (regEnsure_ok h h1) he
      · exact (nomatch he)

theorem regInsert_ok {top top' : RegD} {p t : String} {i : Bool} (h : TopOK top) (he : regInsert top p t i = .ok top') :
    TopOK top' := by
  simp only [regInsert, bind, Except.bind] at he
  split at he
  · exact (nomatch he)
  · rename_i q hq
    obtain ⟨top1, cur⟩ := q
    have h1 := regWalk_ok _ _ _ _ _ h hq
    simp only at he
    split at he
    · simp only [pure, Except.pure, Except.ok.injEq] at he
      subst he
      exact h1.dset (by simp [Reg.WF0])
    · split at he
      · rename_i es hes
        simp only [pure, Except.pure, Except.ok.injEq] at he
        subst he
        exact h1.dset (by simp only [Reg.WF0]; exact (h1.child hes).dset (by simp [Reg.WF0]))
      · exact (nomatch he)

theorem regAll_ok : ∀ (es : List Ev) (top top' : RegD), TopOK top → regAll top es = .ok top' → TopOK top' := by
  intro es
  induction es with
  | nil => intro top top' h he; simp [regAll] at he; exact he ▸ h
  | cons ev es ih =>
    intro top top' h he
    cases ev with
    | sched p t i =>
      simp only [regAll, bind, Except.bind] at he
      split at he
      · exact (nomatch he)
      · rename_i t1 h1
        exact ih _ _ (regInsert_ok h h1) he
    | «lazy» p c f k => exact ih _ _ h he

theorem typedLoad_ok {c : DCfg} {ron : RonParse} {os : Option (List String)} {ig : Bool} {ty : PyTy} {doc : Val} {l : Loaded}
    (h : typedLoad c ron os ig ty doc = .ok l) : TopOK l.schedules := by
  have key : ∀ d, (do
      let (v, es) ← fromDict c ty ig "" d
      return ⟨v, ← regAll [] es, lazyAll es⟩ : Except Err Loaded) = .ok l → TopOK l.schedules := by
    intro d h
    simp only [bind, Except.bind, pure, Except.pure] at h
    cases h1 : fromDict c ty ig "" d with
    | error e => simp only [h1] at h; exact (nomatch h)
    | ok q =>
      simp only [h1] at h
      cases h2 : regAll [] q.2 with
      | error e => simp only [h2] at h; exact (nomatch h)
      | ok r =>
        simp only [h2, Except.ok.injEq] at h
        subst h
        exact regAll_ok _ [] _ ⟨by simp [dkeys], by simp [RegWF0D]⟩ h2
  cases os with
  | none => exact key doc h
  | some os =>
    simp only [typedLoad] at h
    cases h0 : applyOverrides ron ty os doc with
    | error e => rw [h0] at h; exact (nomatch h)
    | ok d => rw [h0] at h; exact key d h

/-! ## the operations of a StateManager -/

theorem loadConfig_ok {E : MgrEnv} {m : Mgr} {l : Loaded} (h : m.loadConfig E = .ok l) : TopOK l.schedules := by
  have key : ∀ f ov ig, smLoadConfig E.w E.cfgTy f ov ig = .ok l → TopOK l.schedules := by
    intro f ov ig h
    cases f <;> (simp only [smLoadConfig] at h; exact typedLoad_ok h)
  simp only [Mgr.loadConfig] at h
  split at h
  · simp only [bind, Except.bind] at h
    split at h
    · exact (nomatch h)
    · exact key _ _ _ h
  · split at h <;> exact key _ _ _ h

theorem readConfig_inv {E : MgrEnv} {m m1 : Mgr} {c : Val} (h : m.readConfig E = .ok (c, m1)) :
    (m.config = some c ∧ m1 = m) ∨
    (m.config = none ∧ ∃ l, m.loadConfig E = .ok l ∧ c = l.value ∧
      m1 = { m with config := some l.value, schedules := l.schedules }) := by
  simp only [Mgr.readConfig] at h
  split at h
  · rename_i hc
    simp only [Except.ok.injEq, Prod.mk.injEq] at h
    exact .inl ⟨by rw [hc, h.1], h.2.symm⟩
  · rename_i hc
    simp only [bind, Except.bind, pure, Except.pure] at h
    cases hl : m.loadConfig E with
    | error e => rw [hl] at h; exact (nomatch h)
    | ok l =>
      rw [hl] at h
      simp only [Except.ok.injEq, Prod.mk.injEq] at h
      exact .inr ⟨hc, l, rfl, h.1.symm, h.2.symm⟩

/-- the schedules of a manager were registered by a load, and there is no state without a config -/
structure MInv (m : Mgr) : Prop where
  top : TopOK m.schedules
  cfg : m.state.isSome = true → m.config.isSome = true

theorem MInv.new (E : MgrEnv) (disk : Dir Files) : MInv (Mgr.new E disk) :=
  ⟨⟨by simp [Mgr.new, dkeys], by simp [Mgr.new, RegWF0D]⟩, by simp [Mgr.new]⟩

theorem readConfig_keep {E : MgrEnv} {m m1 : Mgr} {c : Val} (hI : MInv m) (h : m.readConfig E = .ok (c, m1)) :
    MInv m1 ∧ m1.config = some c ∧ m1.state = m.state ∧ m1.src = m.src ∧ m1.last = m.last ∧ m1.disk = m.disk := by
  rcases readConfig_inv h with ⟨hc, rfl⟩ | ⟨hc, l, hl, rfl, rfl⟩
  · exact ⟨hI, hc, rfl, rfl, rfl, rfl⟩
  · exact ⟨⟨loadConfig_ok hl, by simp⟩, rfl, rfl, rfl, rfl, rfl⟩

theorem apply_inv {E : MgrEnv} {m m1 : Mgr} {o : LObj} (hI : MInv m) (h : m.apply E o = .ok m1) :
    MInv m1 ∧ m1.state = m.state ∧ m1.src = m.src ∧ m1.last = m.last ∧ m1.disk = m.disk ∧
    ∃ c c' m0, m.readConfig E = .ok (c, m0) ∧ m1 = { m0 with config := some c' } ∧
      applyRegD (E.sv o.attrs) m1.schedules c = .ok c' := by
  simp only [Mgr.apply, bind, Except.bind, pure, Except.pure] at h
  cases hc : m.readConfig E with
  | error e => rw [hc] at h; exact (nomatch h)
  | ok q =>
    obtain ⟨c, m0⟩ := q
    rw [hc] at h
    simp only at h
    cases ha : applyRegD (E.sv o.attrs) m0.schedules c with
    | error e => rw [ha] at h; exact (nomatch h)
    | ok c' =>
      rw [ha] at h
      simp only [Except.ok.injEq] at h
      subst h
      obtain ⟨h1, h2, h3, h4, h5, h6⟩ := readConfig_keep hI hc
      exact ⟨⟨h1.top, by simp⟩, h3, h4, h5, h6, c, c', m0, rfl, rfl, ha⟩

/-- the config is current at a state with these attributes -/
def CurrentAt (E : MgrEnv) (attrs : List (String × Val)) (m : Mgr) : Prop :=
  ∃ c, m.config = some c ∧ Current (E.sv attrs) (some (.node m.schedules)) c

theorem apply_currentAt {E : MgrEnv} {m m1 : Mgr} {o : LObj} (hI : MInv m) (h : m.apply E o = .ok m1) :
    CurrentAt E o.attrs m1 := by
  obtain ⟨h1, _, _, _, _, c, c', m0, _, rfl, ha⟩ := apply_inv hI h
  exact ⟨c', rfl, fun segs txt i hat => apply_current _ segs _ _ _ h1.top ha txt i hat⟩

theorem loadState_inv {E : MgrEnv} {m m1 : Mgr} {o : LObj} {src : Src} (hI : MInv m) (h : m.loadState E = .ok (o, src, m1)) :
    MInv m1 ∧ m1.state = m.state ∧ m1.last = m.last ∧ m1.disk = m.disk ∧ ∃ c, m.readConfig E = .ok (c, m1) := by
  simp only [Mgr.loadState, bind, Except.bind, pure, Except.pure] at h
  have fin : ∀ c, m.readConfig E = .ok (c, m1) →
      MInv m1 ∧ m1.state = m.state ∧ m1.last = m.last ∧ m1.disk = m.disk ∧ ∃ c, m.readConfig E = .ok (c, m1) := by
    intro c hc
    obtain ⟨h1, _, h3, h4, h5, h6⟩ := readConfig_keep hI hc
    exact ⟨h1, h3, h5, h6, c, hc⟩
  cases hc : m.readConfig E with
  | error e =>
    rw [hc] at h
    cases hl : m.last with
    | some n => rw [hl] at h; exact (nomatch h)
    | none =>
      rw [hl] at h
      cases hi : E.init <;> rw [hi] at h <;> exact (nomatch h)
  | ok q =>
    obtain ⟨c, m0⟩ := q
    rw [hc] at h
    have hm : m0 = m1 := by
      split at h
      · simp only at h
        split at h
        · exact (nomatch h)
        · split at h
          · exact (nomatch h)
          · simp only [Except.ok.injEq, Prod.mk.injEq] at h; exact h.2.2
      · split at h
        · simp only at h
          split at h
          · exact (nomatch h)
          · simp only [Except.ok.injEq, Prod.mk.injEq] at h; exact h.2.2
        · simp only at h
          split at h
          · exact (nomatch h)
          · simp only [Except.ok.injEq, Prod.mk.injEq] at h; exact h.2.2
    subst hm
    obtain ⟨h1, _, h3, h4, h5, h6⟩ := readConfig_keep hI hc
    exact ⟨h1, h3, h5, h6, c, rfl⟩

theorem readState_inv {E : MgrEnv} {m m1 : Mgr} {o : LObj} (hI : MInv m) (h : m.readState E = .ok (o, m1)) :
    MInv m1 ∧ m1.state = some o ∧ m1.last = m.last ∧ m1.disk = m.disk ∧
    ((m.state = some o ∧ m1 = m) ∨ (m.state = none ∧ CurrentAt E o.attrs m1)) := by
  simp only [Mgr.readState] at h
  split at h
  · rename_i hs
    simp only [Except.ok.injEq, Prod.mk.injEq] at h
    obtain ⟨rfl, rfl⟩ := h
    exact ⟨hI, hs, rfl, rfl, .inl ⟨hs, rfl⟩⟩
  · rename_i hs
    simp only [bind, Except.bind, pure, Except.pure] at h
    cases hl : m.loadState E with
    | error e => rw [hl] at h; exact (nomatch h)
    | ok q =>
      obtain ⟨o', src, m0⟩ := q
      rw [hl] at h
      simp only at h
      split at h
      · exact (nomatch h)
      · rename_i m2 ha
        simp only [Except.ok.injEq, Prod.mk.injEq] at h
        obtain ⟨rfl, rfl⟩ := h
        obtain ⟨h1, h2, h3, h4, c, hc⟩ := loadState_inv hI hl
        have hI' : MInv { m0 with state := some o', src := src } :=
          ⟨h1.top, fun _ => by rw [(readConfig_keep hI hc).2.1]; rfl⟩
        obtain ⟨k1, k2, k3, k4, k5, _⟩ := apply_inv hI' ha
        exact ⟨k1, k2, by rw [k4]; exact h3, by rw [k5]; exact h4, .inr ⟨hs, apply_currentAt hI' ha⟩⟩

theorem getState_inv {E : MgrEnv} {m m1 : Mgr} {k : String} {v : Val} (hI : MInv m) (h : m.getState E k = .ok (v, m1)) :
    MInv m1 ∧ ∃ o m0, m.readState E = .ok (o, m0) ∧ (lazyGet (m0.lenv E) E.depth o k).res = .ok v ∧
      m1 = { m0 with state := some (lazyGet (m0.lenv E) E.depth o k).obj } := by
  simp only [Mgr.getState, bind, Except.bind, pure, Except.pure] at h
  cases hs : m.readState E with
  | error e => rw [hs] at h; exact (nomatch h)
  | ok q =>
    obtain ⟨o, m0⟩ := q
    rw [hs] at h
    simp only at h
    split at h
    · exact (nomatch h)
    · rename_i v' hv
      simp only [Except.ok.injEq, Prod.mk.injEq] at h
      obtain ⟨rfl, rfl⟩ := h
      have hI0 := readState_inv hI hs
      exact ⟨⟨hI0.1.top, fun _ => hI0.1.cfg (by rw [hI0.2.1]; rfl)⟩, o, m0, rfl, hv, rfl⟩

theorem setState_inv {E : MgrEnv} {m m1 : Mgr} {k : String} {v : Val} (hI : MInv m) (h : m.setState E k v = .ok m1) :
    MInv m1 ∧ ∃ o m0, m.readState E = .ok (o, m0) ∧ m1 = { m0 with state := some (lazySet o k v) } := by
  simp only [Mgr.setState, bind, Except.bind, pure, Except.pure] at h
  cases hs : m.readState E with
  | error e => rw [hs] at h; exact (nomatch h)
  | ok q =>
    obtain ⟨o, m0⟩ := q
    rw [hs] at h
    simp only [Except.ok.injEq] at h
    subst h
    have hI0 := readState_inv hI hs
    exact ⟨⟨hI0.1.top, fun _ => hI0.1.cfg (by rw [hI0.2.1]; rfl)⟩, o, m0, rfl, rfl⟩

/-- what `step` does, unfolded -/
theorem step_inv {E : MgrEnv} {m m' : Mgr} {mv : Move} (hI : MInv m) (h : m.step E mv = .ok m') :
    ∃ o m0 m1, m.readState E = .ok (o, m0) ∧ m0.apply E o = .ok m1 ∧ MInv m1 ∧ CurrentAt E o.attrs m1 ∧
      m1.state = some o ∧ m1.last = m.last ∧ m1.disk = m.disk ∧
      ((E.ckpt = false ∧ m' = m1) ∨
       (E.ckpt = true ∧ ∃ c kv val files o' disk' last', m1.config = some c ∧
          (lazyGet (m1.lenv E) E.depth o E.key).res = .ok kv ∧ ckptVal kv = .ok val ∧
          ((dhas m.disk (ckptName E.key val) = true ∧ o' = (lazyGet (m1.lenv E) E.depth o E.key).obj) ∨
           (dhas m.disk (ckptName E.key val) = false ∧
            Mgr.dump E { m1 with state := some (lazyGet (m1.lenv E) E.depth o E.key).obj } c
              (lazyGet (m1.lenv E) E.depth o E.key).obj = .ok (files, o'))) ∧
          stepRun mv E.key val files m.disk m.last = some (disk', last') ∧
          m' = { m1 with state := some o', disk := disk', last := last' })) := by
  simp only [Mgr.step, bind, Except.bind, pure, Except.pure] at h
  cases hs : m.readState E with
  | error e => rw [hs] at h; exact (nomatch h)
  | ok q =>
    obtain ⟨o, m0⟩ := q
    rw [hs] at h
    simp only at h
    obtain ⟨i1, i2, i3, i4, _⟩ := readState_inv hI hs
    cases ha : m0.apply E o with
    | error e => rw [ha] at h; exact (nomatch h)
    | ok m1 =>
      rw [ha] at h
      simp only at h
      obtain ⟨j1, j2, j3, j4, j5, _⟩ := apply_inv i1 ha
      have hcur := apply_currentAt i1 ha
      have hst : m1.state = some o := by rw [j2, i2]
      have hlast : m1.last = m.last := by rw [j4, i3]
      have hdisk : m1.disk = m.disk := by rw [j5, i4]
      refine ⟨o, m0, m1, rfl, ha, j1, hcur, hst, hlast, hdisk, ?_⟩
      cases hck : E.ckpt with
      | false =>
        rw [hck] at h
        simp only [Bool.false_eq_true, if_false, Except.ok.injEq] at h
        exact .inl ⟨rfl, h.symm⟩
      | true =>
        rw [hck] at h
        simp only [if_true] at h
        refine .inr ⟨rfl, ?_⟩
        have hrs : m1.readState E = .ok (o, m1) := by simp [Mgr.readState, hst]
        obtain ⟨c, hc, _⟩ := hcur
        simp only [Mgr.getState, hrs, bind, Except.bind, pure, Except.pure] at h
        cases hk : (lazyGet (m1.lenv E) E.depth o E.key).res with
        | error e => rw [hk] at h; exact (nomatch h)
        | ok kv =>
          rw [hk] at h
          simp only at h
          cases hv : ckptVal kv with
          | error e => rw [hv] at h; exact (nomatch h)
          | ok val =>
            rw [hv] at h
            simp only [Mgr.readState, Mgr.readConfig, hc, hdisk, hlast] at h
            cases hd : dhas m.disk (ckptName E.key val) with
            | true =>
              rw [hd] at h
              simp only [if_true] at h
              split at h
              · rename_i disk' last' hr
                simp only [Except.ok.injEq] at h
                exact ⟨c, kv, val, _, _, disk', last', hc, rfl, hv, .inl ⟨hd, rfl⟩, hr, by rw [← h, hc]⟩
              · exact (nomatch h)
            | false =>
              rw [hd] at h
              simp only [Bool.false_eq_true, if_false] at h
              split at h
              · exact (nomatch h)
              · rename_i q hq
                obtain ⟨files, o'⟩ := q
                simp only at h
                split at h
                · rename_i disk' last' hr
                  simp only [Except.ok.injEq] at h
                  refine ⟨c, kv, val, files, o', disk', last', hc, rfl, hv, .inr ⟨hd, ?_⟩, hr, by rw [← h, hc]⟩
                  rw [hc, hlast, hdisk]; exact hq
                · exact (nomatch h)

theorem configDict_inv {E : MgrEnv} {m m1 : Mgr} {d : Val} (h : m.configDict E = .ok (d, m1)) :
    ∃ c, m.readConfig E = .ok (c, m1) ∧ ∃ bs, asdict (configDictCfg E.w.env) "" c = .ok (d, bs) := by
  simp only [Mgr.configDict, bind, Except.bind, pure, Except.pure] at h
  split at h
  · exact (nomatch h)
  · rename_i q hq
    split at h
    · exact (nomatch h)
    · rename_i q2 hq2
      simp only [Except.ok.injEq, Prod.mk.injEq] at h
      obtain ⟨rfl, rfl⟩ := h
      exact ⟨q.1, hq, q2.2, hq2⟩

/-- what `checkpoint` does, unfolded -/
theorem checkpoint_inv {E : MgrEnv} {m m' : Mgr} {files : Files} (h : m.checkpoint E = .ok (files, m')) :
    ∃ c m0 cdoc cblobs o m1 vs sdoc sblobs, m.readConfig E = .ok (c, m0) ∧
      typedDump E.w.env (some m0.schedules) false c = .ok (cdoc, cblobs) ∧ m0.readState E = .ok (o, m1) ∧
      (readAll (lazyGet (m1.lenv E) E.depth) o E.stTy.fieldNames).res = .ok vs ∧
      typedDump E.w.env .none false (.inst o.cls (E.stTy.fieldNames.zip vs)) = .ok (sdoc, sblobs) ∧
      files = ⟨cdoc, sdoc, sblobs.foldl (fun a kv => dset a kv.1 kv.2) cblobs⟩ ∧
      m' = { m1 with state := some (readAll (lazyGet (m1.lenv E) E.depth) o E.stTy.fieldNames).obj } := by
  simp only [Mgr.checkpoint, bind, Except.bind, pure, Except.pure] at h
  split at h
  · exact (nomatch h)
  · rename_i q hq
    split at h
    · exact (nomatch h)
    · rename_i q2 hq2
      split at h
      · exact (nomatch h)
      · rename_i q3 hq3
        split at h
        · exact (nomatch h)
        · rename_i vs hvs
          split at h
          · exact (nomatch h)
          · rename_i q4 hq4
            simp only [Except.ok.injEq, Prod.mk.injEq] at h
            exact ⟨q.1, q.2, q2.1, q2.2, q3.1, q3.2, vs, q4.1, q4.2, hq, hq2, hq3, hvs, hq4, h.1.symm, h.2.symm⟩

theorem exec_inv {E : MgrEnv} {m m' : Mgr} {op : MOp} (hI : MInv m) (h : m.exec E op = .ok m') : MInv m' := by
  cases op with
  | readConfig =>
    simp only [Mgr.exec, bind, Except.bind, pure, Except.pure] at h
    split at h
    · exact (nomatch h)
    · rename_i q hq
      simp only [Except.ok.injEq] at h
      subst h
      exact (readConfig_keep hI (c := q.1) hq).1
  | getState k =>
    simp only [Mgr.exec, bind, Except.bind, pure, Except.pure] at h
    split at h
    · exact (nomatch h)
    · rename_i q hq
      simp only [Except.ok.injEq] at h
      subst h
      exact (getState_inv hI (v := q.1) hq).1
  | setState k v => exact (setState_inv hI h).1
  | step mv =>
    obtain ⟨o, m0, m1, _, _, j1, ⟨c, hc, _⟩, _, _, _, ⟨_, rfl⟩ | ⟨_, c', kv, val, files, o', d', l', _, _, _, _, _, rfl⟩⟩ :=
      step_inv hI h
    · exact j1
    · exact ⟨j1.top, fun _ => by rw [hc]; rfl⟩
  | configDict =>
    simp only [Mgr.exec, bind, Except.bind, pure, Except.pure] at h
    split at h
    · exact (nomatch h)
    · rename_i q hq
      simp only [Except.ok.injEq] at h
      subst h
      obtain ⟨c, hc, _⟩ := configDict_inv (d := q.1) hq
      exact (readConfig_keep hI hc).1
  | checkpoint =>
    simp only [Mgr.exec, bind, Except.bind, pure, Except.pure] at h
    split at h
    · exact (nomatch h)
    · rename_i q hq
      simp only [Except.ok.injEq] at h
      subst h
      obtain ⟨c, m0, _, _, o, m1, _, _, _, h1, _, h3, _, _, _, h7⟩ := checkpoint_inv (files := q.1) hq
      have i1 := (readConfig_keep hI h1).1
      have i2 := readState_inv i1 h3
      rw [h7]
      exact ⟨i2.1.top, fun _ => i2.1.cfg (by rw [i2.2.1]; rfl)⟩

theorem run_inv {E : MgrEnv} : ∀ (ops : List MOp) (m m' : Mgr), MInv m → m.run E ops = .ok m' → MInv m' := by
  intro ops
  induction ops with
  | nil => intro m m' h he; simp [Mgr.run] at he; exact he ▸ h
  | cons op ops ih =>
    intro m m' h he
    simp only [Mgr.run, bind, Except.bind] at he
    split at he
    · exact (nomatch he)
    · rename_i m1 h1
      exact ih _ _ (exec_inv h h1) he

theorem run_append {E : MgrEnv} : ∀ (a b : List MOp) (m : Mgr),
    m.run E (a ++ b) = (m.run E a).bind (fun m => m.run E b) := by
  intro a
  induction a with
  | nil => intro b m; rfl
  | cons op a ih =>
    intro b m
    simp only [List.cons_append, Mgr.run, bind, Except.bind]
    split
    · rfl
    · rw [ih]; rfl

/-- operations other than `step` leave a loaded config alone -/
theorem exec_frame {E : MgrEnv} {m m' : Mgr} {op : MOp} (hI : MInv m) (hs : m.state.isSome = true)
    (hop : ∀ mv, op ≠ .step mv) (h : m.exec E op = .ok m') :
    m'.config = m.config ∧ m'.schedules = m.schedules ∧ m'.state.isSome = true ∧ m'.src = m.src ∧ m'.disk = m.disk ∧
      m'.last = m.last := by
  obtain ⟨o, ho⟩ := Option.isSome_iff_exists.1 hs
  obtain ⟨c, hc⟩ := Option.isSome_iff_exists.1 (hI.cfg hs)
  have hrs : m.readState E = .ok (o, m) := by simp [Mgr.readState, ho]
  have hrc : m.readConfig E = .ok (c, m) := by simp [Mgr.readConfig, hc]
  cases op with
  | readConfig =>
    simp only [Mgr.exec, Mgr.readConfig, hc, bind, Except.bind, pure, Except.pure, Except.ok.injEq] at h
    subst h
    exact ⟨hc ▸ rfl, rfl, hs, rfl, rfl, rfl⟩
  | getState k =>
    simp only [Mgr.exec, bind, Except.bind, pure, Except.pure] at h
    split at h
    · exact (nomatch h)
    · rename_i q hq
      simp only [Except.ok.injEq] at h
      subst h
      obtain ⟨_, o', m0, h1, _, h3⟩ := getState_inv hI (v := q.1) hq
      rw [hrs] at h1
      cases h1
      rw [h3]
      exact ⟨rfl, rfl, rfl, rfl, rfl, rfl⟩
  | setState k v =>
    obtain ⟨_, o', m0, h1, rfl⟩ := setState_inv hI h
    rw [hrs] at h1
    cases h1
    exact ⟨rfl, rfl, rfl, rfl, rfl, rfl⟩
  | step mv => exact absurd rfl (hop mv)
  | configDict =>
    simp only [Mgr.exec, bind, Except.bind, pure, Except.pure] at h
    split at h
    · exact (nomatch h)
    · rename_i q hq
      simp only [Except.ok.injEq] at h
      subst h
      obtain ⟨c', h1, _⟩ := configDict_inv (d := q.1) hq
      rw [hrc] at h1
      simp only [Except.ok.injEq, Prod.mk.injEq] at h1
      rw [← h1.2]
      exact ⟨rfl, rfl, hs, rfl, rfl, rfl⟩
  | checkpoint =>
    simp only [Mgr.exec, bind, Except.bind, pure, Except.pure] at h
    split at h
    · exact (nomatch h)
    · rename_i q hq
      simp only [Except.ok.injEq] at h
      subst h
      obtain ⟨c', m0, _, _, o', m1, _, _, _, h1, _, h3, _, _, _, h7⟩ := checkpoint_inv (files := q.1) hq
      rw [hrc] at h1
      simp only [Except.ok.injEq, Prod.mk.injEq] at h1
      obtain ⟨rfl, rfl⟩ := h1
      rw [hrs] at h3
      simp only [Except.ok.injEq, Prod.mk.injEq] at h3
      obtain ⟨rfl, rfl⟩ := h3
      rw [h7]
      exact ⟨rfl, rfl, rfl, rfl, rfl, rfl⟩

theorem run_frame {E : MgrEnv} : ∀ (ops : List MOp) (m m' : Mgr), MInv m → m.state.isSome = true →
    (∀ mv, MOp.step mv ∉ ops) → m.run E ops = .ok m' →
    m'.config = m.config ∧ m'.schedules = m.schedules ∧ m'.state.isSome = true := by
  intro ops
  induction ops with
  | nil => intro m m' _ hs _ h; simp [Mgr.run] at h; subst h; exact ⟨rfl, rfl, hs⟩
  | cons op ops ih =>
    intro m m' hI hs hno h
    simp only [Mgr.run, bind, Except.bind] at h
    split at h
    · exact (nomatch h)
    · rename_i m1 h1
      obtain ⟨e1, e2, e3, _⟩ := exec_frame hI hs (fun mv he => hno mv (by simp [he])) h1
      obtain ⟨f1, f2, f3⟩ := ih m1 m' (exec_inv hI h1) e3 (fun mv hm => hno mv (List.mem_cons_of_mem _ hm)) h
      exact ⟨by rw [f1, e1], by rw [f2, e2], f3⟩

end HS
