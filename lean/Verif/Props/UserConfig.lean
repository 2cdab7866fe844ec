import Verif.Proofs.UserConfig
import Verif.Props.LifeClass
/-!
# C92: assignments to the config by the user
-/
namespace HS

theorem runU_keptU {E : MgrEnv} {P : Mgr → Prop} (h : KeptU E P) : ∀ (ops : List UOp) (m : Mgr),
    (∀ q w, UOp.setConfig q w ∈ ops → ∀ m, P m → P (setConfigX E q w m).2) → P m → P (m.runU E ops).2 := by
  intro ops
  induction ops with
  | nil => intro m _ h; exact h
  | cons op ops ih =>
    intro m hset hm
    refine ih _ (fun p v hm => hset p v (List.mem_cons_of_mem _ hm)) ?_
    cases op with
    | op o => exact execX_keptU h hm o
    | setConfig p v => exact hset p v (List.mem_cons_self ..) m hm

/-- the config has the value `v` at the path, and these schedules -/
def HasAt (path : List String) (v : Val) (s : RegD) (m : Mgr) : Prop :=
  TopOK s ∧ m.schedules = s ∧ ∃ c, m.config = some c ∧ valAt c path = some v

theorem hasAt_kept (E : MgrEnv) {path : List String} {v : Val} {s : RegD} (hv : ∀ n kvs, v ≠ .inst n kvs)
    (hns : ∀ p y, Reg.at (some (.node s)) p = some y → ¬ p <+: path) : KeptU E (HasAt path v s) where
  read := fun m ⟨_, _, c, hc, _⟩ => by rw [hc]; rfl
  apply := fun m c attrs ⟨h1, h2, c', hc', h3⟩ hc => by
    rw [hc] at hc'
    cases hc'
    refine ⟨h1, h2, _, rfl, ?_⟩
    rw [h2]
    exact (applyX_frame _ path s c h1 v hv hns).2 h3
  state := fun m o src ⟨h1, h2, c, hc, h3⟩ => ⟨h1, h2, c, hc, h3⟩
  disk := fun m d l ⟨h1, h2, c, hc, h3⟩ => ⟨h1, h2, c, hc, h3⟩

theorem hasAt_set (E : MgrEnv) {path : List String} {v : Val} {s : RegD} (hv : ∀ n kvs, v ≠ .inst n kvs) {q : List String} (w : Val)
    (hq : ¬ q <+: path) (m : Mgr) (h : HasAt path v s m) : HasAt path v s (setConfigX E q w m).2 := by
  obtain ⟨h1, h2, c, hc, h3⟩ := h
  rw [setConfigX_some hc]
  cases hs : setAttrAt w q c with
  | error e => exact ⟨h1, h2, c, hc, h3⟩
  | ok c' =>
    refine ⟨h1, h2, c', rfl, ?_⟩
    by_cases hp : path <+: q
    · have hne : path ≠ q := by rintro rfl; exact hq (List.prefix_refl _)
      obtain ⟨e, he⟩ := setAttrAt_below (v := w) hv h3 hp hne
      rw [hs] at he
      exact (nomatch he)
    · rw [setAttrAt_apart hs path hq hp]; exact h3

theorem setConfigX_ok {E : MgrEnv} {m : Mgr} {path : List String} {v : Val} (h : (setConfigX E path v m).1 = .ok ()) :
    ∃ c c' m0, m.readConfig E = .ok (c, m0) ∧ setAttrAt v path c = .ok c' ∧
      setConfigX E path v m = (.ok (), { m0 with config := some c' }) := by
  have ha := configX_agree E m
  cases hr : m.readConfig E with
  | error e =>
    rw [hr] at ha
    obtain ⟨m', hm'⟩ := ha.err rfl
    simp only [setConfigX, Call.bind_eq, hm'] at h
    exact (nomatch h)
  | ok q =>
    obtain ⟨c, m0⟩ := q
    rw [hr] at ha
    have hx := ha.ok rfl
    simp only [setConfigX, Call.bind_eq, hx, Call.lift, Call.modify] at h ⊢
    cases hs : setAttrAt v path c with
    | error e => rw [hs] at h; exact (nomatch h)
    | ok c' => exact ⟨c, c', m0, rfl, hs, rfl⟩

/-- C92: a value assigned to a field of the config that has no schedule stays, through whatever is done afterwards: reads,
assignments to the state and to other fields of the config, checkpoints and steps, also when any of these raise. -/
theorem C92_kept (E : MgrEnv) (disk : Dir Files) (pre post : List UOp) (path : List String) (v : Val) (hv : ∀ n kvs, v ≠ .inst n kvs)
    (h : (((Mgr.new E disk).runU E pre).2.execU E (.setConfig path v)).1 = .ok ())
    (hns : ∀ p y, Reg.at (some (.node (((Mgr.new E disk).runU E pre).2.execU E (.setConfig path v)).2.schedules)) p = some y → ¬ p <+: path)
    (hpost : ∀ q w, UOp.setConfig q w ∈ post → ¬ q <+: path) :
    ∃ c m, m = ((Mgr.new E disk).runU E (pre ++ .setConfig path v :: post)).2 ∧ m.readConfig E = .ok (c, m) ∧ valAt c path = some v := by
  have hI := runU_inv E disk pre
  rw [runU_append]
  generalize ((Mgr.new E disk).runU E pre).2 = m0 at *
  obtain ⟨c, c', m1, h1, h2, h3⟩ := setConfigX_ok h
  simp only [Mgr.execU] at hns
  rw [h3] at hns
  have h0 : HasAt path v m1.schedules ({ m1 with config := some c' } : Mgr) :=
    ⟨(readConfig_keep hI h1).1.top, rfl, c', rfl, setAttrAt_get h2⟩
  have := runU_keptU (hasAt_kept E hv hns) post _ (fun q w hm m h => hasAt_set E hv w (hpost q w hm) m h) h0
  obtain ⟨_, _, c2, hc2, h4⟩ := this
  refine ⟨c2, _, rfl, ?_, h4⟩
  simp only [Mgr.runU, Mgr.execU, h3, Mgr.readConfig, hc2]

/-- C92: assignments change nothing but the fields they are made to (and, for an object, what is in it): whatever the history,
a field that has no schedule and that is neither above nor below an assigned one has the value that was loaded. -/
theorem C92_only (E : MgrEnv) (disk : Dir Files) (ops : List UOp) (m1 : Mgr) (c : Val)
    (hr : ((Mgr.new E disk).runU E ops).2.readConfig E = .ok (c, m1)) :
    ∃ doc l, ConfigFrom E disk doc ∧ smLoadConfig E.w E.cfgTy doc E.overrides E.ignoreExtra = .ok l ∧ m1.schedules = l.schedules ∧
      ∀ segs x, (∀ n kvs, x ≠ .inst n kvs) → (∀ p y, Reg.at (some (.node l.schedules)) p = some y → ¬ p <+: segs) →
        (∀ q w, UOp.setConfig q w ∈ ops → ¬ q <+: segs ∧ ¬ segs <+: q) →
        (valAt c segs = some x ↔ valAt l.value segs = some x) := by
  refine config_historyU (P := fun l c => ∀ segs x, (∀ n kvs, x ≠ .inst n kvs) →
      (∀ p y, Reg.at (some (.node l.schedules)) p = some y → ¬ p <+: segs) →
      (∀ q w, UOp.setConfig q w ∈ ops → ¬ q <+: segs ∧ ¬ segs <+: q) →
      (valAt c segs = some x ↔ valAt l.value segs = some x)) (fun l doc _ _ segs x _ _ _ => Iff.rfl) ?_ ops ?_ hr
  · intro l c attrs htop hP segs x hx hp hq
    rw [← hP segs x hx hp hq]
    exact applyX_frame _ segs _ _ htop x hx hp
  · intro q w hm l c c' hP hs segs x hx hp hq
    rw [← hP segs x hx hp hq]
    rw [setAttrAt_apart hs segs (hq q w hm).1 (hq q w hm).2]

/-- C92: assignments to scheduled fields last until the next step: whatever was assigned, after a step that returns every scheduled
field has the value of its schedule at the state. -/
theorem C92_scheduled (E : MgrEnv) (disk : Dir Files) (pre : List UOp) (mv : Move)
    (h : (((Mgr.new E disk).runU E pre).2.execU E (.op (.step mv))).1 = .ok ()) :
    ∃ o m0 c m2, m2 = (((Mgr.new E disk).runU E pre).2.execU E (.op (.step mv))).2 ∧
      ((Mgr.new E disk).runU E pre).2.readState E = .ok (o, m0) ∧ m2.readConfig E = .ok (c, m2) ∧
      Current (E.sv o.attrs) (some (.node m2.schedules)) c := by
  have hI := runU_inv E disk pre
  generalize ((Mgr.new E disk).runU E pre).2 = m at *
  have ha := stepX_agree E mv m
  simp only [Mgr.execU, Mgr.execX] at h ⊢
  cases hst : m.step E mv with
  | error e =>
    rw [hst] at ha
    obtain ⟨m', hm'⟩ := ha.err rfl
    rw [hm'] at h
    exact (nomatch h)
  | ok m1 =>
    rw [hst] at ha
    have hx := ha.ok rfl
    rw [hx]
    obtain ⟨o, m0, m1', hr, _, _, ⟨c, hc, hcur⟩, hs, _, _, hfin⟩ := step_inv hI hst
    have hm1 : SameConfig c m1'.schedules m1 := by
      rcases hfin with ⟨_, rfl⟩ | ⟨_, c', kv, val, files, o', d', l', hc', _, _, _, _, rfl⟩
      · exact ⟨hc, rfl, by rw [hs]; rfl⟩
      · exact ⟨hc, rfl, rfl⟩
    refine ⟨o, m0, c, m1, rfl, hr, ?_, ?_⟩
    · simp only [Mgr.readConfig, hm1.1]
    · rw [hm1.2.1]
      exact hcur

/-- C92: `initial_state` is called with the config as it is then: assignments made before the first access to the state are seen. -/
theorem C92_initial (E : MgrEnv) (m m0 m1 : Mgr) (c : Val) (o : LObj) (hc : m.readConfig E = .ok (c, m0)) (hs : m.state = none) (hl : m.last = none)
    (hi : ∀ f, E.init ≠ .dir f) (h : m.readState E = .ok (o, m1)) :
    ∃ cls kvs, E.initial c = .ok (cls, kvs) ∧ o = ⟨cls, kvs, []⟩ := by
  have hk : m0.config = some c := by
    rcases readConfig_inv hc with ⟨h1, rfl⟩ | ⟨_, l, _, rfl, rfl⟩
    · exact h1
    · rfl
  have key : ∃ cls kvs, E.initial c = .ok (cls, kvs) ∧ (m.loadState E).map (·.1) = .ok ⟨cls, kvs, []⟩ := by
    cases hE : E.init with
    | dir f => exact absurd hE (hi f)
    | _ =>
      simp only [Mgr.readState, hs, Mgr.loadState, hl, hE, hc, bind, Except.bind, pure, Except.pure] at h ⊢
      cases hq : E.initial c with
      | error e => rw [hq] at h; exact (nomatch h)
      | ok q => exact ⟨q.1, q.2, rfl, rfl⟩
  obtain ⟨cls, kvs, h1, h2⟩ := key
  refine ⟨cls, kvs, h1, ?_⟩
  simp only [Mgr.readState, hs, bind, Except.bind, pure, Except.pure] at h
  cases hq : m.loadState E with
  | error e => rw [hq] at h2; exact (nomatch h2)
  | ok q =>
    rw [hq] at h h2
    simp only [Except.map, Except.ok.injEq] at h2
    simp only at h
    split at h
    · exact (nomatch h)
    · cases h
      exact h2

/-- every config that is loaded from the directory or, without a checkpoint, from `init_path` -/
theorem runU_cfgGood {E : MgrEnv} (hE : RunOK E) {disk : Dir Files} (hd : openMgr disk = none) {ops : List UOp}
    (hA : ∀ path v, UOp.setConfig path v ∈ ops → ∀ l doc, ConfigFrom E disk doc →
      smLoadConfig E.w E.cfgTy doc E.overrides E.ignoreExtra = .ok l → AssignOK E l.schedules path v) :
    MgrFits E ((Mgr.new E disk).runU E ops).2 := by
  have hP : ∀ l : Loaded, ∀ doc, ConfigFrom E disk doc → smLoadConfig E.w E.cfgTy doc E.overrides E.ignoreExtra = .ok l →
      CfgGood E l.schedules l.value := by
    intro l doc hf hl
    have hinit : doc.getD (.dict []) = E.initDoc → CfgGood E l.schedules l.value := by
      intro hd
      refine load_cfgGood hE.cls hE.cfgEnv (doc := doc) ?_ hl
      intro doc1 ho
      rw [hd] at ho
      exact hE.doc doc1 ho
    cases hf with
    | ckpt _ h => rw [hd] at h; exact (nomatch h)
    | file _ h => exact hinit (by simp [MgrEnv.initDoc, h])
    | dir _ h => exact hinit (by simp [MgrEnv.initDoc, h])
    | absent _ h => exact hinit (by simp [MgrEnv.initDoc, h])
  have htop : ∀ l : Loaded, ∀ doc, ConfigFrom E disk doc → smLoadConfig E.w E.cfgTy doc E.overrides E.ignoreExtra = .ok l →
      TopOK l.schedules := fun l doc h1 h2 => loadConfig_ok ((loadConfig_iff (m := Mgr.new E disk) rfl rfl l).2 ⟨doc, h1, h2⟩)
  have := runU_good (P := fun l c => (∃ doc, ConfigFrom E disk doc ∧ smLoadConfig E.w E.cfgTy doc E.overrides E.ignoreExtra = .ok l) ∧
      CfgGood E l.schedules c) (fun l doc h1 h2 => ⟨⟨doc, h1, h2⟩, hP l doc h1 h2⟩)
    (fun l c attrs ht h => ⟨h.1, cfgGood_kept E l c attrs ht h.2⟩) ops (Mgr.new E disk) (by
      rintro path v hm l c c' ⟨⟨doc, h1, h2⟩, h3⟩ hs
      exact ⟨⟨doc, h1, h2⟩, cfgGood_assign hE.cls (htop l doc h1 h2) h3 (hA path v hm l doc h1 h2) hs⟩)
    ⟨MInv.new E disk, .inl ⟨rfl, rfl, rfl⟩⟩
  refine ⟨disk, hP, this.1, ?_⟩
  rcases this.2 with h | ⟨doc, l, c, h1, h2, h3, h4, h5⟩
  · exact .inl h
  · exact .inr ⟨doc, l, c, h1, h2, h3, h4, h5.2⟩

/-- C92 (partial): after any history with assignments of values of the declared types to the config (`AssignOK`), a step that writes a
checkpoint, and the start of a new manager on the directory, the first access to the state gives back config, schedules and state:
a value assigned to a field without schedule is there again. (For histories with several processes: C72, whose histories have these
assignments.)

Missing: assignments to a field that an override is for (C92_override_false), and what C45 leaves out. -/
theorem C92_saved_partial (E : MgrEnv) (hE : RunOK E) (disk : Dir Files) (hd : openMgr disk = none) (ops : List UOp) (mv : Move) (m m' : Mgr)
    (s : Snap) (hm : m = ((Mgr.new E disk).runU E ops).2)
    (hA : ∀ path v, UOp.setConfig path v ∈ ops → ∀ l doc, ConfigFrom E disk doc →
      smLoadConfig E.w E.cfgTy doc E.overrides E.ignoreExtra = .ok l → AssignOK E l.schedules path v)
    (h : m.step E mv = .ok m') (hs : SnapOK E m' s)
    (hkeys : ∀ n ∈ dkeys m.disk, ∀ i, suffixInt n = some i → i < s.key) (hnew : m.last ≠ some (ckptName E.key s.key)) :
    ∃ o2 m2, (Mgr.new E m'.disk).readState E = .ok (o2, m2) ∧ Holds E m2 s.config s.schedules s.state ∧
      (∀ path x, valAt s.config path = some x → ∃ c, m2.readConfig E = .ok (c, m2) ∧ valAt c path = some x) := by
  have hg : MgrFits E m := hm ▸ runU_cfgGood hE hd hA
  have hfresh : dhas m.disk (ckptName E.key s.key) = false := by
    rw [dhas_false, dget_eq_none_iff]
    intro hmem
    have := hkeys _ hmem _ (suffixInt_ckptName E.key hs.range)
    omega
  obtain ⟨hw, hrun, _⟩ := step_wrote hE hg.inv h hs ((good_step hg h).snap hs) hfresh hnew
  obtain ⟨hl, hopen, hfull⟩ := step_open hs.range hkeys hnew hrun
  have hN : (Mgr.new E m'.disk).last = some (ckptName E.key s.key) := new_last_some.2 ⟨hE.ckpt, by rw [hopen, hl]⟩
  obtain ⟨o2, m2, g1, g2⟩ := hw.restore (Mgr.new E m'.disk) rfl rfl ⟨_, hN, hfull⟩
  exact ⟨o2, m2, g1, g2, fun path x hx => ⟨s.config, g2.config, hx⟩⟩

/-! ## an example -/

namespace ExUser
open ExM ExLife

/-- `n` is assigned 5 and the scheduled `opt.lr` is assigned 99 -/
def hist : List UOp := [.setConfig ["n"] (.int 5), .setConfig ["opt", "lr"] (.int 99)]

def cfg5 (i : Int) : Val := .inst "Config" [("opt", .inst "Opt" [("lr", .int i)]), ("n", .int 5)]

def files5 : Files :=
  ⟨.dict [("!__name__", .str "Config"), ("opt", .dict [("!__name__", .str "Opt"), ("lr", .str txt)]), ("n", .int 5)],
   .dict [("!__name__", .str "State"), ("step", .int 10), ("net", .str "<blob:msgpack>")], [("state.net.msgpack", .int 7)]⟩

def snap5 : Snap := ⟨cfg5 10, regd, [("step", .int 10), ("net", .ser "Net" (.int 7))], 10, files5⟩

def before5 : Mgr := ⟨some (cfg5 99), regd, .none, .init, .none, []⟩
def after5 : Mgr :=
  ⟨some (cfg5 10), regd, some ⟨"State", [("step", .int 10), ("net", .ser "Net" (.int 7))], []⟩, .init, some "latest-step000000000010",
   [("latest-step000000000010", .full files5)]⟩

theorem hist_eq : (Mgr.new env []).runU env hist = ([.ok (), .ok ()], before5) := by
  rw [new_empty]
  rfl

/-- the assignment to the scheduled field is gone after the step, the other one is not -/
theorem step5 : before5.step env ⟨.none, false⟩ = .ok after5 := by
  simp only [Mgr.step, Mgr.readState, Mgr.apply, Mgr.readConfig, bind, Except.bind]
  rfl

theorem snapOK5 : SnapOK env after5 snap5 where
  config := rfl
  schedules := rfl
  cls := by intro o ho; cases ho; exact ⟨_, _, rfl⟩
  names := rfl
  state := by
    intro k x hk
    simp only [snap5, dget] at hk
    split at hk
    · rename_i h; subst h; cases hk; exact ⟨after5, rfl⟩
    · split at hk
      · rename_i h; subst h; cases hk; exact ⟨after5, rfl⟩
      · exact (nomatch hk)
  stFits := (snapOK 10 (by simp [KeyInRange]) _ name10 .init).stFits
  direct := (snapOK 10 (by simp [KeyInRange]) _ name10 .init).direct
  ser := .inl ⟨fun _ => 0, rfl, fun _ _ _ _ _ _ => rfl, fun _ _ _ _ d hd => by simp [Mgr.lenv, env, blobEnv, E] at hd,
    fun _ _ => by simp [env, blobEnv, E]⟩
  key := rfl
  range := by simp [snap5, KeyInRange]
  sv := (snapOK 10 (by simp [KeyInRange]) _ name10 .init).sv
  files := by
    show dget _ (ckptName "step" 10) = _
    rw [name10]
    rfl

theorem assigns : ∀ path v, UOp.setConfig path v ∈ hist → ∀ l doc, ConfigFrom env [] doc →
    smLoadConfig env.w env.cfgTy doc env.overrides env.ignoreExtra = .ok l → AssignOK env l.schedules path v := by
  intro path v hm l doc hf hl
  have hn : openMgr ([] : Dir Files) = none := by decide +kernel
  have hreg : l.schedules = regd := by
    cases hf with
    | ckpt _ h => rw [hn] at h; exact (nomatch h)
    | file _ h => exact (nomatch h)
    | dir _ h => cases h; cases hl; rfl
    | absent _ h => exact (nomatch h)
  rw [hreg]
  simp only [hist, List.mem_cons, List.not_mem_nil, or_false, UOp.setConfig.injEq] at hm
  have ho : env.overrides = [] := rfl
  rcases hm with ⟨rfl, rfl⟩ | ⟨rfl, rfl⟩
  · refine ⟨⟨_, _, _, .int, rfl, .here (f := .mk "n" .int none) rfl, ⟨.inl ⟨5, rfl⟩, trivial, rfl⟩, .inr (.inl rfl)⟩, ?_⟩
    rw [ho]; nofun
  · refine ⟨⟨_, _, _, .int, rfl, .there rfl (.refl ..) (.here (f := .mk "lr" .int none) rfl), ⟨.inl ⟨99, rfl⟩, trivial, rfl⟩, .inr (.inl rfl)⟩, ?_⟩
    rw [ho]; nofun

/-- the theorems apply; after the restart the config has `n = 5` -/
example : ∃ o2 m2, (Mgr.new env after5.disk).readState env = .ok (o2, m2) ∧
    ∃ c, m2.readConfig env = .ok (c, m2) ∧ valAt c ["n"] = some (.int 5) := by
  obtain ⟨o2, m2, h1, _, h2⟩ := C92_saved_partial env runOK [] (by decide +kernel) hist ⟨.none, false⟩ before5 after5 snap5
    (by rw [hist_eq]) assigns step5 snapOK5 (by intro n hn; simp [before5, dkeys] at hn) (by simp [before5])
  exact ⟨o2, m2, h1, h2 ["n"] (.int 5) rfl⟩

/-- C92_kept applies: `n` keeps its value through a step and another assignment -/
example : ∃ c m, m = ((Mgr.new env []).runU env ([] ++ .setConfig ["n"] (.int 5) :: [.op (.step ⟨.none, false⟩), .setConfig ["opt", "lr"] (.int 1)])).2 ∧
    m.readConfig env = .ok (c, m) ∧ valAt c ["n"] = some (.int 5) := by
  refine C92_kept env [] [] _ ["n"] (.int 5) (by simp) ?_ ?_ ?_
  · show ((Mgr.new env []).execU env (.setConfig ["n"] (.int 5))).1 = _
    rw [new_empty]; rfl
  · show ∀ p y, Reg.at (some (.node ((Mgr.new env []).execU env (.setConfig ["n"] (.int 5))).2.schedules)) p = some y → _
    have : ((Mgr.new env []).execU env (.setConfig ["n"] (.int 5))).2.schedules = regd := by rw [new_empty]; rfl
    rw [this]
    intro p y h hp
    cases p with
    | nil => simp [Reg.at] at h
    | cons a p =>
      obtain ⟨rfl, _⟩ := List.cons_prefix_cons.1 hp
      simp [Reg.at, regd, dget] at h
  · intro q w hm hp
    simp only [List.mem_cons, List.not_mem_nil, or_false, UOp.setConfig.injEq, reduceCtorEq, false_or] at hm
    obtain ⟨rfl, rfl⟩ := hm
    simp at hp

/-- C92_scheduled applies: the assigned 99 is replaced by the value at step 10 -/
example : ∃ o m0 c m2, m2 = after5 ∧ before5.readState env = .ok (o, m0) ∧ m2.readConfig env = .ok (c, m2) ∧
    Current (env.sv o.attrs) (some (.node m2.schedules)) c ∧ valAt c ["opt", "lr"] = some (.int 10) := by
  have hx : before5.execU env (.op (.step ⟨.none, false⟩)) = (.ok (), after5) :=
    (stepX_agree env ⟨.none, false⟩ before5).ok (by rw [step5]; rfl)
  obtain ⟨o, m0, c, m2, h1, h2, h3, h4⟩ := C92_scheduled env [] hist ⟨.none, false⟩ (by rw [hist_eq, hx])
  rw [hist_eq, hx] at h1
  rw [hist_eq] at h2
  subst h1
  have : c = cfg5 10 := by
    have e : after5.readConfig env = .ok (cfg5 10, after5) := rfl
    rw [e] at h3
    cases h3
    rfl
  subst this
  exact ⟨o, m0, _, _, rfl, h2, h3, h4, rfl⟩

/-- C92_only applies: after an assignment to `opt.lr`, `n` is what was loaded -/
example : ∃ doc l, ConfigFrom env [] doc ∧ smLoadConfig env.w env.cfgTy doc env.overrides env.ignoreExtra = .ok l ∧
    valAt l.value ["n"] = some (.int 3) := by
  have he : ((Mgr.new env []).runU env [.setConfig ["opt", "lr"] (.int 99)]).2 = ⟨some (cfgV 99), regd, .none, .init, .none, []⟩ := by
    rw [new_empty]; rfl
  obtain ⟨doc, l, h1, h2, h3, h4⟩ := C92_only env [] [.setConfig ["opt", "lr"] (.int 99)] _ (cfgV 99) (by rw [he]; rfl)
  refine ⟨doc, l, h1, h2, (h4 ["n"] (.int 3) (by simp) ?_ ?_).1 rfl⟩
  · have : l.schedules = regd := h3.symm
    rw [this]
    intro p y h hp
    cases p with
    | nil => simp [Reg.at] at h
    | cons a p =>
      obtain ⟨rfl, _⟩ := List.cons_prefix_cons.1 hp
      simp [Reg.at, regd, dget] at h
  · intro q w hm
    simp only [List.mem_cons, List.not_mem_nil, or_false, UOp.setConfig.injEq] at hm
    obtain ⟨rfl, rfl⟩ := hm
    simp

/-- a program whose `initial_state` puts `config.n` into the state -/
def envI : MgrEnv := { env with init := .absent, cfgTy := .data "Config" [.mk "n" .int (some (.int 3))] .none,
                                initial := fun c => (getAttr "n" c).map fun v => ("State", [("step", v), ("net", .ser "Net" (.int 7))]) }

/-- C92_initial applies: the state has the assigned value -/
example : ∃ m o m1, m = ((Mgr.new envI []).runU envI [.setConfig ["n"] (.int 5)]).2 ∧ m.readState envI = .ok (o, m1) ∧
    dget o.attrs "step" = some (.int 5) := by
  have he : Mgr.new envI [] = ⟨.none, [], .none, .init, .none, []⟩ := by
    have : openMgr ([] : Dir Files) = none := by decide +kernel
    simp [Mgr.new, envI, env, blobEnv, E, this]
  rw [he]
  refine ⟨_, ⟨"State", [("step", .int 5), ("net", .ser "Net" (.int 7))], []⟩, _, rfl, rfl, rfl⟩

/-- the assignment in a history of C72 -/
example : Life env [] ⟨[], some (setConfigX env ["n"] (.int 5) (Mgr.new env [])).2, .none, .none⟩ := by
  refine Life.assign (s := ⟨[], some (Mgr.new env []), .none, .none⟩) ["n"] (.int 5) ?_ rfl ?_
  · exact Life.start (s := ⟨[], .none, .none, .none⟩) .none (.init nofun) (.inl rfl) (by
      have : openMgr ([] : Dir Files) = none := by decide +kernel
      simp [restored, this])
  · have e : (configX env (Mgr.new env [])).2.schedules = regd := by rw [new_empty]; rfl
    rw [e]
    refine ⟨⟨_, _, _, .int, rfl, .here (f := .mk "n" .int none) rfl, ⟨.inl ⟨5, rfl⟩, trivial, rfl⟩, .inr (.inl rfl)⟩, ?_⟩
    intro ov h; exact (nomatch h)

/-! ### an override for the assigned field -/

def ron3 : RonParse := fun s => if s = "3" then .ok (.int 3) else .error .valueError
/-- the override `n=3` is given -/
def envO : MgrEnv := { env with w := { env.w with ron := ron3 }, overrides := ["n=3"] }

def beforeO : Mgr := ⟨some (cfg5 0), regd, .none, .init, .none, []⟩

theorem new_emptyO : Mgr.new envO [] = ⟨.none, [], .none, .init, .none, []⟩ := by
  have : openMgr ([] : Dir Files) = none := by decide +kernel
  simp [Mgr.new, envO, env, blobEnv, E, this]

theorem new_after5 : Mgr.new envO after5.disk = ⟨.none, [], .none, .init, some "latest-step000000000010", after5.disk⟩ := by
  have : openMgr after5.disk = some "latest-step000000000010" := by decide +kernel
  simp [Mgr.new, envO, env, blobEnv, E, this]

end ExUser

/-- C92 is false of fields that an override is for: the value that was assigned is saved, but the manager that is started on the
directory with the same arguments applies the override to what was saved. -/
theorem C92_override_false : ∃ (E : MgrEnv) (path : List String) (v v' : Val) (mv : Move) (m m' m2 : Mgr) (c c2 : Val), v ≠ v' ∧
    (Mgr.new E []).execU E (.setConfig path v) = (.ok (), m) ∧ m.step E mv = .ok m' ∧
    m'.config = some c ∧ valAt c path = some v ∧
    (Mgr.new E m'.disk).readConfig E = .ok (c2, m2) ∧ valAt c2 path = some v' := by
  refine ⟨ExUser.envO, ["n"], .int 5, .int 3, ⟨.none, false⟩, ExUser.beforeO, ExUser.after5,
    ⟨some (ExM.cfgV 0), ExM.regd, .none, .init, some "latest-step000000000010", ExUser.after5.disk⟩, ExUser.cfg5 10, ExM.cfgV 0, by simp,
    ?_, ?_, rfl, rfl, ?_, rfl⟩
  · rw [ExUser.new_emptyO]; rfl
  · simp only [Mgr.step, Mgr.readState, Mgr.apply, Mgr.readConfig, bind, Except.bind]
    rfl
  · rw [ExUser.new_after5]; rfl

end HS
