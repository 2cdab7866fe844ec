import Verif.Props.Compat
import Verif.Props.Registered
import Verif.Props.Life
import Verif.Proofs.Resume
import Verif.Proofs.LoadEnv
import Verif.Proofs.DumpDoc

/-!
# C27, C90: a run goes on with a config class that was changed compatibly
-/

namespace HS

/-- the same schedules at the same paths; an int field may have become a float field -/
def SameScheds (reg reg' : RegD) : Prop := ∀ segs,
  (∀ t i, Reg.at (some (.node reg)) segs = some (t, i) → ∃ j, Reg.at (some (.node reg')) segs = some (t, j) ∧ (j = true → i = true)) ∧
  (Reg.at (some (.node reg)) segs = .none → Reg.at (some (.node reg')) segs = .none)

theorem RLikeD.same {reg reg' : RegD} (h : RLikeD reg reg') : SameScheds reg reg' := fun segs => (RLike.node h).at segs

/-- a class was changed, and the checker, given the schema of the old definition, reports severity INFO; with the conditions of C27 -/
structure Compatible (lower : Char → String) (e : Ext) (na nb : String) (fsa fsb : List Fld) (va vb : VerInfo) : Prop where
  rules : vb.rules = va.rules
  old : ∀ e ∈ va.rules, e.1 < va.version
  newer : va.version ≤ vb.version
  ok : ∃ F G cs, materialize (.data na fsa (some va)) = .ok (.struct na F (some va.version)) ∧
    materialize (.data nb fsb (some vb)) = .ok (.struct nb G (some vb.version)) ∧ GoodF true F ∧ GoodF false G ∧ LitUsableF e G ∧
    checker lower (.struct na F (some va.version)) (.data nb fsb (some vb)) = .ok cs ∧ severityOf cs = .info ∧ ∀ c ∈ cs, PlainChange c

theorem Compatible.hook {lower : Char → String} {e : Ext} {na nb : String} {fsa fsb : List Fld} {va vb : VerInfo}
    (hC : Compatible lower e na nb fsa fsb va vb) {am : Bool} {d : List (String × Val)} (hd : dget d "version" = some (.int va.version)) :
    versionHook am va (.dict d) = .ok (.dict (ddel d "version")) := by
  have h1 : (va.rules.all fun e => e.1 < va.version) = true := by simpa using hC.old
  simp only [versionHook, hd, VerInfo.upgradeAny, h1, if_true, Val.asRangeInt, bind, Except.bind]
  exact C16_current va _ va.version hC.old (Int.le_refl _)

/-- with what is needed of the fields and the registry -/
theorem compat_load {lower : Char → String} {c : DCfg} {na nb : String} {fsa fsb : List Fld} {va vb : VerInfo}
    (hC : Compatible lower c.ext na nb fsa fsb va vb) (ron : RonParse) {d : List (String × Val)}
    (hd : dget d "version" = some (.int va.version)) (hx : Raw (.dict d)) (hi : IntsFit (.dict d)) {l : Loaded}
    (h : typedLoad c ron .none false (.data na fsa (some va)) (.dict d) = .ok l) :
    ∃ l' ys zs, typedLoad c ron .none false (.data nb fsb (some vb)) (.dict d) = .ok l' ∧ l.value = .inst na ys ∧ l'.value = .inst nb zs ∧
      KeptF (.dict (ddel d "version")) ys zs ∧ RLikeD l.schedules l'.schedules ∧ l'.lazyFields = l.lazyFields := by
  simp only [typedLoad, bind, Except.bind, pure, Except.pure] at h ⊢
  obtain ⟨F, G, cs, hF, hG, gF, gG, hl, hc, hs, hp⟩ := hC.ok
  cases h1 : fromDict c (.data na fsa (some va)) false "" (.dict d) with
  | error e => rw [h1] at h; exact (nomatch h)
  | ok r =>
    rw [h1] at h
    simp only at h
    cases h2 : regAll [] r.2 with
    | error e => rw [h2] at h; exact (nomatch h)
    | ok reg =>
      rw [h2] at h
      cases h
      obtain ⟨r', ys, zs, a1, ⟨a2, a3⟩, a4, a5, a6⟩ := compat_fields lower c na nb fsa fsb va vb F G hF hG hC.rules hC.old hC.newer gF gG hl cs
        hc hs hp d hd hx hi "" r h1
      obtain ⟨reg', b1, b2⟩ := regAll_like a3 .nil h2
      rw [a1]
      simp only [b1]
      refine ⟨_, ys, zs, rfl, a4, a5, ?_, b2, ?_⟩
      · intro k a hk hn hw
        obtain ⟨v, w, e1, e2, e3, -⟩ := a6 k a hk hn hw
        exact ⟨v, w, e1, e2, e3⟩
      · simp only [lazyAll]
        exact lazyInto_like a3 []

/-- C27 (partial, see `C27_partial`) for the whole load: the new class registers the same schedules for the same fields, and finds the
same blobs. -/
theorem C27_schedules_partial (lower : Char → String) (c : DCfg) (na nb : String) (fsa fsb : List Fld) (va vb : VerInfo)
    (hC : Compatible lower c.ext na nb fsa fsb va vb) (ron : RonParse) (d : List (String × Val))
    (hd : dget d "version" = some (.int va.version)) (hx : Raw (.dict d)) (hi : IntsFit (.dict d)) (l : Loaded)
    (h : typedLoad c ron .none false (.data na fsa (some va)) (.dict d) = .ok l) :
    ∃ l', typedLoad c ron .none false (.data nb fsb (some vb)) (.dict d) = .ok l' ∧ Kept (.dict (ddel d "version")) l.value l'.value ∧
      SameScheds l.schedules l'.schedules ∧ l'.lazyFields = l.lazyFields := by
  obtain ⟨l', ys, zs, h1, h2, h3, h4, h5, h6⟩ := compat_load hC ron hd hx hi h
  exact ⟨l', h1, by rw [h2, h3]; exact h4.kept _ _, h5.same, h6⟩

/-- every dict in the registry of a load is for a field set in the document -/
theorem load_reaches {lower : Char → String} {w : World} {na nb : String} {fsa fsb : List Fld} {va vb : VerInfo}
    (hC : Compatible lower w.ext na nb fsa fsb va vb) (hid : IdsOK (.data na fsa (some va))) {d : List (String × Val)}
    (hd : dget d "version" = some (.int va.version)) (hx : Raw (.dict d)) (hsh : Shallow true (.data na fsa (some va)) 2 (.dict d)) {l : Loaded}
    (h : typedLoad (w.dcfg true true) w.ron .none false (.data na fsa (some va)) (.dict d) = .ok l) :
    Reaches (.dict (ddel d "version")) l.schedules := by
  simp only [typedLoad, bind, Except.bind, pure, Except.pure] at h
  cases h0 : fromDict (w.dcfg true true) (.data na fsa (some va)) false "" (.dict d) with
  | error e => rw [h0] at h; exact (nomatch h)
  | ok q =>
    rw [h0] at h
    dsimp only at h
    obtain ⟨reg, h1, h2, h3⟩ := registry_of_load (v := q.1) (es := q.2) hid hsh h0
    rw [h1] at h
    cases h
    have hup := hC.hook (am := (w.dcfg true true).allowMissing) hd
    intro k fs hm
    refine ⟨?_, h2.two k fs hm⟩
    have hwf := h2.wf.mem hm
    simp only [Reg.WF] at hwf
    obtain ⟨hne, -, -⟩ := hwf
    cases fs with
    | nil => exact absurd rfl hne
    | cons e fs =>
      obtain ⟨k', r⟩ := e
      obtain ⟨t, i, b, rfl⟩ := h2.two k _ hm k' r (by simp)
      have hat : Reg.at (some (.node reg)) [k, k'] = some (t, i) := by
        simp only [Reg.at, dget_of_mem h2.nodup hm]
        simp [Reg.at, dget]
      have hin := (h3 [k, k'] t i).1 hat
      obtain ⟨a, ha, hw, hf⟩ : ∃ a, (k, a) ∈ ddel d "version" ∧ a.isWeak = false ∧ ∃ f ∈ fsa, f.name = k := by
        cases hin with
        | field u1 u2 u3 u4 u5 =>
          simp only [upgraded, hup, Except.ok.injEq] at u1
          subst u1
          exact ⟨_, u2, u3, _, u4, rfl⟩
      have hnd : (dkeys (ddel d "version")).Nodup := by
        simp only [Shallow, upgraded] at hsh
        exact (hsh _ hup).2.1
      refine ⟨a, dget_of_mem hnd ha, ?_, hw, ?_⟩
      · obtain ⟨f, hf, rfl⟩ := hf
        simp only [IdsOK] at hid
        exact (hid.2.1 f hf).1.1
      · intro y hy
        exact hx y (.dict (ddel_sub ha) hy)

/-- what is loaded does not depend on the versions and defaults of the classes in scope -/
theorem typedLoad_env (w : World) (e : String → ClsInfo) (am file : Bool) (ron : RonParse) (os : Option (List String)) (ig : Bool) (t : PyTy)
    (doc : Val) : typedLoad (World.dcfg { w with env := e } am file) ron os ig t doc = typedLoad (w.dcfg am file) ron os ig t doc := by
  have : World.dcfg { w with env := e } am file = { w.dcfg am file with env := e } := rfl
  simp only [typedLoad, this, fromDict_env]

/-- the same program after a change of its classes: the config class is another one, and so are the versions and defaults of the
classes in scope, which decide what is written -/
def MgrEnv.changed (E : MgrEnv) (t : PyTy) (env : String → ClsInfo) : MgrEnv := { E with cfgTy := t, w := { E.w with env := env } }

theorem loadStateObj_changed (E : MgrEnv) (t : PyTy) (env : String → ClsInfo) (doc : Val) :
    loadStateObj (E.changed t env) doc = loadStateObj E doc := by
  simp only [loadStateObj, smLoadState]
  rw [show (E.changed t env).w = { E.w with env := env } from rfl, typedLoad_env]
  rfl

/-- the config document of a checkpoint, with the overrides in it: a document of the version of the old class with schedules in fields
at most two deep, whose ints are not too large for a float; and the overrides reach the same fields in both classes -/
structure CkptDoc (E : MgrEnv) (new : PyTy) (v : Int) (doc : Val) (d : List (String × Val)) : Prop where
  old : applyOverrides E.w.ron E.cfgTy E.overrides doc = .ok (.dict d)
  new : applyOverrides E.w.ron new E.overrides doc = .ok (.dict d)
  version : dget d "version" = some (.int v)
  raw : Raw (.dict d)
  ints : IntsFit (.dict d)
  shallow : Shallow true E.cfgTy 2 (.dict d)

/-- a config document whose schedules are reached through fields that are set in it -/
structure ResumeDoc (E : MgrEnv) (new : PyTy) (v : Int) (doc : Val) (d : List (String × Val)) : Prop where
  old : applyOverrides E.w.ron E.cfgTy E.overrides doc = .ok (.dict d)
  new : applyOverrides E.w.ron new E.overrides doc = .ok (.dict d)
  version : dget d "version" = some (.int v)
  raw : Raw (.dict d)
  ints : IntsFit (.dict d)
  reaches : ∀ l, typedLoad (E.w.dcfg true true) E.w.ron .none false E.cfgTy (.dict d) = .ok l → Reaches (.dict (ddel d "version")) l.schedules

theorem CkptDoc.resume {lower : Char → String} {E : MgrEnv} {na nb : String} {fsa fsb : List Fld} {va vb : VerInfo}
    (hty : E.cfgTy = .data na fsa (some va)) (hC : Compatible lower E.w.ext na nb fsa fsb va vb) (hid : IdsOK E.cfgTy) {doc : Val}
    {d : List (String × Val)} (h : CkptDoc E (.data nb fsb (some vb)) va.version doc d) : ResumeDoc E (.data nb fsb (some vb)) va.version doc d := by
  obtain ⟨h1, h2, h3, h4, h5, h6⟩ := h
  refine ⟨h1, h2, h3, h4, h5, ?_⟩
  intro l hl
  rw [hty] at hl hid h6
  exact load_reaches hC hid h3 h4 h6 hl

/-- with what is needed of the document -/
theorem resume_core (lower : Char → String) (E : MgrEnv) (na nb : String) (fsa fsb : List Fld) (va vb : VerInfo) (env : String → ClsInfo)
    (hty : E.cfgTy = .data na fsa (some va)) (hC : Compatible lower E.w.ext na nb fsa fsb va vb)
    (hig : E.ignoreExtra = false) (N : Mgr) (hcfg : N.config = .none) (hst : N.state = .none) (n : String) (hlast : N.last = some n)
    (files : Files) (hfull : dget N.disk n = some (.full files)) (d : List (String × Val))
    (hdoc : ResumeDoc E (.data nb fsb (some vb)) va.version files.config d)
    (o : LObj) (m : Mgr) (hr : N.readState E = .ok (o, m)) :
    ∃ c c' m', m.config = some c ∧ N.readState (E.changed (.data nb fsb (some vb)) env) = .ok (o, m') ∧ m'.config = some c' ∧
      { m' with config := m.config, schedules := m.schedules } = m ∧ Kept (.dict (ddel d "version")) c c' ∧
      SameScheds m.schedules m'.schedules ∧ Current (E.sv o.attrs) (some (.node m'.schedules)) c' := by
  obtain ⟨hov, hov', hd, hx, hi, hre⟩ := hdoc
  have hfiles : ckptFiles N.disk n = .ok files := by simp only [ckptFiles, hfull]
  have hl1 : smLoadConfig E.w E.cfgTy (some files.config) E.overrides E.ignoreExtra =
      typedLoad (E.w.dcfg true true) E.w.ron .none false E.cfgTy (.dict d) := by
    rw [hig]
    simp only [smLoadConfig, typedLoad, hov, bind, Except.bind, pure, Except.pure]
  have hl2 : smLoadConfig (E.changed (.data nb fsb (some vb)) env).w (E.changed (.data nb fsb (some vb)) env).cfgTy (some files.config)
      (E.changed (.data nb fsb (some vb)) env).overrides (E.changed (.data nb fsb (some vb)) env).ignoreExtra =
      typedLoad (E.w.dcfg true true) E.w.ron .none false (.data nb fsb (some vb)) (.dict d) := by
    rw [show (E.changed (.data nb fsb (some vb)) env).ignoreExtra = false from hig, show (E.changed (.data nb fsb (some vb)) env).w = { E.w with env := env } from rfl]
    simp only [smLoadConfig, typedLoad_env]
    rw [show (E.changed (.data nb fsb (some vb)) env).cfgTy = .data nb fsb (some vb) from rfl, show (E.changed (.data nb fsb (some vb)) env).overrides = E.overrides from rfl]
    simp only [typedLoad, hov', bind, Except.bind, pure, Except.pure]
  simp only [Mgr.readState, hst, Mgr.loadState, hlast, Mgr.readConfig, hcfg, Mgr.loadConfig, hfiles, bind, Except.bind, pure, Except.pure] at hr ⊢
  rw [hl1] at hr
  rw [hl2]
  cases hl : typedLoad (E.w.dcfg true true) E.w.ron .none false E.cfgTy (.dict d) with
  | error e => rw [hl] at hr; exact (nomatch hr)
  | ok l =>
    rw [hl] at hr
    have hre := hre l hl
    rw [hty] at hl
    obtain ⟨l', ys, zs, a1, a2, a3, a4, a5, a6⟩ := compat_load (c := E.w.dcfg true true) hC E.w.ron hd hx hi hl
    have htop := typedLoad_ok a1
    simp only [hfiles] at hr
    rw [a1]
    simp only [hfiles]
    rw [loadStateObj_changed]
    cases hlo : loadStateObj E files.state with
    | error e => rw [hlo] at hr; exact (nomatch hr)
    | ok o1 =>
      rw [hlo] at hr
      simp only [Mgr.apply, Mgr.readConfig, bind, Except.bind, pure, Except.pure] at hr ⊢
      rw [a2] at hr
      cases hap : applyRegD (E.sv o1.attrs) l.schedules (.inst na ys) with
      | error e => rw [hap] at hr; exact (nomatch hr)
      | ok c =>
        rw [hap] at hr
        cases hr
        obtain ⟨ys', zs', rfl, b2, b3⟩ := apply_like (E.sv o.attrs) _ _ _ (Nat.lt_succ_self _) a5 _ na nb ys zs c hre a4 hap
        refine ⟨_, .inst nb zs', ⟨some (.inst nb zs'), l'.schedules, some o, .ckpt n, some n, N.disk⟩, rfl, ?_, rfl, rfl, b3.kept _ _, a5.same, ?_⟩
        · rw [a3, show (E.changed (.data nb fsb (some vb)) env).sv = E.sv from rfl, b2]
        · intro segs txt i hat
          exact apply_current _ segs _ _ _ htop b2 txt i hat

/-- C90 (partial): the config class was changed compatibly since a checkpoint was written. Whenever a manager with the old class
restores the checkpoint, a manager with the new class restores it too: it has the same state and, in the config, every value set in the
config file of the checkpoint; it follows the same schedules, and the scheduled fields hold their values.

Partial: with the conditions of C27, and of C39 for the schedules. -/
theorem C90_partial (lower : Char → String) (E : MgrEnv) (na nb : String) (fsa fsb : List Fld) (va vb : VerInfo) (env : String → ClsInfo)
    (hty : E.cfgTy = .data na fsa (some va)) (hC : Compatible lower E.w.ext na nb fsa fsb va vb) (hid : IdsOK E.cfgTy)
    (hig : E.ignoreExtra = false) (N : Mgr) (hcfg : N.config = .none) (hst : N.state = .none) (n : String) (hlast : N.last = some n)
    (files : Files) (hfull : dget N.disk n = some (.full files)) (d : List (String × Val))
    (hdoc : CkptDoc E (.data nb fsb (some vb)) va.version files.config d)
    (o : LObj) (m : Mgr) (hr : N.readState E = .ok (o, m)) :
    ∃ c c' m', m.config = some c ∧ N.readState (E.changed (.data nb fsb (some vb)) env) = .ok (o, m') ∧ m'.config = some c' ∧
      { m' with config := m.config, schedules := m.schedules } = m ∧ Kept (.dict (ddel d "version")) c c' ∧
      SameScheds m.schedules m'.schedules ∧ Current (E.sv o.attrs) (some (.node m'.schedules)) c' := by
  exact resume_core lower E na nb fsa fsb va vb env hty hC hig N hcfg hst n hlast files hfull d (hdoc.resume hty hC hid) o m hr

/-- C90, for any change of the config class: whether the checkpoint is restored depends only on whether its config file loads with the
new class and the schedules in it have values. If so, the state is the one that a manager with the old class restores, the config is
the one in the file with the schedules applied. -/
theorem C90_any (E : MgrEnv) (new : PyTy) (env : String → ClsInfo) (N : Mgr) (hcfg : N.config = .none) (hst : N.state = .none) (n : String)
    (hlast : N.last = some n) (files : Files) (hfull : dget N.disk n = some (.full files)) (o : LObj) (m : Mgr)
    (hr : N.readState E = .ok (o, m)) :
    (∀ l c, smLoadConfig (E.changed new env).w new (some files.config) E.overrides E.ignoreExtra = .ok l →
      applyRegD (E.sv o.attrs) l.schedules l.value = .ok c →
      N.readState (E.changed new env) = .ok (o, { m with config := some c, schedules := l.schedules }) ∧
        Current (E.sv o.attrs) (some (.node l.schedules)) c) ∧
    ∀ o' m', N.readState (E.changed new env) = .ok (o', m') → o' = o ∧
      ∃ l c, smLoadConfig (E.changed new env).w new (some files.config) E.overrides E.ignoreExtra = .ok l ∧
        applyRegD (E.sv o.attrs) l.schedules l.value = .ok c ∧ m' = { m with config := some c, schedules := l.schedules } := by
  have hfiles : ckptFiles N.disk n = .ok files := by simp only [ckptFiles, hfull]
  simp only [Mgr.readState, hst, Mgr.loadState, hlast, Mgr.readConfig, hcfg, Mgr.loadConfig, hfiles, bind, Except.bind, pure, Except.pure] at hr ⊢
  cases hl0 : smLoadConfig E.w E.cfgTy (some files.config) E.overrides E.ignoreExtra with
  | error e => rw [hl0] at hr; exact (nomatch hr)
  | ok l0 =>
    rw [hl0] at hr
    simp only [hfiles] at hr
    rw [show (E.changed new env).cfgTy = new from rfl, show (E.changed new env).overrides = E.overrides from rfl,
      show (E.changed new env).ignoreExtra = E.ignoreExtra from rfl]
    cases hlo : loadStateObj E files.state with
    | error e => rw [hlo] at hr; exact (nomatch hr)
    | ok o1 =>
      rw [hlo] at hr
      simp only [Mgr.apply, Mgr.readConfig, bind, Except.bind, pure, Except.pure] at hr
      cases hap : applyRegD (E.sv o1.attrs) l0.schedules l0.value with
      | error e => rw [hap] at hr; exact (nomatch hr)
      | ok c0 =>
        rw [hap] at hr
        cases hr
        constructor
        · intro l c hl hc
          rw [hl]
          simp only [hfiles]
          rw [loadStateObj_changed, hlo]
          simp only [Mgr.apply, Mgr.readConfig, bind, Except.bind, pure, Except.pure]
          rw [show (E.changed new env).sv = E.sv from rfl, hc]
          refine ⟨rfl, ?_⟩
          intro segs txt i hat
          exact apply_current _ segs _ _ _ (by simp only [smLoadConfig] at hl; exact typedLoad_ok hl) hc txt i hat
        · intro o' m' h
          cases hl : smLoadConfig (E.changed new env).w new (some files.config) E.overrides E.ignoreExtra with
          | error e => rw [hl] at h; exact (nomatch h)
          | ok l =>
            rw [hl] at h
            simp only [hfiles] at h
            rw [loadStateObj_changed, hlo] at h
            simp only [Mgr.apply, Mgr.readConfig, bind, Except.bind, pure, Except.pure] at h
            rw [show (E.changed new env).sv = E.sv from rfl] at h
            cases hc : applyRegD (E.sv o.attrs) l.schedules l.value with
            | error e => rw [hc] at h; exact (nomatch h)
            | ok c =>
              rw [hc] at h
              cases h
              exact ⟨rfl, l, c, rfl, hc, rfl⟩

/-! ## runs -/

/-- reading the state does not depend on the config, once both are loaded -/
theorem getState_changed {E : MgrEnv} {t : PyTy} {env : String → ClsInfo} {m m2 : Mgr} {c : Option Val} {reg : RegD} {k : String} {x : Val}
    (hs : m.state.isSome = true) (h : m.getState E k = .ok (x, m2)) :
    ({ m with config := c, schedules := reg } : Mgr).getState (E.changed t env) k = .ok (x, { m2 with config := c, schedules := reg }) ∧
      m2.state.isSome = true := by
  obtain ⟨o, ho⟩ := Option.isSome_iff_exists.1 hs
  have hL : ({ m with config := c, schedules := reg } : Mgr).lenv (E.changed t env) = m.lenv E := rfl
  simp only [Mgr.getState, Mgr.readState, ho, bind, Except.bind, pure, Except.pure] at h ⊢
  rw [show (E.changed t env).depth = E.depth from rfl]
  have hL2 : (⟨c, reg, some o, m.src, m.last, m.disk⟩ : Mgr).lenv (E.changed t env) = m.lenv E := rfl
  rw [hL2]
  cases hr : (lazyGet (m.lenv E) E.depth o k).res with
  | error e => rw [hr] at h; exact (nomatch h)
  | ok v =>
    rw [hr] at h
    cases h
    exact ⟨rfl, rfl⟩

theorem reads_changed {E : MgrEnv} {t : PyTy} {env : String → ClsInfo} {c : Option Val} {reg : RegD} : ∀ (ks : List String) {m m2 : Mgr},
    m.state.isSome = true → m.run E (reads ks) = .ok m2 →
    ({ m with config := c, schedules := reg } : Mgr).run (E.changed t env) (reads ks) = .ok { m2 with config := c, schedules := reg } ∧
      m2.state.isSome = true
  | [], m, m2, hs, h => by
    simp only [reads, List.map_nil, Mgr.run, Except.ok.injEq] at h ⊢
    subst h
    exact ⟨rfl, hs⟩
  | k :: ks, m, m2, hs, h => by
    simp only [reads, List.map_cons, Mgr.run, Mgr.exec, bind, Except.bind, pure, Except.pure] at h ⊢
    cases h1 : m.getState E k with
    | error e => rw [h1] at h; exact (nomatch h)
    | ok q =>
      rw [h1] at h
      obtain ⟨a1, a2⟩ := getState_changed (t := t) (env := env) (c := c) (reg := reg) hs (x := q.1) (m2 := q.2) h1
      rw [a1]
      exact reads_changed ks a2 h

/-- the config document of a checkpoint can be read with the new class -/
theorem Wrote.resume {E : MgrEnv} {t : Snap} (h : Wrote E t) {na : String} {fsa : List Fld} {va : VerInfo} (hty : E.cfgTy = .data na fsa (some va))
    (henv : EnvOK E.w.env E.cfgTy) (hmat : (materialize E.cfgTy).isOk = true) (hov : E.overrides = []) (hints : IntsFit t.files.config) {nb : String} {fsb : List Fld}
    {vb : VerInfo} (hmat' : (materialize (.data nb fsb (some vb))).isOk = true) :
    ∃ d, ResumeDoc E (.data nb fsb (some vb)) va.version t.files.config d := by
  obtain ⟨bs, hdump⟩ := h.dumped
  have hfit := h.good.fits
  have hdep := h.good.depth
  have hraw := typedDump_raw hdump
  rw [hty] at hfit henv hmat
  obtain ⟨d, hd, hv, hat⟩ := dump_doc hfit henv hdump
  rw [hd] at hints hraw ⊢
  refine ⟨d, by rw [hov, hty]; exact applyOverrides_nil _ hmat _, by rw [hov]; exact applyOverrides_nil _ hmat' _, hv, hraw, hints, ?_⟩
  intro l hl
  obtain ⟨doc', v', reg', es, h1, h2, h3, h4, -⟩ := config_roundtrip_restored E.w hfit henv hmat hdep false
  rw [hdump, hd] at h1
  cases h1
  have hl' : l = ⟨v', reg', []⟩ := by
    rw [hty] at hl
    simp only [smLoadConfig, typedLoad, applyOverrides_nil _ hmat, bind, Except.bind, pure, Except.pure] at h2 hl
    rw [h2] at hl
    cases hl
    rfl
  subst hl'
  intro k fs hm
  refine ⟨?_, h4.two k fs hm⟩
  have hwf := h4.wf.mem hm
  simp only [Reg.WF] at hwf
  obtain ⟨hne, -, -⟩ := hwf
  cases fs with
  | nil => exact absurd rfl hne
  | cons e fs =>
    obtain ⟨k', r⟩ := e
    obtain ⟨t', i, b, rfl⟩ := h4.two k _ hm k' r (by simp)
    have hat' : Reg.at (some (.node reg')) [k, k'] = some (t', i) := by
      simp only [Reg.at, dget_of_mem h4.nodup hm]
      simp [Reg.at, dget]
    rw [← h3] at hat'
    obtain ⟨b1, a, b2, b3⟩ := hat k k' _ hat'
    refine ⟨a, b2, b1, b3, ?_⟩
    intro y hy
    exact hraw y (.dict (ddel_sub (dget_mem b2)) hy)

theorem run_core (lower : Char → String) {E : MgrEnv} (hE : RunOK E) {d0 : Dir Files} {s : LSys} (h : Life E d0 s)
    (hs : s.safe.isSome = true) (na nb : String) (fsa fsb : List Fld) (va vb : VerInfo) (env : String → ClsInfo)
    (hty : E.cfgTy = .data na fsa (some va)) (hC : Compatible lower E.w.ext na nb fsa fsb va vb) (hig : E.ignoreExtra = false)
    (hdocs : ∀ t, s.safe = some t ∨ s.pend = some t → ∃ d, ResumeDoc E (.data nb fsb (some vb)) va.version t.files.config d) :
    ∃ t d o c' m', (s.safe = some t ∨ s.pend = some t) ∧ ResumeDoc E (.data nb fsb (some vb)) va.version t.files.config d ∧
      (Mgr.new (E.changed (.data nb fsb (some vb)) env) s.disk).readState (E.changed (.data nb fsb (some vb)) env) = .ok (o, m') ∧
      m'.config = some c' ∧ Kept (.dict (ddel d "version")) t.config c' ∧ SameScheds t.schedules m'.schedules ∧
      Current (E.sv o.attrs) (some (.node m'.schedules)) c' ∧
      ∀ ks : List String, (∀ k ∈ ks, (dget t.state k).isSome = true) → ∃ m2, m'.run (E.changed (.data nb fsb (some vb)) env) (reads ks) = .ok m2 ∧
        ∀ k x, dget t.state k = some x → ∃ m3, m2.getState (E.changed (.data nb fsb (some vb)) env) k = .ok (x, m3) := by
  obtain ⟨sn, h1, h2, h3⟩ := C72_crash_safe_partial hE h
  cases sn with
  | none =>
    rcases h1 with h1 | ⟨h1, h2⟩
    · rw [← h1] at hs; exact (nomatch hs)
    · rw [← h2] at h1; exact (nomatch h1)
  | some t =>
    have ht : s.safe = some t ∨ s.pend = some t := h1.elim (fun h => .inl h.symm) (fun h => .inr h.2.symm)
    obtain ⟨o, m, hr, hh⟩ := h3
    obtain ⟨d, hd⟩ := hdocs t ht
    simp only [Option.map_some, restored] at h2
    have hnew : Mgr.new (E.changed (.data nb fsb (some vb)) env) s.disk = Mgr.new E s.disk := rfl
    rw [hnew]
    cases hop : openMgr s.disk with
    | none => rw [hop] at h2; exact (nomatch h2)
    | some n =>
      rw [hop] at h2
      simp only at h2
      have hlast : (Mgr.new E s.disk).last = some n := by simp only [Mgr.new, hE.ckpt, if_true, hop]
      have hfull : dget (Mgr.new E s.disk).disk n = some (.full t.files) := by
        show dget s.disk n = _
        split at h2
        · rename_i f hf
          cases h2
          exact hf
        · exact (nomatch h2)
      obtain ⟨c, c', m', a1, a2, a3, a4, a5, a6, a7⟩ := resume_core lower E na nb fsa fsb va vb env hty hC hig (Mgr.new E s.disk) rfl rfl n hlast
        t.files hfull d hd o m hr
      have hcfg := hh.config
      simp only [Mgr.readConfig, a1, Except.ok.injEq, Prod.mk.injEq] at hcfg
      obtain ⟨rfl, -⟩ := hcfg
      have hst : m.state.isSome = true := by rw [readState_state hr]; rfl
      refine ⟨t, d, o, c', m', ht, hd, a2, a3, a5, ?_, a7, ?_⟩
      · intro segs
        have := a6 segs
        rw [← hh.schedules segs] at this
        exact this
      · intro ks hks
        obtain ⟨m2, b1, b2⟩ := hh.state ks hks
        have hm' : m' = { m with config := m'.config, schedules := m'.schedules } := by
          obtain ⟨_, _, _, _, _, _⟩ := m'
          rw [← a4]
        obtain ⟨e1, e2⟩ := reads_changed (t := .data nb fsb (some vb)) (env := env) (c := m'.config) (reg := m'.schedules) ks hst b1
        rw [← hm'] at e1
        refine ⟨_, e1, ?_⟩
        intro k x hk
        obtain ⟨m3, hm3⟩ := b2 k x hk
        exact ⟨_, (getState_changed e2 hm3).1⟩

/-- C90 (partial), for whole runs: in the middle of a run with the old config class, at any moment of any history of processes, some of
which were killed, the class is changed compatibly. If a step has returned before, a manager with the new class that is started then
goes on from what the user had when the last step returned (or at the last start), or in the step that was interrupted since: every
field of the state reads as it was, in any order; every value of the config that was written is kept; the schedules are the same, and
the scheduled fields hold their values.

Partial: with the conditions of C72 and of C27; without overrides. -/
theorem C90_run_partial (lower : Char → String) {E : MgrEnv} (hE : RunOK E) {d0 : Dir Files} {s : LSys} (h : Life E d0 s)
    (hs : s.safe.isSome = true) (na nb : String) (fsa fsb : List Fld) (va vb : VerInfo) (env : String → ClsInfo)
    (hty : E.cfgTy = .data na fsa (some va)) (hC : Compatible lower E.w.ext na nb fsa fsb va vb) (hig : E.ignoreExtra = false)
    (hov : E.overrides = []) (hints : ∀ t, s.safe = some t ∨ s.pend = some t → IntsFit t.files.config) :
    ∃ t d o c' m', (s.safe = some t ∨ s.pend = some t) ∧ t.files.config = .dict d ∧ dget d "version" = some (.int va.version) ∧
      (Mgr.new (E.changed (.data nb fsb (some vb)) env) s.disk).readState (E.changed (.data nb fsb (some vb)) env) = .ok (o, m') ∧
      m'.config = some c' ∧ Kept (.dict (ddel d "version")) t.config c' ∧ SameScheds t.schedules m'.schedules ∧
      Current (E.sv o.attrs) (some (.node m'.schedules)) c' ∧
      ∀ ks : List String, (∀ k ∈ ks, (dget t.state k).isSome = true) → ∃ m2, m'.run (E.changed (.data nb fsb (some vb)) env) (reads ks) = .ok m2 ∧
        ∀ k x, dget t.state k = some x → ∃ m3, m2.getState (E.changed (.data nb fsb (some vb)) env) k = .ok (x, m3) := by
  have hmat' : (materialize (.data nb fsb (some vb))).isOk = true := by
    obtain ⟨F, G, cs, -, hG, -⟩ := hC.ok
    rw [hG]; rfl
  have hw : ∀ t, s.safe = some t ∨ s.pend = some t → Wrote E t := fun t ht => ht.elim ((life_inv hE h).safe t) ((life_inv hE h).pend t)
  obtain ⟨t, d, o, c', m', h1, h2, h3⟩ := run_core lower hE h hs na nb fsa fsb va vb env hty hC hig
    (fun t ht => (hw t ht).resume hty hE.cfgEnv hE.mat hov (hints t ht) hmat')
  have h4 := h2.old
  have hmat := hE.mat
  rw [hty] at hmat
  rw [hov, hty, applyOverrides_nil _ hmat, Except.ok.injEq] at h4
  exact ⟨t, d, o, c', m', h1, h4, h2.version, h3⟩

/-- C90 (partial), with overrides: they must reach the same fields of the config file in both classes. -/
theorem C90_overrides_partial (lower : Char → String) {E : MgrEnv} (hE : RunOK E) {d0 : Dir Files} {s : LSys} (h : Life E d0 s)
    (hs : s.safe.isSome = true) (na nb : String) (fsa fsb : List Fld) (va vb : VerInfo) (env : String → ClsInfo)
    (hty : E.cfgTy = .data na fsa (some va)) (hC : Compatible lower E.w.ext na nb fsa fsb va vb) (hig : E.ignoreExtra = false)
    (hdocs : ∀ t, s.safe = some t ∨ s.pend = some t → ∃ d, CkptDoc E (.data nb fsb (some vb)) va.version t.files.config d) :
    ∃ t d o c' m', (s.safe = some t ∨ s.pend = some t) ∧ applyOverrides E.w.ron E.cfgTy E.overrides t.files.config = .ok (.dict d) ∧
      dget d "version" = some (.int va.version) ∧
      (Mgr.new (E.changed (.data nb fsb (some vb)) env) s.disk).readState (E.changed (.data nb fsb (some vb)) env) = .ok (o, m') ∧
      m'.config = some c' ∧ Kept (.dict (ddel d "version")) t.config c' ∧ SameScheds t.schedules m'.schedules ∧
      Current (E.sv o.attrs) (some (.node m'.schedules)) c' ∧
      ∀ ks : List String, (∀ k ∈ ks, (dget t.state k).isSome = true) → ∃ m2, m'.run (E.changed (.data nb fsb (some vb)) env) (reads ks) = .ok m2 ∧
        ∀ k x, dget t.state k = some x → ∃ m3, m2.getState (E.changed (.data nb fsb (some vb)) env) k = .ok (x, m3) := by
  obtain ⟨t, d, o, c', m', h1, h2, h3⟩ := run_core lower hE h hs na nb fsa fsb va vb env hty hC hig
    (fun t ht => let ⟨d, hd⟩ := hdocs t ht; ⟨d, hd.resume hty hC hE.cls.ids⟩)
  exact ⟨t, d, o, c', m', h1, h2.old, h2.version, h3⟩

/-- C90 (partial), for whole runs and any change of the config class: in the middle of a run, at any moment of any history of processes,
the config class is changed. Whenever a manager with the new class that is started then can access its state, every field of the state
is as the user had it when the last step returned (or at the last start), or in the step that was interrupted since; the config is
what the config file written then gives with the new class, with the schedules applied.

Partial: with the conditions of C72. -/
theorem C90_any_run_partial {E : MgrEnv} (hE : RunOK E) {d0 : Dir Files} {s : LSys} (h : Life E d0 s) (hs : s.safe.isSome = true) (new : PyTy)
    (env : String → ClsInfo) (o : LObj) (m' : Mgr) (hr' : (Mgr.new (E.changed new env) s.disk).readState (E.changed new env) = .ok (o, m')) :
    ∃ t l c, (s.safe = some t ∨ s.pend = some t) ∧
      smLoadConfig (E.changed new env).w new (some t.files.config) E.overrides E.ignoreExtra = .ok l ∧
      m'.config = some c ∧ m'.schedules = l.schedules ∧ applyRegD (E.sv o.attrs) l.schedules l.value = .ok c ∧
      Current (E.sv o.attrs) (some (.node l.schedules)) c ∧
      ∀ ks : List String, (∀ k ∈ ks, (dget t.state k).isSome = true) → ∃ m2, m'.run (E.changed new env) (reads ks) = .ok m2 ∧
        ∀ k x, dget t.state k = some x → ∃ m3, m2.getState (E.changed new env) k = .ok (x, m3) := by
  obtain ⟨sn, h1, h2, h3⟩ := C72_crash_safe_partial hE h
  cases sn with
  | none =>
    rcases h1 with h1 | ⟨h1, h2⟩
    · rw [← h1] at hs; exact (nomatch hs)
    · rw [← h2] at h1; exact (nomatch h1)
  | some t =>
    have ht : s.safe = some t ∨ s.pend = some t := h1.elim (fun h => .inl h.symm) (fun h => .inr h.2.symm)
    obtain ⟨o1, m, hr, hh⟩ := h3
    simp only [Option.map_some, restored] at h2
    have hnew : Mgr.new (E.changed new env) s.disk = Mgr.new E s.disk := rfl
    rw [hnew] at hr'
    cases hop : openMgr s.disk with
    | none => rw [hop] at h2; exact (nomatch h2)
    | some n =>
      rw [hop] at h2
      simp only at h2
      have hlast : (Mgr.new E s.disk).last = some n := by simp only [Mgr.new, hE.ckpt, if_true, hop]
      have hfull : dget (Mgr.new E s.disk).disk n = some (.full t.files) := by
        show dget s.disk n = _
        split at h2
        · rename_i f hf
          cases h2
          exact hf
        · exact (nomatch h2)
      obtain ⟨g1, g2⟩ := C90_any E new env (Mgr.new E s.disk) rfl rfl n hlast t.files hfull o1 m hr
      obtain ⟨rfl, l, c, a1, a2, rfl⟩ := g2 o m' hr'
      have hst : m.state.isSome = true := by rw [readState_state hr]; rfl
      refine ⟨t, l, c, ht, a1, rfl, rfl, a2, (g1 l c a1 a2).2, ?_⟩
      intro ks hks
      obtain ⟨m2, b1, b2⟩ := hh.state ks hks
      obtain ⟨e1, e2⟩ := reads_changed (t := new) (env := env) (c := some c) (reg := l.schedules) ks hst b1
      refine ⟨_, e1, ?_⟩
      intro k x hk
      obtain ⟨m3, hm3⟩ := b2 k x hk
      exact ⟨_, (getState_changed e2 hm3).1⟩

namespace ExRes
open ExM

/-- `class Opt: lr: int`, `class Config(Versioned): opt: Opt; n: int`, version 1 -/
def fsOld : List Fld := [.mk "opt" (.data "Opt" [.mk "lr" .int .none] .none) .none, .mk "n" .int .none]
/-- version 2: `lr: float`, and a new field `note: str = "x"` -/
def fsNew : List Fld := [.mk "opt" (.data "Opt" [.mk "lr" .float .none] .none) .none, .mk "n" .int .none, .mk "note" .str (some (.str "x"))]
def old : PyTy := .data "Config" fsOld (some ⟨1, []⟩)
def new : PyTy := .data "Config" fsNew (some ⟨2, []⟩)

def envOf (v : Int) : String → ClsInfo := fun c => if c = "Opt" then ⟨.none, [("lr", .none)]⟩
  else if c = "Config" then ⟨some v, [("opt", .none), ("n", .none)]⟩
  else if c = "State" then ⟨.none, [("step", .none), ("net", .none)]⟩
  else ⟨.none, []⟩

def wOld : World := { w with env := envOf 1 }

def start : Files :=
  ⟨.dict [("version", .int 1), ("opt", .dict [("lr", .str txt)]), ("n", .int 3)],
   .dict [("step", .int 10), ("net", .str "<blob:msgpack>")], [("state.net.msgpack", .int 7)]⟩

def env : MgrEnv := { blobEnv with init := .dir start, w := wOld, cfgTy := old }

def doc : List (String × Val) :=
  [("!__name__", .str "Config"), ("version", .int 1), ("opt", .dict [("!__name__", .str "Opt"), ("lr", .str txt)]), ("n", .int 3)]

def filesAt (i : Int) : Files :=
  ⟨.dict doc, .dict [("!__name__", .str "State"), ("step", .int i), ("net", .str "<blob:msgpack>")], [("state.net.msgpack", .int 7)]⟩

def snap (i : Int) : Snap := ⟨cfgV i, regd, [("step", .int i), ("net", .ser "Net" (.int 7))], i, filesAt i⟩

def after (i : Int) (name : String) (src : Src) : Mgr :=
  ⟨some (cfgV i), regd, some ⟨"State", [("step", .int i), ("net", .ser "Net" (.int 7))], []⟩, src, some name,
   [(name, .full (filesAt i))]⟩

theorem class_ok : CfgClass env where
  cfg := ⟨_, _, _, rfl⟩
  ty := by simp [env, old, fsOld, TyOK, FldsOK, FldOK, NameOK, VerOK, Fld.name]; decide
  ids := by simp [env, old, fsOld, IdsOK, IdsOKf, IdsOK1, NameOK, IdOK, Fld.name]; decide
  decl := by simp [env, old, fsOld, DeclOK, DeclOKf, DeclOK1, VerPlain, Fld.name]
  firm := by simp [env, old, fsOld, FirmDecl, FirmDeclf, FirmDecl1]
  apart := List.Pairwise.nil

theorem hook1 (d : List (String × Val)) (h : dget d "version" = some (.int 1)) : versionHook true ⟨1, []⟩ (.dict d) = .ok (.dict (ddel d "version")) := by
  have h1 : (([] : List (Int × List Rule)).all fun e => e.1 < 1) = true := rfl
  simp only [versionHook, h, VerInfo.upgradeAny, h1, if_true, Val.asRangeInt, bind, Except.bind]
  exact C16_current ⟨1, []⟩ _ 1 nofun (Int.le_refl _)

theorem runOK : RunOK env where
  ckpt := rfl
  cls := class_ok
  doc := by
    intro doc1 h
    cases h
    refine ⟨by simp [MgrEnv.initDoc, env, start, Plain, PlainD, PlainP, dkeys], ?_, fun h => absurd rfl h,
      fun _ _ _ _ o ho => absurd ho (by simp [env, blobEnv, E])⟩
    intro v' hv'
    simp only [upgraded] at hv'
    rw [show env.initDoc = .dict [("version", .int 1), ("opt", .dict [("lr", .str txt)]), ("n", .int 3)] from rfl, hook1 _ rfl] at hv'
    cases hv'
    simp [fsOld, Shallow, ShallowFs, ShallowF, upgraded, docEntries, Val.isInst, dkeys, ddel]
  cfgEnv := by simp [env, wOld, envOf, old, fsOld, EnvOK, EnvOKf, EnvOKf1, Fld.name, Fld.dflt]
  mat := rfl
  st := ⟨_, _, _, rfl⟩
  stEnv := by simp [env, wOld, envOf, blobEnv, E, blobTy, EnvOK, EnvOKf, EnvOKf1, Fld.name, Fld.dflt]
  deser := by
    intro c y vs x h
    cases h
    exact ⟨c, y, rfl⟩

theorem snapOK (i : Int) (hi : KeyInRange i) (name : String) (hn : ckptName "step" i = name) (src : Src) :
    SnapOK env (after i name src) (snap i) where
  config := rfl
  schedules := rfl
  cls := by intro o ho; cases ho; exact ⟨_, _, rfl⟩
  names := rfl
  state := by
    intro k x hk
    simp only [snap, dget] at hk
    split at hk
    · rename_i h; subst h; cases hk; exact ⟨after i name src, rfl⟩
    · split at hk
      · rename_i h; subst h; cases hk; exact ⟨after i name src, rfl⟩
      · exact (nomatch hk)
  stFits := by
    intro sn fs ver h
    cases h
    simp [env, blobEnv, E, blobTy, snap, Fits, FitsFs, FitsF, ClassOK, VerOK, NameOK, IdOK, Reg.isSched, Reg.child, Fld.name]
    exact ⟨by decide, .inl ⟨_, rfl⟩, trivial, rfl⟩
  direct := by
    intro sn segs c y h
    match segs with
    | [] => simp [valAt] at h
    | [_] => rfl
    | a :: b :: ss =>
      simp only [snap, valAt, dget] at h
      split at h
      · rename_i h2
        split at h2
        · cases h2; simp [valAt] at h
        · split at h2
          · cases h2; simp [valAt] at h
          · exact (nomatch h2)
      · exact (nomatch h)
  ser := .inl ⟨fun _ => 0, rfl, fun _ _ _ _ _ _ => rfl, fun _ _ _ _ d hd => by simp [Mgr.lenv, env, blobEnv, E] at hd,
    fun _ _ => by simp [env, blobEnv, E]⟩
  key := rfl
  range := hi
  sv := by
    intro a b h
    obtain ⟨h1, h2⟩ := h "step" (.int i) rfl (by simp)
    funext t
    simp [env, blobEnv, E, ramp, h1, h2]
  files := by
    show dget _ (ckptName "step" i) = _
    rw [hn]
    simp [after, snap, dget]

theorem new_empty : Mgr.new env [] = ⟨.none, [], .none, .init, .none, []⟩ := by
  have : openMgr ([] : Dir Files) = none := by decide +kernel
  simp [Mgr.new, env, blobEnv, E, this]

def disk10 : Dir Files := [("latest-step000000000010", .full (filesAt 10))]

theorem read10 : (Mgr.new env []).readState env = .ok (unread, ⟨some (cfgV 10), regd, some unread, .init, .none, []⟩) := by
  rw [new_empty]
  rfl

theorem step10 : (Mgr.new env []).step env ⟨.none, false⟩ = .ok (after 10 "latest-step000000000010" .init) := by
  simp only [Mgr.step, read10, bind, Except.bind]
  simp only [Mgr.readState, Mgr.apply, Mgr.readConfig, bind, Except.bind]
  rfl

/-- a process made a step at 10 and was killed -/
theorem life10 : Life env [] ⟨disk10, .none, some (snap 10), .none⟩ := by
  have h1 : Life env [] ⟨disk10, some (after 10 "latest-step000000000010" .init), some (snap 10), .none⟩ := by
    refine Life.step (s := ⟨[], some (Mgr.new env []), .none, .none⟩) ⟨.none, false⟩ (snap 10) ?_ rfl step10
      (snapOK 10 (by simp [KeyInRange]) _ ExLife.name10 _) nofun
    exact Life.start (s := ⟨[], .none, .none, .none⟩) .none (.init nofun) (.inl rfl) (by
      have : openMgr ([] : Dir Files) = none := by decide +kernel
      simp [restored, this])
  exact h1.crash

def sOld : List (String × SFld) := [("opt", .mk "opt" (.struct "Opt" [("lr", .mk "lr" (.prim "int") .none false .none)] .none) .none false .none),
  ("n", .mk "n" (.prim "int") .none false .none)]
def sNew : List (String × SFld) := [("opt", .mk "opt" (.struct "Opt" [("lr", .mk "lr" (.prim "float") .none false .none)] .none) .none false .none),
  ("n", .mk "n" (.prim "int") .none false .none), ("note", .mk "note" (.prim "str") (.str "x") true .none)]

/-- two changes: the type of `opt.lr`, from int to float, and `note` -/
def primChange : Change → Bool
  | .typeChanged p (.prim o) (.prim n) => p == ["opt", "lr"] && o == "int" && n == "float"
  | .fieldAdded p _ _ b => p == ["note"] && b
  | _ => false

theorem checked : ∃ cs, checker Ex.lc (.struct "Config" sOld (some 1)) new = .ok cs ∧ severityOf cs = .info ∧ ∀ c ∈ cs, PlainChange c := by
  have h : (match checker Ex.lc (.struct "Config" sOld (some 1)) new with
      | .ok cs => cs.length == 2 && severityOf cs == .info && cs.all primChange | .error _ => false) = true := by decide +kernel
  split at h
  · rename_i cs hc
    simp only [Bool.and_eq_true, List.all_eq_true] at h
    refine ⟨cs, hc, by simpa using h.1.2, ?_⟩
    intro c hm
    have := h.2 c hm
    unfold primChange at this
    split at this
    · exact .prim
    · trivial
    · exact (nomatch this)
  · exact (nomatch h)

theorem compatible : Compatible Ex.lc w.ext "Config" "Config" fsOld fsNew ⟨1, []⟩ ⟨2, []⟩ where
  rules := rfl
  old := nofun
  newer := by decide
  ok := by
    obtain ⟨cs, hc, hs, hp⟩ := checked
    refine ⟨sOld, sNew, cs, rfl, rfl, ?_, ?_, ?_, hc, hs, hp⟩
    · refine ⟨by decide, ?_⟩
      intro k f hf
      simp only [sOld, List.mem_cons, Prod.mk.injEq, List.not_mem_nil, or_false] at hf
      rcases hf with ⟨rfl, rfl⟩ | ⟨rfl, rfl⟩
      · refine .struct (by simp) (by decide) ?_
        intro k f hf
        simp only [List.mem_cons, Prod.mk.injEq, List.not_mem_nil, or_false] at hf
        obtain ⟨rfl, rfl⟩ := hf
        exact .prim
      · exact .prim
    · refine ⟨by decide, ?_⟩
      intro k f hf
      simp only [sNew, List.mem_cons, Prod.mk.injEq, List.not_mem_nil, or_false] at hf
      rcases hf with ⟨rfl, rfl⟩ | ⟨rfl, rfl⟩ | ⟨rfl, rfl⟩
      · refine .struct (by simp) (by decide) ?_
        intro k f hf
        simp only [List.mem_cons, Prod.mk.injEq, List.not_mem_nil, or_false] at hf
        obtain ⟨rfl, rfl⟩ := hf
        exact .prim
      · exact .prim
      · exact .prim
    · simp [sNew, LitUsableF, LitUsableP, LitUsableS, LitUsable]

theorem inside_doc {y : Val} (hy : Inside y (.dict doc)) : y = .dict doc ∨ y = .str "Config" ∨ y = .int 1 ∨
    y = .dict [("!__name__", .str "Opt"), ("lr", .str txt)] ∨ y = .str "Opt" ∨ y = .str txt ∨ y = .int 3 := by
  cases hy with
  | refl => exact .inl rfl
  | dict h1 h2 =>
    simp only [doc, List.mem_cons, Prod.mk.injEq, List.not_mem_nil, or_false] at h1
    rcases h1 with ⟨rfl, rfl⟩ | ⟨rfl, rfl⟩ | ⟨rfl, rfl⟩ | ⟨rfl, rfl⟩
    · cases h2; simp
    · cases h2; simp
    · cases h2 with
      | refl => simp
      | dict h1 h2 =>
        simp only [List.mem_cons, Prod.mk.injEq, List.not_mem_nil, or_false] at h1
        rcases h1 with ⟨rfl, rfl⟩ | ⟨rfl, rfl⟩
        · cases h2; simp
        · cases h2; simp
    · cases h2; simp

theorem ckptDoc : CkptDoc env new 1 (.dict doc) doc where
  old := rfl
  new := rfl
  version := rfl
  raw := by
    intro y hy
    rcases inside_doc hy with rfl | rfl | rfl | rfl | rfl | rfl | rfl <;> rfl
  ints := by
    intro i hi
    rcases inside_doc hi with h | h | h | h | h | h | h <;> simp only [Val.int.injEq, reduceCtorEq] at h <;> subst h
    · exact ⟨_, floatOfInt_small (by decide)⟩
    · exact ⟨_, floatOfInt_small (by decide)⟩
  shallow := by
    intro v' hv'
    simp only [upgraded] at hv'
    rw [hook1 _ rfl] at hv'
    cases hv'
    simp [doc, fsOld, Shallow, ShallowFs, ShallowF, upgraded, docEntries, Val.isInst, dkeys, ddel]

/-- the conditions of C90_partial, C90_run_partial and C90_overrides_partial are met: the new manager has a float `lr` at 10 and the new field -/
example : ∃ m, (Mgr.new (env.changed new (envOf 2)) disk10).readState (env.changed new (envOf 2)) = .ok (unread, m) ∧
    m.config = some (.inst "Config" [("opt", .inst "Opt" [("lr", .flt (.fin 10))]), ("n", .int 3), ("note", .str "x")]) := by
  refine ⟨⟨some (.inst "Config" [("opt", .inst "Opt" [("lr", .flt (.fin 10))]), ("n", .int 3), ("note", .str "x")]),
    [("opt", .node [("lr", .sched txt false "lr")])], some unread, .ckpt "latest-step000000000010", some "latest-step000000000010", disk10⟩, ?_, rfl⟩
  have : Mgr.new (env.changed new (envOf 2)) disk10 = ⟨.none, [], .none, .init, some "latest-step000000000010", disk10⟩ := by
    have : openMgr disk10 = some "latest-step000000000010" := by decide +kernel
    simp [Mgr.new, MgrEnv.changed, env, blobEnv, E, this]
  rw [this]
  rfl

example := C90_run_partial Ex.lc runOK life10 rfl "Config" "Config" fsOld fsNew ⟨1, []⟩ ⟨2, []⟩ (envOf 2) rfl compatible rfl rfl (by
  rintro t (h | h)
  · cases h; exact ckptDoc.ints
  · exact (nomatch h))
example := C90_overrides_partial Ex.lc runOK life10 rfl "Config" "Config" fsOld fsNew ⟨1, []⟩ ⟨2, []⟩ (envOf 2) rfl compatible rfl (by
  rintro t (h | h)
  · cases h; exact ⟨_, ckptDoc⟩
  · exact (nomatch h))

/-- the condition of C90_any_run_partial is met by a change that is not compatible: the new class has an upgrade rule that renames `n` -/
def newer : PyTy := .data "Config" [.mk "opt" (.data "Opt" [.mk "lr" .float .none] .none) .none, .mk "steps" .int .none]
  (some ⟨2, [(1, [.rename ["n"] ["steps"]])]⟩)

example : ∃ m, (Mgr.new (env.changed newer (envOf 2)) disk10).readState (env.changed newer (envOf 2)) = .ok (unread, m) ∧
    m.config = some (.inst "Config" [("opt", .inst "Opt" [("lr", .flt (.fin 10))]), ("steps", .int 3)]) := by
  refine ⟨⟨some (.inst "Config" [("opt", .inst "Opt" [("lr", .flt (.fin 10))]), ("steps", .int 3)]),
    [("opt", .node [("lr", .sched txt false "lr")])], some unread, .ckpt "latest-step000000000010", some "latest-step000000000010", disk10⟩, ?_, rfl⟩
  have : Mgr.new (env.changed newer (envOf 2)) disk10 = ⟨.none, [], .none, .init, some "latest-step000000000010", disk10⟩ := by
    have : openMgr disk10 = some "latest-step000000000010" := by decide +kernel
    simp [Mgr.new, MgrEnv.changed, env, blobEnv, E, this]
  rw [this]
  rfl

example := fun o m' => C90_any_run_partial runOK life10 rfl newer (envOf 2) o m'

/-- the conditions of C27_schedules_partial are met by a document with a schedule in `opt.lr` -/
example : ∃ l, typedLoad (wOld.dcfg true true) wOld.ron .none false old (.dict doc) = .ok l ∧
    Reg.at (some (.node l.schedules)) ["opt", "lr"] = some (txt, true) := ⟨_, rfl, rfl⟩
example := C27_schedules_partial Ex.lc (wOld.dcfg true true) "Config" "Config" fsOld fsNew ⟨1, []⟩ ⟨2, []⟩ compatible wOld.ron doc rfl ckptDoc.raw
  ckptDoc.ints

end ExRes

end HS
