import Verif.Model.Life
import Verif.Props.ManagerExc
import Verif.Props.ConfigFits
import Verif.Props.AssignFits
/-!
# C72: training that is interrupted and resumed any number of times
-/
namespace HS

/-- the config document that is loaded without a checkpoint and without overrides -/
def MgrEnv.initDoc (E : MgrEnv) : Val :=
  match E.init with
  | .absent => .dict []
  | .file doc => doc
  | .dir f => f.config

/-- conditions on the classes and on the arguments of the StateManager: a checkpoint directory, `deserialize` returns a
Serializable, the state is a dataclass, and the conditions of C45_class_partial on the config class and on the initial config
document with the overrides in it -/
structure RunOK (E : MgrEnv) : Prop where
  ckpt : E.ckpt = true
  cls : CfgClass E
  doc : ∀ doc1, applyOverrides E.w.ron E.cfgTy E.overrides E.initDoc = .ok doc1 → CfgDoc E doc1
  cfgEnv : EnvOK E.w.env E.cfgTy
  mat : (materialize E.cfgTy).isOk = true
  st : ∃ n fs ver, E.stTy = .data n fs ver
  stEnv : EnvOK E.w.env E.stTy
  deser : DeserSer E.deser

/-- what a user has when a step returns: the config with its schedules, the fields of the state; and the files that were written -/
structure Snap where
  config : Val
  schedules : RegD
  state : List (String × Val)
  key : Int
  files : Files

/-- `s` is what the manager has after a step, and the conditions of C45 hold of it -/
structure SnapOK (E : MgrEnv) (m' : Mgr) (s : Snap) : Prop where
  config : m'.config = some s.config
  schedules : m'.schedules = s.schedules
  /-- the state is an instance of the state class -/
  cls : ∀ o, m'.state = some o → ∃ fs ver, E.stTy = .data o.cls fs ver
  names : dkeys s.state = E.stTy.fieldNames
  state : ∀ k x, dget s.state k = some x → ∃ m'', m'.getState E k = .ok (x, m'')
  stFits : ∀ sn fs ver, E.stTy = .data sn fs ver → Fits E.w.ext true E.stTy none (.inst sn s.state)
  direct : ∀ sn segs c y, valAt (.inst sn s.state) segs = some (.ser c y) → segs.length = 1
  ser : (∃ rank, SerOK (m'.lenv E) s.state rank E.depth) ∨ (∀ k c y, dget s.state k ≠ some (.ser c y))
  key : dget s.state E.key = some (.int s.key)
  range : KeyInRange s.key
  sv : ∀ a b, (∀ k x, dget s.state k = some x → (∀ c y, x ≠ .ser c y) → dget a k = some x ∧ dget b k = some x) → E.sv a = E.sv b
  files : dget m'.disk (ckptName E.key s.key) = some (.full s.files)

/-- the checkpoint key in the files of a checkpoint -/
def fileKey (E : MgrEnv) (f : Files) : Int :=
  match loadStateObj E f.state with
  | .ok o => match dget o.attrs E.key with
    | some (.int i) => i
    | _ => 0
  | _ => 0

/-- a manager that has not read anything yet and takes everything from the files has the snapshot -/
structure Wrote (E : MgrEnv) (s : Snap) : Prop where
  key : fileKey E s.files = s.key
  range : KeyInRange s.key
  /-- the state that is loaded from the files -/
  loads : ∀ sn fs ver, E.stTy = .data sn fs ver → ∃ o, loadStateObj E s.files.state = .ok o ∧ o.cls = sn ∧ LInv (dget s.files.blobs) s.state o
  again : ∀ l, smLoadConfig E.w E.cfgTy (some s.files.config) E.overrides E.ignoreExtra = .ok l → CfgGood E l.schedules l.value
  good : CfgGood E s.schedules s.config
  dumped : ∃ bs, typedDump E.w.env (some s.schedules) false s.config = .ok (s.files.config, bs)
  /-- whether or not `UNSAFE_DESERIALIZE_PICKLE` is set -/
  restoreWith : ∀ (b : Bool) (N : Mgr), N.config = none → N.state = none →
    (∃ n, N.last = some n ∧ dget N.disk n = some (.full s.files)) →
    ∃ o m, N.readState { E with pickleOk := b } = .ok (o, m) ∧ Holds { E with pickleOk := b } m s.config s.schedules s.state

theorem Wrote.restore {E : MgrEnv} {s : Snap} (h : Wrote E s) (N : Mgr) (hc : N.config = none) (hs : N.state = none)
    (hn : ∃ n, N.last = some n ∧ dget N.disk n = some (.full s.files)) :
    ∃ o m, N.readState E = .ok (o, m) ∧ Holds E m s.config s.schedules s.state :=
  h.restoreWith E.pickleOk N hc hs hn

/-- what a step writes, and what an interrupted step leaves -/
theorem step_wrote {E : MgrEnv} (hE : RunOK E) {m m' : Mgr} {mv : Move} (hI : MInv m) (h : m.step E mv = .ok m') {s : Snap}
    (hs : SnapOK E m' s) (hgood : CfgGood E s.schedules s.config) (hfresh : dhas m.disk (ckptName E.key s.key) = false) (hnew : m.last ≠ some (ckptName E.key s.key)) :
    Wrote E s ∧ stepRun mv E.key s.key s.files m.disk m.last = some (m'.disk, m'.last) ∧
      ∀ n, m.crashStep E mv n = .ok (stepCrash mv E.key s.key s.files m.disk m.last n) := by
  obtain ⟨cn, cfs, cver, hcty⟩ := hE.cls.cfg
  obtain ⟨sn, sfs, sver, hsty⟩ := hE.st
  obtain ⟨o, m0, m1, hr, ha, j1, ⟨c1, hc1, hcur⟩, hst, hlast, hdisk, hfin⟩ := step_inv hI h
  rcases hfin with ⟨hno, _⟩ | ⟨_, c', kv, val', files, o', d', l', hc', hkv, hval', hor, hrun, rfl⟩
  · rw [hE.ckpt] at hno; exact (nomatch hno)
  rw [hc1] at hc'; cases hc'
  obtain ⟨sc, sreg, saved, val, sfiles⟩ := s
  obtain ⟨hc, hreg, hcls, hnames, hsaved, hsfit, hdirect, hser, hval, hrange, hsv, hfl⟩ := hs
  simp only at hc hreg hgood hcls hnames hsaved hsfit hdirect hser hval hrange hsv hfl hfresh hnew ⊢
  rw [hc1] at hc; cases hc
  subst hreg
  have hsfit := hsfit sn sfs sver hsty
  have hdirect := hdirect sn
  have hcls : o'.cls = sn := by
    obtain ⟨fs, ver, h⟩ := hcls o' rfl
    rw [hsty] at h
    cases h
    rfl
  have hsn : E.stTy.fieldNames.Nodup := by
    have := hsfit
    rw [hsty] at this ⊢
    simp only [Fits] at this
    exact this.1.1
  have hdp : E.depth ≠ 0 := by
    intro hd
    obtain ⟨m'', hm⟩ := hsaved _ _ hval
    simp [Mgr.getState, Mgr.readState, bind, Except.bind, hd, lazyGet] at hm
  have hkset := lazyGet_settled _ _ _ _ _ hkv
  have hgetS : ∀ k x, Settled E.stLazy o' k x → ∀ y, dget saved k = some y → y = x := by
    intro k x hs y hy
    obtain ⟨m'', hm⟩ := hsaved k y hy
    rw [getState_settled rfl hs hdp] at hm
    cases hm
    rfl
  have hkv' : kv = .int val := by
    rcases hor with ⟨_, rfl⟩ | ⟨_, hdump⟩
    · exact (hgetS E.key kv hkset _ hval).symm
    · obtain ⟨_, _, vs, _, _, _, hvs, _, _, rfl⟩ := dump_inv hdump
      obtain ⟨_, hk, _⟩ := readAll_settled _ _ _ _ _ hvs
      exact (hgetS E.key kv (hk _ _ hkset) _ hval).symm
  subst hkv'
  simp only [ckptVal, Except.ok.injEq] at hval'
  subst hval'
  rcases hor with ⟨hdh, _⟩ | ⟨_, hdump⟩
  · rw [hfresh] at hdh; exact (nomatch hdh)
  -- the files are those that were dumped
  have hff : files = sfiles := by
    have := (C41_step_saves_partial mv E.key val files m.disk m.last
      ((dget_eq_none_iff _ _).1 ((dhas_false _ _).1 hfresh)) hnew hrun).1
    rw [hfl] at this
    cases this
    rfl
  subst hff
  have hcrash : ∀ n, m.crashStep E mv n = .ok (stepCrash mv E.key val files m.disk m.last n) := by
    intro n
    have hm1d : dhas m1.disk (ckptName E.key val) = false := by rw [hdisk]; exact hfresh
    have hrs : m1.readState E = .ok (o, m1) := by simp [Mgr.readState, hst]
    simp only [Mgr.crashStep, hr, bind, Except.bind, pure, Except.pure]
    rw [ha]
    simp only [hE.ckpt, if_true, Mgr.getState, hrs, bind, Except.bind, pure, Except.pure, hkv]
    simp only [ckptVal, Mgr.readState, Mgr.readConfig, hc1, hm1d, Bool.false_eq_true, if_false]
    rw [hc1] at hdump
    rw [hdump]
    simp only [hdisk, hlast]
  refine ⟨?_, hrun, hcrash⟩
  obtain ⟨cdoc, cblobs, vs, sdoc, sblobs, hcd, hvs, hsd, hfeq, ho'⟩ := dump_inv hdump
  simp only at hcd
  obtain ⟨hlen, hkeep, hset⟩ := readAll_settled _ _ _ _ _ hvs
  rw [← ho'] at hkeep hset
  have hzk : dkeys (E.stTy.fieldNames.zip vs) = E.stTy.fieldNames := by
    simp only [dkeys]
    rw [List.map_fst_zip (by omega)]
  have hzip : E.stTy.fieldNames.zip vs = saved := by
    refine ext_kvs _ _ (by rw [hzk]; exact hsn) (by rw [hzk, hnames]) ?_
    intro k
    cases hd : dget (E.stTy.fieldNames.zip vs) k with
    | none =>
      rw [dget_eq_none_iff, hzk, ← hnames, ← dget_eq_none_iff] at hd
      exact hd.symm
    | some x =>
      have hk : k ∈ dkeys saved := by
        rw [hnames, ← hzk]
        exact List.mem_map.2 ⟨_, dget_mem hd, rfl⟩
      cases hs : dget saved k with
      | none => rw [dget_eq_none_iff] at hs; exact absurd hk hs
      | some y => rw [hgetS k x (hset k x (dget_mem hd)) y hs]
  have hsettled : ∀ k x, dget saved k = some x → Settled E.stLazy o' k x := by
    intro k x hk
    rw [← hzip] at hk
    exact hset k x (dget_mem hk)
  have hocls : (lazyGet (m1.lenv E) E.depth o E.key).obj.cls = sn := by
    have h2 := (readAll_ext (lazyGet_ext (Mgr.lenv E { m1 with state := some (lazyGet (m1.lenv E) E.depth o E.key).obj }) E.depth)
      E.stTy.fieldNames (lazyGet (m1.lenv E) E.depth o E.key).obj).cls
    rw [← ho', hcls] at h2
    exact h2.symm
  rw [hzip, hocls] at hsd
  have hattr : ∀ k x, dget saved k = some x → (∀ c y, x ≠ .ser c y) → dget o.attrs k = some x := by
    intro k x hk hns
    have h1 := (hsettled k x hk).1
    have x1 := lazyGet_ext (m1.lenv E) E.depth o E.key
    have x2 := readAll_ext (lazyGet_ext (Mgr.lenv E { m1 with state := some (lazyGet (m1.lenv E) E.depth o E.key).obj }) E.depth)
      E.stTy.fieldNames (lazyGet (m1.lenv E) E.depth o E.key).obj
    have y1 := lazyGet_loadsSer (L := m1.lenv E) hE.deser E.depth o E.key
    have y2 := readAll_loadsSer (L := Mgr.lenv E { m1 with state := some (lazyGet (m1.lenv E) E.depth o E.key).obj }) hE.deser E.depth
      E.stTy.fieldNames (lazyGet (m1.lenv E) E.depth o E.key).obj
    have hx := x1.trans x2
    have hy := LoadsSer.trans (o := o) x2 y1 y2
    rw [← ho'] at hx hy
    by_cases hkl : k ∈ loads (lazyGet (m1.lenv E) E.depth o E.key).log ++
        loads (readAll (lazyGet (Mgr.lenv E { m1 with state := some (lazyGet (m1.lenv E) E.depth o E.key).obj }) E.depth)
          (lazyGet (m1.lenv E) E.depth o E.key).obj E.stTy.fieldNames).log
    · obtain ⟨c, y, hcy⟩ := hy k hkl
      rw [h1] at hcy
      cases hcy
      exact absurd rfl (hns c y)
    · rw [hx.attr k hkl] at h1
      exact h1
  have hload : ∃ o, loadStateObj E files.state = .ok o ∧ o.cls = sn ∧ LInv (dget files.blobs) saved o := by
    have hse := hE.stEnv
    have hsf := hsfit
    rw [hsty] at hsf hse
    obtain ⟨sdoc', bs, kvs', es, f1, f2, f3, f4, f5, f6⟩ := state_roundtrip E.w hsf hse E.ignoreExtra
    rw [hsd] at f1
    simp only [Except.ok.injEq, Prod.mk.injEq] at f1
    obtain ⟨rfl, rfl⟩ := f1
    have hlinv : LInv (dget (sblobs.foldl (fun a kv => dset a kv.1 kv.2) cblobs)) saved ⟨sn, kvs', lazyAll es⟩ :=
      state_linv E.w.ext f3 f4 f6 hdirect (fun f y hm => (foldl_dset sblobs cblobs f5).1 f y hm)
    refine ⟨⟨sn, kvs', lazyAll es⟩, ?_, rfl, by rw [hfeq]; exact hlinv⟩
    simp only [hfeq, loadStateObj, hsty, f2, bind, Except.bind, pure, Except.pure, Loaded.obj]
  refine ⟨?_, hrange, ?_, ?_, hgood, ⟨cblobs, by rw [hfeq]; exact hcd⟩, ?_⟩
  · -- the key that is read back
    obtain ⟨o, h1, _, h2⟩ := hload
    have hk : dget o.attrs E.key = some (.int val) := by
      rcases h2 _ _ hval with ⟨_, h⟩ | ⟨c, y, _, h, _⟩
      · exact h
      · exact (nomatch h)
    simp only [fileKey, h1, hk]
  · intro sn' fs' ver' h
    rw [hsty] at h
    cases h
    exact hload
  · intro l hl
    rw [hfeq] at hl
    exact hgood.reload hE.cls hE.cfgEnv hE.mat hcd hl
  · intro b N hNc hNs hN
    obtain ⟨rank, hser⟩ : ∃ rank : String → Nat, SerOK (Mgr.lenv E { m1 with state := some o', disk := d', last := l' }) saved rank E.depth ∨ (∀ k c y, dget saved k ≠ some (.ser c y)) := by
      rcases hser with ⟨rank, h⟩ | h
      · exact ⟨rank, .inl h⟩
      · exact ⟨fun _ => 0, .inr h⟩
    obtain ⟨o2, m2, g1, g2, _⟩ := restore_core { E with pickleOk := b } N hNc hNs (files := files)
      (.inl hN) hcty hE.cfgEnv hE.mat _ c1 hgood.fits hgood.depth hcd (hgood.again hE.cls hE.cfgEnv hE.mat) hsty hE.stEnv saved hsfit hdirect hsd hfeq rank
      (hser.elim (fun h => .inl fun _ => ⟨h.lazy, h.inv, h.deps, h.rank⟩) (fun h => .inr ⟨h, hdp⟩)) o.attrs hcur
      (fun a ha => hsv _ _ fun k x hk hns => ⟨ha k x hk hns, hattr k x hk hns⟩)
    exact ⟨o2, m2, g1, g2⟩

/-! ## lifetimes -/

/-- The system: the checkpoint directory, the running StateManager (`none`: no process is running), and two ghost components.
`safe`: what the user had when the last step returned, or what was restored at the last start. `pend`: what the user had in a step
that was interrupted since. -/
structure LSys where
  disk : Dir Files
  mgr : Option Mgr
  safe : Option Snap
  pend : Option Snap

/-- Histories over an initial directory in which no name ends in a number: any sequence of starting a process with a StateManager,
operations on it that return or raise, steps that return, steps that raise, steps in which the process is killed after any number
of their effects on the directory, and processes that are killed at any other time. The user may assign to fields of the config
(`assign`, with the conditions of `AssignOK`). A step uses a checkpoint key that is larger
than the restored or last saved one. -/
inductive Life (E : MgrEnv) (d0 : Dir Files) : LSys → Prop where
  | init : (∀ n ∈ dkeys d0, suffixInt n = .none) → Life E d0 ⟨d0, .none, .none, .none⟩
  /-- `sn` is whichever of the two has the files that are found (there always is one: C72_start) -/
  | start {s : LSys} (sn : Option Snap) : Life E d0 s → (sn = s.safe ∨ s.pend.isSome = true ∧ sn = s.pend) →
      restored s.disk = sn.map Snap.files → Life E d0 ⟨s.disk, some (Mgr.new E s.disk), sn, .none⟩
  | op {s : LSys} {m : Mgr} (op : MOp) : Life E d0 s → s.mgr = some m → (∀ mv, op ≠ .step mv) →
      Life E d0 ⟨s.disk, some (m.execX E op).2, s.safe, s.pend⟩
  /-- `manager.config.a.b.c = v`, which may raise -/
  | assign {s : LSys} {m : Mgr} (path : List String) (v : Val) : Life E d0 s → s.mgr = some m →
      AssignOK E (configX E m).2.schedules path v → Life E d0 ⟨s.disk, some (setConfigX E path v m).2, s.safe, s.pend⟩
  | step {s : LSys} {m m' : Mgr} (mv : Move) (sn : Snap) : Life E d0 s → s.mgr = some m → m.step E mv = .ok m' → SnapOK E m' sn →
      (∀ c, s.safe = some c → c.key < sn.key) → Life E d0 ⟨m'.disk, some m', some sn, .none⟩
  | raise {s : LSys} {m : Mgr} (mv : Move) (e : Err) : Life E d0 s → s.mgr = some m → (m.execX E (.step mv)).1 = .error e →
      Life E d0 ⟨(m.execX E (.step mv)).2.disk, some (m.execX E (.step mv)).2, s.safe, s.pend⟩
  /-- a step that would have returned `m'` -/
  | crashStep {s : LSys} {m m' : Mgr} {d : Dir Files} (mv : Move) (n : Nat) (sn : Snap) : Life E d0 s → s.mgr = some m →
      m.step E mv = .ok m' → SnapOK E m' sn → (∀ c, s.safe = some c → c.key < sn.key) → m.crashStep E mv n = .ok d →
      Life E d0 ⟨d, .none, s.safe, some sn⟩
  | crash {s : LSys} : Life E d0 s → Life E d0 ⟨s.disk, .none, s.safe, s.pend⟩

/-- writing a checkpoint keeps the others -/
theorem checkpointOps_keeps {P : Type} {d : Dir P} {n t : String} {e : Ent P} {i : Int} (mv : Move) (p : P) (h : dget d n = some e)
    (hi : suffixInt n = some i) : dget (runOps d (checkpointOps mv t p)) n ≠ none := by
  simp only [checkpointOps]
  split
  · simp only [runOps, List.foldl, Op.run]
    by_cases hn : t = n
    · subst hn; simp
    · rw [dget_dset_ne _ _ hn, h]; simp
  · rename_i id _
    have htmp : t ++ "." ++ id ++ ".tmp" ≠ n := by
      intro he
      rw [← he, suffixInt_tmp] at hi
      exact (nomatch hi)
    simp only [runOps, List.foldl, Op.run, dget_dset_self]
    by_cases hn : t = n
    · subst hn; simp
    · rw [dget_dset_ne _ _ hn, dget_ddel_ne _ htmp, dget_dset_ne _ _ htmp, dget_dset_ne _ _ htmp, h]
      simp

/-- the manager was started on a directory from which only configs that round trip are read -/
def MgrFits (E : MgrEnv) (m : Mgr) : Prop :=
  ∃ d, (∀ (l : Loaded) doc, ConfigFrom E d doc → smLoadConfig E.w E.cfgTy doc E.overrides E.ignoreExtra = .ok l →
      CfgGood E l.schedules l.value) ∧
    Good E d (fun l => CfgGood E l.schedules) m

structure LInv' (E : MgrEnv) (d0 : Dir Files) (s : LSys) : Prop where
  hist : ∃ k, Hist E.key (fileKey E) d0 ⟨s.disk, s.mgr.map Mgr.last, s.safe.map Snap.files, s.pend.map Snap.files, k⟩
  safe : ∀ sn, s.safe = some sn → Wrote E sn
  pend : ∀ sn, s.pend = some sn → Wrote E sn
  mgr : ∀ m, s.mgr = some m → m.disk = s.disk ∧ MgrFits E m

theorem good_exec {E : MgrEnv} {m : Mgr} (h : MgrFits E m) (op : MOp) : MgrFits E (m.execX E op).2 := by
  obtain ⟨d, h0, h⟩ := h
  exact ⟨d, h0, execX_good h0 (cfgGood_kept E) h op⟩

/-- assigning to the config touches nothing else -/
theorem setConfigX_rest (E : MgrEnv) (path : List String) (v : Val) (m : Mgr) :
    (setConfigX E path v m).2.disk = m.disk ∧ (setConfigX E path v m).2.last = m.last ∧ (setConfigX E path v m).2.state = m.state ∧
      (setConfigX E path v m).2.src = m.src ∧ (setConfigX E path v m).2.schedules = (configX E m).2.schedules := by
  have key : ∀ c, m.config = some c → (configX E m).2 = m := fun c hc => by simp only [configX, hc]
  cases hc : m.config with
  | some c =>
    rw [setConfigX_some hc, key c hc]
    cases setAttrAt v path c <;> exact ⟨rfl, rfl, rfl, rfl, rfl⟩
  | none =>
    simp only [setConfigX, Call.bind_eq, configX, hc]
    cases hl : m.loadConfig E with
    | error e => exact ⟨rfl, rfl, rfl, rfl, rfl⟩
    | ok l =>
      simp only [Call.lift, Call.modify]
      cases setAttrAt v path l.value <;> exact ⟨rfl, rfl, rfl, rfl, rfl⟩

theorem good_assign {E : MgrEnv} (hE : RunOK E) {m : Mgr} (h : MgrFits E m) {path : List String} {v : Val}
    (hA : AssignOK E (configX E m).2.schedules path v) : MgrFits E (setConfigX E path v m).2 := by
  obtain ⟨d, h0, h⟩ := h
  refine ⟨d, h0, ?_⟩
  have hc := configX_trip h0 m h
  simp only [setConfigX, Call.bind_eq]
  split at hc
  · rename_i c m' he
    rw [he] at hA
    simp only [Call.lift, Call.modify]
    cases hs : setAttrAt v path c with
    | error e => exact hc.1.good
    | ok c' =>
      obtain ⟨⟨h1, h2, h3⟩, h4⟩ := hc
      obtain ⟨doc, l, a, b, d, e⟩ := h2.loaded h4
      simp only at hA
      rw [← d] at e
      refine ⟨⟨h1.top, fun _ => rfl⟩, .inr ⟨doc, l, c', a, b, d, rfl, ?_⟩⟩
      show CfgGood E l.schedules c'
      rw [← d]
      exact cfgGood_assign hE.cls h1.top e hA hs
  · exact hc

theorem good_step {E : MgrEnv} {m m' : Mgr} (h : MgrFits E m) {mv : Move} (hst : m.step E mv = .ok m') : MgrFits E m' := by
  have ha := stepX_agree E mv m
  rw [hst] at ha
  have := good_exec h (.step mv)
  simp only [Mgr.execX, ha.ok rfl] at this
  exact this

theorem MgrFits.snap {E : MgrEnv} {m : Mgr} (h : MgrFits E m) {s : Snap} (hs : SnapOK E m s) :
    CfgGood E s.schedules s.config := by
  obtain ⟨d, _, h⟩ := h
  obtain ⟨doc, l, _, _, h3, h4⟩ := h.2.loaded hs.config
  rw [← hs.schedules, h3]
  exact h4

theorem MgrFits.inv {E : MgrEnv} {m : Mgr} (h : MgrFits E m) : MInv m := by
  obtain ⟨d, _, h⟩ := h
  exact h.1

/-- the checkpoint name is not in use -/
theorem key_fresh {E : MgrEnv} {d0 : Dir Files} {s : LSys} {m : Mgr} (h : LInv' E d0 s) (hm : s.mgr = some m) {key : Int}
    (hr : KeyInRange key) (hlt : ∀ c, s.safe = some c → c.key < key) :
    dhas m.disk (ckptName E.key key) = false ∧ m.last ≠ some (ckptName E.key key) := by
  obtain ⟨k, hh⟩ := h.hist
  obtain ⟨cur, ⟨h1, h2⟩, _, h3, _⟩ := hist_inv hh
  obtain ⟨h4, h5⟩ := h3 m.last (by simp [hm])
  simp only at h1 h2 h5
  have hcur : ∀ c, cur = some c → fileKey E c < key := by
    intro c hc
    rw [hc] at h5
    cases hs : s.safe with
    | none => rw [hs] at h5; exact (nomatch h5)
    | some sn =>
      rw [hs] at h5
      cases h5
      rw [(h.safe sn hs).key]
      exact hlt sn hs
  rw [(h.mgr m hm).1]
  constructor
  · rw [dhas_false, dget_eq_none_iff]
    intro hmem
    obtain ⟨c, hc, hor⟩ := h1 _ hmem _ (suffixInt_ckptName E.key hr)
    have := hcur c hc
    rcases hor with he | he
    · have h6 := suffixInt_ckptName E.key hr
      rw [he, suffixInt_ckptName E.key (h2 c hc).1, Option.some.injEq] at h6
      omega
    · omega
  · intro he
    rw [h4] at he
    cases cur with
    | none => exact (nomatch he)
    | some c =>
      simp only [Option.map_some, Option.some.injEq] at he
      have h6 := suffixInt_ckptName E.key hr
      rw [← he, suffixInt_ckptName E.key (h2 c rfl).1, Option.some.injEq] at h6
      have := hcur c rfl
      omega

theorem raise_disk {E : MgrEnv} {d0 : Dir Files} {s : LSys} {m : Mgr} (ih : LInv' E d0 s) (hm : s.mgr = some m) (mv : Move) (e : Err)
    (he : (m.execX E (.step mv)).1 = .error e) : (m.execX E (.step mv)).2.disk = m.disk := by
  obtain ⟨k, hh⟩ := ih.hist
  obtain ⟨h4, hg⟩ := ih.mgr m hm
  obtain ⟨d1, d2⟩ := C71_step_disk E m mv e he
  rcases d2 with h | ⟨n, val, files, e1, e2, e3⟩
  · exact h
  · exfalso
    obtain ⟨cur, ⟨_, h2⟩, _, h3, _⟩ := hist_inv hh
    obtain ⟨h5, _⟩ := h3 m.last (by simp [hm])
    rw [e1] at h5
    cases cur with
    | none => exact (nomatch h5)
    | some c =>
      simp only [Option.map_some, Option.some.injEq] at h5
      obtain ⟨h6, h7⟩ := h2 c rfl
      simp only at h7
      rw [← h5, ← h4] at h7
      have hi : suffixInt n = some (fileKey E c) := by rw [h5]; exact suffixInt_ckptName E.key h6
      rw [e3] at e2
      split at e2
      · simp only [runOps, List.foldl] at e2
        rw [h7] at e2
        exact (nomatch e2)
      · exact checkpointOps_keeps mv files h7 hi e2

theorem life_inv {E : MgrEnv} (hE : RunOK E) {d0 : Dir Files} {s : LSys} (h : Life E d0 s) : LInv' E d0 s := by
  induction h with
  | init hd => exact ⟨⟨0, .init (.empty hd)⟩, nofun, nofun, nofun⟩
  | @start s sn _ hor hres ih =>
    obtain ⟨⟨k, hh⟩, h2, h3, _⟩ := ih
    refine ⟨⟨k, ?_⟩, ?_, nofun, ?_⟩
    · have := hh.start
      simp only [hres] at this
      simpa only [Option.map_some, Mgr.new, hE.ckpt, if_true, Option.map_none] using this
    · intro sn' hs
      simp only at hs
      subst hs
      rcases hor with h | ⟨_, h⟩
      · exact h2 _ h.symm
      · exact h3 _ h.symm
    · intro m hm
      cases hm
      have hw : ∀ t, sn = some t → Wrote E t := by
        intro t hs
        subst hs
        rcases hor with h | ⟨_, h⟩
        · exact h2 _ h.symm
        · exact h3 _ h.symm
      refine ⟨rfl, s.disk, ?_, MInv.new E s.disk, .inl ⟨rfl, rfl, rfl⟩⟩
      intro l doc hf hl
      have hinit : doc.getD (.dict []) = E.initDoc → CfgGood E l.schedules l.value := by
        intro hd
        refine load_cfgGood hE.cls hE.cfgEnv (doc := doc) ?_ hl
        intro doc1 ho
        rw [hd] at ho
        exact hE.doc doc1 ho
      cases hf with
      | @ckpt n f _ h3 h4 =>
        have hr : restored s.disk = some f := by simp [restored, h3, h4]
        rw [hr] at hres
        cases sn with
        | none => exact (nomatch hres)
        | some t =>
          simp only [Option.map_some, Option.some.injEq] at hres
          rw [hres] at hl
          exact (hw t rfl).again l hl
      | file _ h => exact hinit (by simp [MgrEnv.initDoc, h])
      | dir _ h => exact hinit (by simp [MgrEnv.initDoc, h])
      | absent _ h => exact hinit (by simp [MgrEnv.initDoc, h])
  | @op s m op _ hm hop ih =>
    obtain ⟨⟨k, hh⟩, h2, h3, h4⟩ := ih
    obtain ⟨d1, d2⟩ := C71_disk E m op hop
    refine ⟨⟨k, ?_⟩, h2, h3, ?_⟩
    · simpa [hm, d2] using hh
    · intro m' hm'
      cases hm'
      exact ⟨by rw [d1]; exact (h4 m hm).1, good_exec (h4 m hm).2 op⟩
  | @assign s m path v _ hm hA ih =>
    obtain ⟨⟨k, hh⟩, h2, h3, h4⟩ := ih
    obtain ⟨d1, d2, _⟩ := setConfigX_rest E path v m
    refine ⟨⟨k, ?_⟩, h2, h3, ?_⟩
    · simpa [hm, d2] using hh
    · intro m' hm'
      cases hm'
      exact ⟨by rw [d1]; exact (h4 m hm).1, good_assign hE (h4 m hm).2 hA⟩
  | @step s m m' mv sn _ hm hst hsn hlt ih =>
    obtain ⟨f1, f2⟩ := key_fresh ih hm hsn.range hlt
    obtain ⟨h4, hg⟩ := ih.mgr m hm
    have g1 := (good_step hg hst).snap hsn
    obtain ⟨w1, w2, _⟩ := step_wrote hE hg.inv hst hsn g1 f1 f2
    obtain ⟨k, hh⟩ := ih.hist
    refine ⟨⟨k, ?_⟩, ?_, nofun, ?_⟩
    · have := hh.step (last := m.last) (last' := m'.last) (d' := m'.disk) mv sn.files (by simp [hm]) (by rw [w1.key]; exact w1.range) (by
        intro c hc
        simp only [Option.map_eq_some_iff] at hc
        obtain ⟨c', hc', rfl⟩ := hc
        rw [w1.key, (ih.safe c' hc').key]
        exact hlt c' hc') (by simp only [w1.key]; rw [← h4]; exact w2)
      simpa using this
    · intro sn' hs; cases hs; exact w1
    · intro m'' hm''
      cases hm''
      exact ⟨rfl, good_step hg hst⟩
  | @raise s m mv e _ hm he ih =>
    obtain ⟨k, hh⟩ := ih.hist
    obtain ⟨h4, hg⟩ := ih.mgr m hm
    obtain ⟨d1, d2⟩ := C71_step_disk E m mv e he
    have hd : (m.execX E (.step mv)).2.disk = m.disk := raise_disk ih hm mv e he
    refine ⟨⟨k, ?_⟩, ih.safe, ih.pend, ?_⟩
    · simpa [hm, d1, hd, h4] using hh
    · intro m' hm'
      cases hm'
      exact ⟨rfl, good_exec hg (.step mv)⟩
  | @crashStep s m m' d mv n sn _ hm hst hsn hlt hcr ih =>
    obtain ⟨f1, f2⟩ := key_fresh ih hm hsn.range hlt
    obtain ⟨h4, hg⟩ := ih.mgr m hm
    have g1 := (good_step hg hst).snap hsn
    obtain ⟨w1, w2, w3⟩ := step_wrote hE hg.inv hst hsn g1 f1 f2
    obtain ⟨k, hh⟩ := ih.hist
    refine ⟨⟨k + 1, ?_⟩, ih.safe, ?_, nofun⟩
    · have := hh.crashStep (last := m.last) mv sn.files n (by simp [hm]) (by rw [w1.key]; exact w1.range) (by
        intro c hc
        simp only [Option.map_eq_some_iff] at hc
        obtain ⟨c', hc', rfl⟩ := hc
        rw [w1.key, (ih.safe c' hc').key]
        exact hlt c' hc')
      rw [w3 n] at hcr
      cases hcr
      simp only [w1.key] at this
      rw [h4]
      simpa using this
    · intro sn' hs; cases hs; exact w1
  | @crash s _ ih =>
    obtain ⟨k, hh⟩ := ih.hist
    exact ⟨⟨k, by simpa using hh.crash⟩, ih.safe, ih.pend, nofun⟩

/-! ## C72 -/

/-- C72: at any moment, however often processes were killed before, a StateManager started now finds either what the user had when
the last step returned (or at the last start), or what they had in the step that was interrupted since: the first access to the
state gives that config, with its schedules, and every field of the state reads as it was, in any order. If no step ever got far
enough, it starts from nothing. -/
theorem C72_crash_safe_partial {E : MgrEnv} (hE : RunOK E) {d0 : Dir Files} {s : LSys} (h : Life E d0 s) :
    ∃ sn, (sn = s.safe ∨ s.pend.isSome = true ∧ sn = s.pend) ∧ restored s.disk = sn.map Snap.files ∧
      match sn with
      | some t => ∃ o m, (Mgr.new E s.disk).readState E = .ok (o, m) ∧ Holds E m t.config t.schedules t.state
      | none => (Mgr.new E s.disk).last = none := by
  have hi := life_inv hE h
  obtain ⟨k, hh⟩ := hi.hist
  obtain ⟨cur, h1, h2, _⟩ := hist_inv hh
  obtain ⟨h3, h4⟩ := h1.openMgr_eq
  simp only at h2 h3 h4
  have key : ∀ sn : Option Snap, (∀ t, sn = some t → Wrote E t) → cur = sn.map Snap.files →
      restored s.disk = sn.map Snap.files ∧ match sn with
      | some t => ∃ o m, (Mgr.new E s.disk).readState E = .ok (o, m) ∧ Holds E m t.config t.schedules t.state
      | none => (Mgr.new E s.disk).last = none := by
    intro sn hw hc
    refine ⟨by rw [h4, hc], ?_⟩
    cases sn with
    | none =>
      rw [hc] at h3
      simp [Mgr.new, hE.ckpt, h3]
    | some t =>
      rw [hc] at h3
      have := (h1.2 t.files (by rw [hc]; rfl)).2
      exact (hw t rfl).restore (Mgr.new E s.disk) rfl rfl ⟨_, by simp only [Mgr.new, hE.ckpt, if_true, h3]; rfl, this⟩
  rcases h2 with h2 | ⟨h2, h5⟩
  · exact ⟨s.safe, .inl rfl, key _ hi.safe h2⟩
  · exact ⟨s.pend, .inr ⟨by simpa using h2, rfl⟩, key _ hi.pend h5⟩

/-- C72: a process can always be started. -/
theorem C72_start {E : MgrEnv} (hE : RunOK E) {d0 : Dir Files} {s : LSys} (h : Life E d0 s) :
    ∃ sn, Life E d0 ⟨s.disk, some (Mgr.new E s.disk), sn, .none⟩ := by
  obtain ⟨sn, h1, h2, _⟩ := C72_crash_safe_partial hE h
  exact ⟨sn, .start sn h h1 h2⟩

/-- C72: a step that returned is never lost: from then on a new StateManager never starts from nothing. -/
theorem C72_never_lost_partial {E : MgrEnv} (hE : RunOK E) {d0 : Dir Files} {s : LSys} (h : Life E d0 s) (hs : s.safe.isSome = true) :
    ∃ t o m, (Mgr.new E s.disk).readState E = .ok (o, m) ∧ Holds E m t.config t.schedules t.state ∧
      (s.safe = some t ∨ s.pend = some t) := by
  obtain ⟨sn, h1, _, h3⟩ := C72_crash_safe_partial hE h
  cases sn with
  | none =>
    rcases h1 with h1 | ⟨h1, h2⟩
    · rw [← h1] at hs; exact (nomatch hs)
    · rw [← h2] at h1; exact (nomatch h1)
  | some t =>
    obtain ⟨o, m, a, b⟩ := h3
    exact ⟨t, o, m, a, b, h1.elim (fun h => .inl h.symm) (fun h => .inr h.2.symm)⟩

/-- C72: a step that raises leaves the directory as it was. -/
theorem C72_raise {E : MgrEnv} (hE : RunOK E) {d0 : Dir Files} {s : LSys} (h : Life E d0 s) {m : Mgr} (hm : s.mgr = some m)
    (mv : Move) (e : Err) (he : (m.execX E (.step mv)).1 = .error e) : (m.execX E (.step mv)).2.disk = s.disk := by
  have hi := life_inv hE h
  rw [raise_disk hi hm mv e he, (hi.mgr m hm).1]

namespace ExLife
open ExM

/-- the example of C51, started from a directory of files instead of a checkpoint -/
def env : MgrEnv := { blobEnv with init := .dir blobFiles }

def filesAt (i : Int) : Files :=
  ⟨.dict [("!__name__", .str "Config"), ("opt", .dict [("!__name__", .str "Opt"), ("lr", .str txt)]), ("n", .int 3)],
   .dict [("!__name__", .str "State"), ("step", .int i), ("net", .str "<blob:msgpack>")], [("state.net.msgpack", .int 7)]⟩

/-- what the user has at step `i` -/
def snap (i : Int) : Snap := ⟨cfgV i, regd, [("step", .int i), ("net", .ser "Net" (.int 7))], i, filesAt i⟩

/-- the manager after the step in which the checkpoint key was `i` -/
def after (i : Int) (name : String) (src : Src) : Mgr :=
  ⟨some (cfgV i), regd, some ⟨"State", [("step", .int i), ("net", .ser "Net" (.int 7))], []⟩, src, some name,
   [(name, .full (filesAt i))]⟩

theorem runOK : RunOK env where
  ckpt := rfl
  cls := ⟨blob_class.cfg, blob_class.ty, blob_class.ids, blob_class.decl, blob_class.firm, .nil⟩
  doc := by
    intro doc1 h
    cases h
    refine ⟨by simp [MgrEnv.initDoc, env, blobFiles, Plain, PlainD, PlainP, dkeys], ?_, fun h => absurd rfl h,
      fun _ _ _ _ o ho => absurd ho (by simp [env, blobEnv, E])⟩
    simp [MgrEnv.initDoc, env, blobEnv, E, cfgTy, Shallow, ShallowFs, ShallowF, blobFiles, upgraded, docEntries, Val.isInst, dkeys]
  cfgEnv := by simp [env, blobEnv, E, cfgTy, w, EnvOK, EnvOKf, EnvOKf1, Fld.name, Fld.dflt]
  mat := rfl
  st := ⟨_, _, _, rfl⟩
  stEnv := by simp [env, blobEnv, E, blobTy, w, EnvOK, EnvOKf, EnvOKf1, Fld.name, Fld.dflt]
  deser := by
    intro c y vs x h
    cases h
    exact ⟨c, y, rfl⟩

theorem snapOK (i : Int) (hi : KeyInRange i) (name : String) (hn : ckptName "step" i = name) (src : Src) :
    SnapOK env (after i name src) (snap i) where
  config := rfl
  schedules := rfl
  cls := by intro o ho; cases ho; exact ⟨_, _, rfl⟩
  names := rfl
  state := by
    intro k x hk
    simp only [snap, dget] at hk
    split at hk
    · rename_i h; subst h; cases hk; exact ⟨after i name src, rfl⟩
    · split at hk
      · rename_i h; subst h; cases hk; exact ⟨after i name src, rfl⟩
      · exact (nomatch hk)
  stFits := by
    intro sn fs ver h
    cases h
    simp [env, blobEnv, E, blobTy, snap, Fits, FitsFs, FitsF, ClassOK, VerOK, NameOK, IdOK, Reg.isSched, Reg.child, Fld.name]
    exact ⟨by decide, .inl ⟨_, rfl⟩, trivial, rfl⟩
  direct := by
    intro sn segs c y h
    match segs with
    | [] => simp [valAt] at h
    | [_] => rfl
    | a :: b :: ss =>
      simp only [snap, valAt, dget] at h
      split at h
      · rename_i h2
        split at h2
        · cases h2; simp [valAt] at h
        · split at h2
          · cases h2; simp [valAt] at h
          · exact (nomatch h2)
      · exact (nomatch h)
  ser := .inl ⟨fun _ => 0, rfl, fun _ _ _ _ _ _ => rfl, fun _ _ _ _ d hd => by simp [Mgr.lenv, env, blobEnv, E] at hd,
    fun _ _ => by simp [env, blobEnv, E]⟩
  key := rfl
  range := hi
  sv := by
    intro a b h
    obtain ⟨h1, h2⟩ := h "step" (.int i) rfl (by simp)
    funext t
    simp [env, blobEnv, E, ramp, h1, h2]
  files := by
    show dget _ (ckptName "step" i) = _
    rw [hn]
    simp [after, snap, dget]

theorem new_empty : Mgr.new env [] = ⟨.none, [], .none, .init, .none, []⟩ := by
  have : openMgr ([] : Dir Files) = none := by decide +kernel
  simp [Mgr.new, env, blobEnv, E, this]

def disk10 : Dir Files := [("latest-step000000000010", .full (filesAt 10))]

theorem read10 : (Mgr.new env []).readState env = .ok (unread, ⟨some (cfgV 10), regd, some unread, .init, .none, []⟩) := by
  rw [new_empty]
  rfl

theorem step10 : (Mgr.new env []).step env ⟨.none, false⟩ = .ok (after 10 "latest-step000000000010" .init) := by
  simp only [Mgr.step, read10, bind, Except.bind]
  simp only [Mgr.readState, Mgr.apply, Mgr.readConfig, bind, Except.bind]
  rfl

theorem new10 : Mgr.new env disk10 = ⟨.none, [], .none, .init, some "latest-step000000000010", disk10⟩ := by
  have : openMgr disk10 = some "latest-step000000000010" := by decide +kernel
  simp [Mgr.new, env, blobEnv, E, this]

/-- the second manager with `step = 20` -/
def set20 : Mgr :=
  ⟨some (cfgV 10), regd, some ⟨"State", [("step", .int 20), ("net", .none)], [("net", ⟨"Net", "state.net.msgpack", false⟩)]⟩,
   .ckpt "latest-step000000000010", some "latest-step000000000010", disk10⟩

theorem set20_eq : (Mgr.new env disk10).setState env "step" (.int 20) = .ok set20 := by
  rw [new10]
  rfl

theorem step20 : set20.step env ⟨some "x", false⟩ = .ok (after 20 "latest-step000000000020" (.ckpt "latest-step000000000010")) := by
  simp only [Mgr.step, Mgr.readState, Mgr.apply, Mgr.readConfig, bind, Except.bind]
  rfl

theorem name10 : ckptName "step" 10 = "latest-step000000000010" := by decide +kernel
theorem name20 : ckptName "step" 20 = "latest-step000000000020" := by decide +kernel

/-- a history: a first process makes a step at 10 and is killed; a second one is started, sets `step = 20` and is killed in its
step, in which it had copied a part of the new checkpoint -/
example : ∃ d, Life env [] ⟨d, .none, some (snap 10), some (snap 20)⟩ ∧ d.length = 2 := by
  have h1 : Life env [] ⟨disk10, some (after 10 "latest-step000000000010" .init), some (snap 10), .none⟩ := by
    refine Life.step (s := ⟨[], some (Mgr.new env []), .none, .none⟩) ⟨.none, false⟩ (snap 10) ?_ rfl step10
      (snapOK 10 (by simp [KeyInRange]) _ name10 _) nofun
    exact Life.start (s := ⟨[], .none, .none, .none⟩) .none (.init nofun) (.inl rfl) (by
      have : openMgr ([] : Dir Files) = none := by decide +kernel
      simp [restored, this])
  have h2 : Life env [] ⟨disk10, some (Mgr.new env disk10), some (snap 10), .none⟩ := by
    refine Life.start (s := ⟨disk10, .none, some (snap 10), .none⟩) (some (snap 10)) h1.crash (.inl rfl) ?_
    have : openMgr disk10 = some "latest-step000000000010" := by decide +kernel
    simp only [restored, this]
    rfl
  have h3 : Life env [] ⟨disk10, some set20, some (snap 10), .none⟩ := by
    have := Life.op (.setState "step" (.int 20)) h2 rfl nofun
    have he := execX_exec env (Mgr.new env disk10) (.setState "step" (.int 20)) |>.ok (by simp only [Mgr.exec, set20_eq]; rfl)
    rw [he] at this
    exact this
  have hg := (life_inv runOK h3 |>.mgr _ rfl).2
  have hsn := (good_step hg step20).snap (snapOK 20 (by simp [KeyInRange]) _ name20 _)
  obtain ⟨_, _, h4⟩ := step_wrote (mv := ⟨some "x", false⟩) runOK (m := set20) hg.inv step20
    (snapOK 20 (by simp [KeyInRange]) _ name20 _) hsn (by show dhas disk10 (ckptName "step" 20) = _; rw [name20]; decide +kernel)
    (by show _ ≠ some (ckptName "step" 20); rw [name20]; simp [set20])
  have h5 : set20.crashStep env ⟨some "x", false⟩ 1 =
      .ok [("latest-step000000000010", .full (filesAt 10)), ("latest-step000000000020.x.tmp", .broken)] := by
    rw [h4 1]
    simp only [stepCrash, stepOps, snap, set20, env, blobEnv, E, name20]
    rfl
  refine ⟨_, Life.crashStep ⟨some "x", false⟩ 1 (snap 20) h3 rfl step20 (snapOK 20 (by simp [KeyInRange]) _ name20 _)
    (by intro c hc; cases hc; decide) h5, rfl⟩

end ExLife

end HS
