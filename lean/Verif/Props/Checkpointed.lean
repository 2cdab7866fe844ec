import Verif.Props.Restore
/-!
# C45: a checkpoint restores what was saved
-/
namespace HS

/-- reading the fields `ks` one after the other -/
def reads (ks : List String) : List MOp := ks.map .getState

/-- in a state where every field has its value, in memory or on disk, fields can be read in any order -/
theorem reads_ok {E : MgrEnv} {saved : List (String × Val)} {rank : String → Nat} :
    ∀ (ks : List String) (m : Mgr) (o : LObj), m.state = some o → LInv (m.lenv E).disk saved o →
      SerOK (m.lenv E) saved rank E.depth → (∀ k ∈ ks, (dget saved k).isSome = true) →
      ∃ m' o', m.run E (reads ks) = .ok m' ∧ m'.state = some o' ∧ LInv (m'.lenv E).disk saved o' ∧ m'.lenv E = m.lenv E := by
  intro ks
  induction ks with
  | nil => intro m o ho hl _ _; exact ⟨m, o, rfl, ho, hl, rfl⟩
  | cons k ks ih =>
    intro m o ho hl hs hk
    obtain ⟨x, hx⟩ := Option.isSome_iff_exists.1 (hk k (by simp))
    obtain ⟨h1, h2, _, _⟩ := lazyGet_inv hs E.depth o k x hl hx (hs.rank k (hk k (by simp)))
    have hexec : m.exec E (.getState k) = .ok { m with state := some (lazyGet (m.lenv E) E.depth o k).obj } := by
      simp only [Mgr.exec, Mgr.getState, Mgr.readState, ho, bind, Except.bind, pure, Except.pure, h1]
    obtain ⟨m', o', r1, r2, r3, r4⟩ := ih { m with state := some (lazyGet (m.lenv E) E.depth o k).obj } _ rfl h2 hs
      (fun j hj => hk j (List.mem_cons_of_mem _ hj))
    refine ⟨m', o', ?_, r2, r3, r4.trans rfl⟩
    simp only [reads, List.map_cons, Mgr.run, hexec, bind, Except.bind]
    exact r1

/-- in a state without lazy fields -/
theorem reads_plain {E : MgrEnv} {saved : List (String × Val)} (hd : E.depth ≠ 0) :
    ∀ (ks : List String) (m : Mgr) (o : LObj), m.state = some o → (∀ k x, dget saved k = some x → Settled E.stLazy o k x) →
      (∀ k ∈ ks, (dget saved k).isSome = true) → m.run E (reads ks) = .ok m := by
  intro ks
  induction ks with
  | nil => intro m o _ _ _; rfl
  | cons k ks ih =>
    intro m o ho hset hk
    obtain ⟨x, hx⟩ := Option.isSome_iff_exists.1 (hk k (by simp))
    have hexec : m.exec E (.getState k) = .ok m := by
      simp only [Mgr.exec, getState_settled ho (hset k x hx) hd, bind, Except.bind, pure, Except.pure]
    simp only [reads, List.map_cons, Mgr.run, hexec, bind, Except.bind]
    exact ih m o ho hset (fun j hj => hk j (List.mem_cons_of_mem _ hj))

/-- what the user has in a manager: a config with schedules, and a state whose fields read as `saved` -/
structure Holds (E : MgrEnv) (m : Mgr) (c : Val) (reg : RegD) (saved : List (String × Val)) : Prop where
  config : m.readConfig E = .ok (c, m)
  schedules : RegEqv (some (.node reg)) (some (.node m.schedules))
  /-- after reading any fields in any order, every field reads as saved -/
  state : ∀ ks : List String, (∀ k ∈ ks, (dget saved k).isSome = true) → ∃ m', m.run E (reads ks) = .ok m' ∧
    ∀ k x, dget saved k = some x → ∃ m'', m'.getState E k = .ok (x, m'')

/-- the overrides, given again when the config is loaded as it is written now, change nothing -/
def Again (E : MgrEnv) (reg : RegD) (c : Val) : Prop :=
  ∀ doc bs, typedDump E.w.env (some reg) false c = .ok (doc, bs) →
    smLoadConfig E.w E.cfgTy (some doc) E.overrides E.ignoreExtra = smLoadConfig E.w E.cfgTy (some doc) [] E.ignoreExtra

theorem again_nil {E : MgrEnv} (h : E.overrides = []) (reg : RegD) (c : Val) : Again E reg c := by
  intro doc bs _
  rw [h]

/-- A manager that has not read anything yet and takes config and state from `files`, where the config file loads as `v'` and applying the
schedules at the state that was saved makes `c` of it. -/
theorem restore_back (E : MgrEnv) (N : Mgr) (hNc : N.config = none) (hNs : N.state = none) {files : Files}
    (hsrc : (∃ n, N.last = some n ∧ dget N.disk n = some (.full files)) ∨ (N.last = none ∧ E.init = .dir files))
    -- the config
    {cn : String} {cfs : List Fld} {cver : Option VerInfo} (hcty : E.cfgTy = .data cn cfs cver)
    (reg : RegD) (c : Val) {cdoc v' : Val} {reg' : RegD} (attrs : List (String × Val))
    (hov : smLoadConfig E.w (.data cn cfs cver) (some cdoc) E.overrides E.ignoreExtra =
      smLoadConfig E.w (.data cn cfs cver) (some cdoc) [] E.ignoreExtra)
    (e2 : smLoadConfig E.w (.data cn cfs cver) (some cdoc) [] E.ignoreExtra = .ok ⟨v', reg', []⟩)
    (e3 : RegEqv (some (.node reg)) (some (.node reg'))) (e5 : applyRegD (E.sv attrs) reg' v' = .ok c)
    -- the state
    {sn : String} {sfs : List Fld} {sver : Option VerInfo} (hsty : E.stTy = .data sn sfs sver)
    (hsenv : EnvOK E.w.env E.stTy) (saved : List (String × Val))
    (hsfit : Fits E.w.ext true E.stTy none (.inst sn saved))
    (hdirect : ∀ segs c y, valAt (.inst sn saved) segs = some (.ser c y) → segs.length = 1)
    {sdoc : Val} {sblobs : List (String × Val)} (hsd : typedDump E.w.env none false (.inst sn saved) = .ok (sdoc, sblobs))
    (hfiles : files = ⟨cdoc, sdoc, sblobs.foldl (fun a kv => dset a kv.1 kv.2) []⟩)
    (rank : String → Nat)
    (hser : (∀ disk, SerOK { isLazy := E.stLazy, disk := disk, pickleOk := E.pickleOk, deps := E.deps, deser := E.deser } saved rank E.depth) ∨
      ((∀ k c y, dget saved k ≠ some (.ser c y)) ∧ E.depth ≠ 0))
    (hsv : ∀ a, (∀ k x, dget saved k = some x → (∀ c y, x ≠ .ser c y) → dget a k = some x) → E.sv a = E.sv attrs) :
    ∃ o2 m2, N.readState E = .ok (o2, m2) ∧ Holds E m2 c reg saved ∧ m2.last = N.last ∧ m2.disk = N.disk := by
  rw [hsty] at hsfit hsenv
  obtain ⟨sdoc', bs, kvs', es, f1, f2, f3, f4, f5, f6⟩ := state_roundtrip E.w hsfit hsenv E.ignoreExtra
  rw [hsd] at f1
  simp only [Except.ok.injEq, Prod.mk.injEq] at f1
  obtain ⟨rfl, rfl⟩ := f1
  have hlinv : LInv (dget (sblobs.foldl (fun a kv => dset a kv.1 kv.2) [])) saved ⟨sn, kvs', lazyAll es⟩ :=
    state_linv E.w.ext f3 f4 f6 hdirect (fun f y hm => (foldl_dset sblobs [] f5).1 f y hm)
  have hsveq : E.sv kvs' = E.sv attrs := by
    refine hsv _ ?_
    intro k x hk hns
    rcases hlinv k x hk with ⟨_, h⟩ | ⟨c, y, _, rfl, _⟩
    · exact h
    · exact absurd rfl (hns c y)
  -- the new manager
  have hread : ∃ src, N.readState E = .ok (⟨sn, kvs', lazyAll es⟩,
        ⟨some c, reg', some ⟨sn, kvs', lazyAll es⟩, src, N.last, N.disk⟩) ∧
      ∀ m : Mgr, m.src = src → m.disk = N.disk → (m.lenv E).disk = dget (sblobs.foldl (fun a kv => dset a kv.1 kv.2) []) := by
    rcases hsrc with ⟨n, hl, hd⟩ | ⟨hl, hi⟩
    · refine ⟨.ckpt n, ?_, ?_⟩
      · simp only [Mgr.readState, Mgr.loadState, Mgr.readConfig, Mgr.loadConfig, ckptFiles, hNs, hNc, hl, hd, bind, Except.bind,
          pure, Except.pure, hcty, hsty, hfiles, hov, e2, loadStateObj, f2, Loaded.obj, Mgr.apply, hsveq, e5]
      · intro m h1 h2
        simp only [Mgr.lenv, Mgr.blobs, h1, h2, hd, hfiles]
    · refine ⟨.init, ?_, ?_⟩
      · simp only [Mgr.readState, Mgr.loadState, Mgr.readConfig, Mgr.loadConfig, hNs, hNc, hl, hi, bind, Except.bind,
          pure, Except.pure, hcty, hsty, hfiles, hov, e2, loadStateObj, f2, Loaded.obj, Mgr.apply, hsveq, e5]
      · intro m h1 h2
        simp only [Mgr.lenv, Mgr.blobs, h1, hi, hfiles]
  obtain ⟨src, hread, hblobs⟩ := hread
  let m2 : Mgr := ⟨some c, reg', some ⟨sn, kvs', lazyAll es⟩, src, N.last, N.disk⟩
  have hblobs := hblobs m2 rfl rfl
  refine ⟨_, m2, hread, ⟨rfl, e3, ?_⟩, rfl, rfl⟩
  intro ks hks
  rcases hser with hser | ⟨hns, hdp⟩
  · have hS2 : SerOK (m2.lenv E) saved rank E.depth := hser _
    obtain ⟨m3, o3, r1, r2, r3, r4⟩ := reads_ok ks m2 _ rfl (by rw [hblobs]; exact hlinv) hS2 hks
    refine ⟨m3, r1, ?_⟩
    intro k x hk
    have hS3 : SerOK (m3.lenv E) saved rank E.depth := by rw [r4]; exact hS2
    have := (lazyGet_inv hS3 E.depth o3 k x r3 hk (hS3.rank k (by rw [hk]; rfl))).1
    exact ⟨{ m3 with state := some (lazyGet (m3.lenv E) E.depth o3 k).obj }, by
      simp only [Mgr.getState, Mgr.readState, r2, bind, Except.bind, pure, Except.pure, this]⟩
  · have hset2 : ∀ k x, dget saved k = some x → Settled E.stLazy ⟨sn, kvs', lazyAll es⟩ k x := by
      intro k x hk
      rcases hlinv k x hk with ⟨h1, h2⟩ | ⟨c, y, _, rfl, _⟩
      · exact ⟨h2, fun _ => h1⟩
      · exact absurd hk (hns k c y)
    refine ⟨m2, reads_plain hdp ks m2 _ rfl hset2 hks, ?_⟩
    intro k x hk
    exact ⟨m2, getState_settled rfl (hset2 k x hk) hdp⟩

/-- A manager that has not read anything yet and takes config and state from `files`: the first access to the state gives
back the config, the schedules and the state the files were written from. -/
theorem restore_core (E : MgrEnv) (N : Mgr) (hNc : N.config = none) (hNs : N.state = none) {files : Files}
    (hsrc : (∃ n, N.last = some n ∧ dget N.disk n = some (.full files)) ∨ (N.last = none ∧ E.init = .dir files))
    -- the config
    {cn : String} {cfs : List Fld} {cver : Option VerInfo} (hcty : E.cfgTy = .data cn cfs cver)
    (hcenv : EnvOK E.w.env E.cfgTy) (hmat : (materialize E.cfgTy).isOk = true)
    (reg : RegD) (c : Val) (hcfit : Fits E.w.ext false E.cfgTy (some (.node reg)) c)
    (hdepth : ∀ segs x, Reg.at (some (.node reg)) segs = some x → segs.length ≤ 2)
    {cdoc : Val} {cblobs : List (String × Val)} (hcd : typedDump E.w.env (some reg) false c = .ok (cdoc, cblobs))
    (hov : Again E reg c)
    -- the state
    {sn : String} {sfs : List Fld} {sver : Option VerInfo} (hsty : E.stTy = .data sn sfs sver)
    (hsenv : EnvOK E.w.env E.stTy) (saved : List (String × Val))
    (hsfit : Fits E.w.ext true E.stTy none (.inst sn saved))
    (hdirect : ∀ segs c y, valAt (.inst sn saved) segs = some (.ser c y) → segs.length = 1)
    {sdoc : Val} {sblobs : List (String × Val)} (hsd : typedDump E.w.env none false (.inst sn saved) = .ok (sdoc, sblobs))
    (hfiles : files = ⟨cdoc, sdoc, sblobs.foldl (fun a kv => dset a kv.1 kv.2) cblobs⟩)
    (rank : String → Nat)
    (hser : (∀ disk, SerOK { isLazy := E.stLazy, disk := disk, pickleOk := E.pickleOk, deps := E.deps, deser := E.deser } saved rank E.depth) ∨
      ((∀ k c y, dget saved k ≠ some (.ser c y)) ∧ E.depth ≠ 0))
    -- the schedules
    (attrs : List (String × Val)) (hcur : Current (E.sv attrs) (some (.node reg)) c)
    (hsv : ∀ a, (∀ k x, dget saved k = some x → (∀ c y, x ≠ .ser c y) → dget a k = some x) → E.sv a = E.sv attrs) :
    ∃ o2 m2, N.readState E = .ok (o2, m2) ∧ Holds E m2 c reg saved ∧ m2.last = N.last ∧ m2.disk = N.disk := by
  have hov := hov _ _ hcd
  rw [hcty] at hcfit hcenv hmat hov
  obtain ⟨cdoc', v', reg', e1, e2, e3, _, e5⟩ :=
    config_roundtrip E.w hcfit hcenv hmat hdepth (E.sv attrs) hcur E.ignoreExtra
  rw [hcd] at e1
  simp only [Except.ok.injEq, Prod.mk.injEq] at e1
  obtain ⟨rfl, rfl⟩ := e1
  exact restore_back E N hNc hNs hsrc hcty reg c attrs hov e2 e3 e5 hsty hsenv saved hsfit hdirect hsd hfiles rank hser hsv

/-- C45 (partial): after any history, a step that writes a checkpoint, and the start of a new manager on the directory, the
first access to the state gives back the config, the schedules and the state that were current after the step.

Conditions: the config round trips and its schedules are at most two fields deep (`Fits`, `hdepth`); the Serializables of the
state are direct fields, and `deserialize` inverts `serialize` (`SerOK`); the overrides, given again, change nothing (`Again`; see C73); the key is larger than all numbers at
the ends of names in the directory; schedules depend on the state only through fields that are not Serializable.
Missing: what is false by C39, C46, C50 and the round trip properties. -/
theorem C45_partial (E : MgrEnv) (disk0 : Dir Files) (pre : List MOp) (mv : Move) (m m' : Mgr)
    (h0 : (Mgr.new E disk0).run E pre = .ok m) (h : m.step E mv = .ok m')
    (hck : E.ckpt = true)
    -- the config
    {cn : String} {cfs : List Fld} {cver : Option VerInfo} (hcty : E.cfgTy = .data cn cfs cver)
    (hcenv : EnvOK E.w.env E.cfgTy) (hmat : (materialize E.cfgTy).isOk = true)
    (c : Val) (hc : m'.config = some c) (hcfit : Fits E.w.ext false E.cfgTy (some (.node m'.schedules)) c)
    (hdepth : ∀ segs x, Reg.at (some (.node m'.schedules)) segs = some x → segs.length ≤ 2)
    (hov : Again E m'.schedules c)
    -- the state
    {sn : String} {sfs : List Fld} {sver : Option VerInfo} (hsty : E.stTy = .data sn sfs sver)
    (hsenv : EnvOK E.w.env E.stTy) (hcls : ∀ o, m'.state = some o → o.cls = sn)
    (saved : List (String × Val)) (hnames : dkeys saved = E.stTy.fieldNames)
    (hsaved : ∀ k x, dget saved k = some x → ∃ m'', m'.getState E k = .ok (x, m''))
    (hsfit : Fits E.w.ext true E.stTy none (.inst sn saved))
    (hdirect : ∀ segs c y, valAt (.inst sn saved) segs = some (.ser c y) → segs.length = 1)
    (rank : String → Nat) (hser : SerOK (m'.lenv E) saved rank E.depth ∨ (∀ k c y, dget saved k ≠ some (.ser c y)))
    (hdes : DeserSer E.deser)
    -- the key
    (val : Int) (hval : dget saved E.key = some (.int val)) (hrange : KeyInRange val)
    (hkeys : ∀ n ∈ dkeys m.disk, ∀ i, suffixInt n = some i → i < val) (hnewkey : m.last ≠ some (ckptName E.key val))
    -- the schedules
    (hsv : ∀ a b, (∀ k x, dget saved k = some x → (∀ c y, x ≠ .ser c y) → dget a k = some x ∧ dget b k = some x) →
      E.sv a = E.sv b) :
    ∃ o2 m2, (Mgr.new E m'.disk).readState E = .ok (o2, m2) ∧ Holds E m2 c m'.schedules saved := by
  have hI := run_inv pre _ m (.new E disk0) h0
  obtain ⟨o, m0, m1, hr, ha, j1, ⟨c1, hc1, hcur⟩, hst, hlast, hdisk, hfin⟩ := step_inv hI h
  rcases hfin with ⟨hno, _⟩ | ⟨_, c', kv, val', files, o', d', l', hc', hkv, hval', hor, hrun, rfl⟩
  · rw [hck] at hno; exact (nomatch hno)
  rw [hc1] at hc'; cases hc'
  simp only at hc hcfit hdepth hcls hsaved hser ⊢
  rw [hc1] at hc; cases hc
  have hsn : E.stTy.fieldNames.Nodup := by
    have := hsfit
    rw [hsty] at this ⊢
    simp only [Fits] at this
    exact this.1.1
  have hdp : E.depth ≠ 0 := by
    intro hd
    obtain ⟨m'', hm⟩ := hsaved _ _ hval
    simp [Mgr.getState, Mgr.readState, bind, Except.bind, hd, lazyGet] at hm
  -- after the step every field is an ordinary attribute with its saved value
  have hkset := lazyGet_settled _ _ _ _ _ hkv
  have hgetS : ∀ k x, Settled E.stLazy o' k x → ∀ y, dget saved k = some y → y = x := by
    intro k x hs y hy
    obtain ⟨m'', hm⟩ := hsaved k y hy
    rw [getState_settled rfl hs hdp] at hm
    cases hm
    rfl
  have hkv' : kv = .int val := by
    rcases hor with ⟨_, rfl⟩ | ⟨_, hdump⟩
    · exact (hgetS E.key kv hkset _ hval).symm
    · obtain ⟨_, _, vs, _, _, _, hvs, _, _, rfl⟩ := dump_inv hdump
      obtain ⟨_, hk, _⟩ := readAll_settled _ _ _ _ _ hvs
      exact (hgetS E.key kv (hk _ _ hkset) _ hval).symm
  subst hkv'
  simp only [ckptVal, Except.ok.injEq] at hval'
  subst hval'
  obtain ⟨rfl, hopen, hfull⟩ := step_open hrange hkeys hnewkey hrun
  have hfresh : dhas m.disk (ckptName E.key val) = false := by
    rw [dhas_false, dget_eq_none_iff]
    intro hm
    have := hkeys _ hm _ (suffixInt_ckptName E.key hrange)
    omega
  rcases hor with ⟨hdh, _⟩ | ⟨_, hdump⟩
  · rw [hfresh] at hdh; exact (nomatch hdh)
  obtain ⟨cdoc, cblobs, vs, sdoc, sblobs, hcd, hvs, hsd, rfl, ho'⟩ := dump_inv hdump
  simp only at hcd
  obtain ⟨hlen, hkeep, hset⟩ := readAll_settled _ _ _ _ _ hvs
  rw [← ho'] at hkeep hset
  -- the values that are dumped are those that were saved
  have hzk : dkeys (E.stTy.fieldNames.zip vs) = E.stTy.fieldNames := by
    simp only [dkeys]
    rw [List.map_fst_zip (by omega)]
  have hzip : E.stTy.fieldNames.zip vs = saved := by
    refine ext_kvs _ _ (by rw [hzk]; exact hsn) (by rw [hzk, hnames]) ?_
    intro k
    cases hd : dget (E.stTy.fieldNames.zip vs) k with
    | none =>
      rw [dget_eq_none_iff, hzk, ← hnames, ← dget_eq_none_iff] at hd
      exact hd.symm
    | some x =>
      have hk : k ∈ dkeys saved := by
        rw [hnames, ← hzk]
        exact List.mem_map.2 ⟨_, dget_mem hd, rfl⟩
      cases hs : dget saved k with
      | none => rw [dget_eq_none_iff] at hs; exact absurd hk hs
      | some y => rw [hgetS k x (hset k x (dget_mem hd)) y hs]
  have hsettled : ∀ k x, dget saved k = some x → Settled E.stLazy o' k x := by
    intro k x hk
    rw [← hzip] at hk
    exact hset k x (dget_mem hk)
  have hocls : (lazyGet (m1.lenv E) E.depth o E.key).obj.cls = sn := by
    have h1 := hcls o' rfl
    have h2 := (readAll_ext (lazyGet_ext (Mgr.lenv E { m1 with state := some (lazyGet (m1.lenv E) E.depth o E.key).obj }) E.depth)
      E.stTy.fieldNames (lazyGet (m1.lenv E) E.depth o E.key).obj).cls
    rw [← ho', h1] at h2
    exact h2.symm
  rw [hzip, hocls] at hsd
  -- the schedules see the same state
  have hattr : ∀ k x, dget saved k = some x → (∀ c y, x ≠ .ser c y) → dget o.attrs k = some x := by
    intro k x hk hns
    have h1 := (hsettled k x hk).1
    have x1 := lazyGet_ext (m1.lenv E) E.depth o E.key
    have x2 := readAll_ext (lazyGet_ext (Mgr.lenv E { m1 with state := some (lazyGet (m1.lenv E) E.depth o E.key).obj }) E.depth)
      E.stTy.fieldNames (lazyGet (m1.lenv E) E.depth o E.key).obj
    have y1 := lazyGet_loadsSer (L := m1.lenv E) hdes E.depth o E.key
    have y2 := readAll_loadsSer (L := Mgr.lenv E { m1 with state := some (lazyGet (m1.lenv E) E.depth o E.key).obj }) hdes E.depth
      E.stTy.fieldNames (lazyGet (m1.lenv E) E.depth o E.key).obj
    have hx := x1.trans x2
    have hy := LoadsSer.trans (o := o) x2 y1 y2
    rw [← ho'] at hx hy
    by_cases hkl : k ∈ loads (lazyGet (m1.lenv E) E.depth o E.key).log ++
        loads (readAll (lazyGet (Mgr.lenv E { m1 with state := some (lazyGet (m1.lenv E) E.depth o E.key).obj }) E.depth)
          (lazyGet (m1.lenv E) E.depth o E.key).obj E.stTy.fieldNames).log
    · obtain ⟨c, y, hcy⟩ := hy k hkl
      rw [h1] at hcy
      cases hcy
      exact absurd rfl (hns c y)
    · rw [hx.attr k hkl] at h1
      exact h1
  -- the new manager
  have hnew : Mgr.new E d' = ⟨.none, [], .none, .init, some (ckptName E.key val), d'⟩ := by
    simp [Mgr.new, hck, hopen]
  rw [hnew]
  obtain ⟨o2, m2, g1, g2, _⟩ := restore_core E ⟨.none, [], .none, .init, some (ckptName E.key val), d'⟩ rfl rfl
    (.inl ⟨_, rfl, hfull⟩) hcty hcenv hmat _ c hcfit hdepth hcd hov hsty hsenv saved hsfit hdirect hsd rfl rank
    (hser.elim (fun h => .inl fun _ => ⟨h.lazy, h.inv, h.deps, h.rank⟩) (fun h => .inr ⟨h, hdp⟩)) o.attrs hcur
    (fun a ha => hsv _ _ fun k x hk hns => ⟨ha k x hk hns, hattr k x hk hns⟩)
  exact ⟨o2, m2, g1, g2⟩

namespace ExM

/-- the example of C51: restored from step 10, then `step = 20` -/
def blobBefore : Mgr :=
  ⟨some (cfgV 10), regd, some ⟨"State", [("step", .int 20), ("net", .none)], [("net", ⟨"Net", "state.net.msgpack", false⟩)]⟩,
   .ckpt "latest-step000000000010", some "latest-step000000000010", blobDisk⟩

def blobAfterFiles : Files :=
  ⟨.dict [("!__name__", .str "Config"), ("opt", .dict [("!__name__", .str "Opt"), ("lr", .str txt)]), ("n", .int 3)],
   .dict [("!__name__", .str "State"), ("step", .int 20), ("net", .str "<blob:msgpack>")], [("state.net.msgpack", .int 7)]⟩

def blobAfter : Mgr :=
  ⟨some (cfgV 20), regd, some ⟨"State", [("step", .int 20), ("net", .ser "Net" (.int 7))], []⟩,
   .ckpt "latest-step000000000010", some "latest-step000000000020", [("latest-step000000000020", .full blobAfterFiles)]⟩

theorem blob_set : (Mgr.new blobEnv blobDisk).run blobEnv [.setState "step" (.int 20)] = .ok blobBefore := by
  simp only [Mgr.run, Mgr.exec, Mgr.setState, blob_restored, bind, Except.bind]
  rfl

theorem blob_step : blobBefore.step blobEnv ⟨.none, false⟩ = .ok blobAfter := by
  simp only [Mgr.step, Mgr.readState, Mgr.apply, Mgr.readConfig, bind, Except.bind]
  rfl

def blobSaved : List (String × Val) := [("step", .int 20), ("net", .ser "Net" (.int 7))]

/-- the hypotheses of C45_partial are met: a scheduled config, a state with a Serializable, a restored manager -/
example : ∃ o2 m2, (Mgr.new blobEnv blobAfter.disk).readState blobEnv = .ok (o2, m2) ∧
    Holds blobEnv m2 (cfgV 20) blobAfter.schedules blobSaved := by
  refine C45_partial blobEnv blobDisk [.setState "step" (.int 20)] ⟨.none, false⟩ blobBefore blobAfter blob_set blob_step
    rfl rfl ?_ rfl (cfgV 20) rfl ?_ ?_ (again_nil rfl _ _) (sn := "State") rfl ?_ ?_ blobSaved rfl ?_ ?_ ?_ (fun _ => 0) (.inl ?_) ?_ 20 rfl ?_ ?_ ?_ ?_
  · simp [blobEnv, E, cfgTy, w, EnvOK, EnvOKf, EnvOKf1, Fld.name, Fld.dflt]
  · simp [blobEnv, E, cfgTy, w, cfgV, blobAfter, regd, txt, Fits, FitsFs, FitsF, ClassOK, VerOK, NameOK, IdOK, Reg.isSched, Reg.child, Fld.name]
    refine ⟨by decide, ?_, _, _, ⟨rfl, rfl⟩, ⟨by decide, rfl, ?_, _, rfl, _, rfl, ⟨.inl ⟨_, rfl⟩, trivial, rfl⟩, .inr ⟨_, ⟨_, rfl⟩, by decide, _, rfl⟩⟩,
      _, rfl, ⟨.inl ⟨_, rfl⟩, trivial, rfl⟩, .inl rfl⟩
    · intro k h1 h2
      simp [dget, Ne.symm h1]
    · intro k h1
      simp [dget, Ne.symm h1]
  · intro segs x h
    match segs with
    | [] => simp
    | [_] => simp
    | [_, _] => simp
    | a :: b :: c :: ss =>
      simp only [blobAfter, regd, Reg.at, dget] at h
      split at h
      · simp only [Reg.at, dget] at h
        split at h <;> simp [Reg.at] at h
      · simp [Reg.at] at h
  · simp [blobEnv, E, blobTy, w, EnvOK, EnvOKf, EnvOKf1, Fld.name, Fld.dflt]
  · intro o ho; cases ho; rfl
  · intro k x hk
    simp only [blobSaved, dget] at hk
    split at hk
    · rename_i h; subst h; cases hk; exact ⟨blobAfter, rfl⟩
    · split at hk
      · rename_i h; subst h; cases hk; exact ⟨blobAfter, rfl⟩
      · exact (nomatch hk)
  · simp [blobEnv, E, blobTy, blobSaved, Fits, FitsFs, FitsF, ClassOK, VerOK, NameOK, IdOK, Reg.isSched, Reg.child, Fld.name]
    exact ⟨by decide, _, _, ⟨rfl, rfl⟩, ⟨.inl ⟨_, rfl⟩, trivial, rfl⟩, _, rfl, _, rfl⟩
  · intro segs c y h
    match segs with
    | [] => simp [valAt] at h
    | [_] => rfl
    | a :: b :: ss =>
      simp only [blobSaved, valAt, dget] at h
      split at h
      · rename_i h2
        split at h2
        · cases h2; simp [valAt] at h
        · split at h2
          · cases h2; simp [valAt] at h
          · exact (nomatch h2)
      · exact (nomatch h)
  · exact ⟨rfl, fun _ _ _ _ _ _ => rfl, fun _ _ _ _ d hd => by simp [Mgr.lenv, blobEnv, E] at hd, fun _ _ => by simp [blobEnv, E]⟩
  · intro c y vs x h
    cases h
    exact ⟨c, y, rfl⟩
  · simp [KeyInRange]
  · intro n hn i hi
    simp only [blobBefore, blobDisk, dkeys, List.map_cons, List.map_nil, List.mem_singleton] at hn
    subst hn
    have : suffixInt "latest-step000000000010" = some 10 := by decide +kernel
    rw [this] at hi
    cases hi
    decide
  · decide +kernel
  · intro a b h
    obtain ⟨h1, h2⟩ := h "step" (.int 20) rfl (by simp)
    funext t
    simp [blobEnv, E, ramp, h1, h2]
end ExM

end HS
