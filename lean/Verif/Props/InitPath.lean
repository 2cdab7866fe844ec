import Verif.Props.Checkpointed
/-!
# C61: `checkpoint(dir)` and `init_path=dir`
-/
namespace HS

/-- C61: `checkpoint` does not change the config, the schedules or the checkpoint directory of the manager, nor the value of
any field that was read or assigned before; afterwards every field of the state is in memory. -/
theorem C61_frame (E : MgrEnv) (disk0 : Dir Files) (pre : List MOp) (m m' : Mgr) (files : Files) (o : LObj)
    (h0 : (Mgr.new E disk0).run E pre = .ok m) (hs : m.state = some o) (h : m.checkpoint E = .ok (files, m')) :
    m'.config = m.config ∧ m'.schedules = m.schedules ∧ m'.disk = m.disk ∧ m'.last = m.last ∧
      (∀ k ∈ E.stTy.fieldNames, ∃ x, m'.getState E k = .ok (x, m')) ∧
      ∀ k x m1, m.getState E k = .ok (x, m1) → m1 = m → m'.getState E k = .ok (x, m') := by
  have hI := run_inv pre _ m (.new E disk0) h0
  obtain ⟨c, m0, cdoc, cblobs, o', m1, vs, sdoc, sblobs, h1, h2, h3, h4, h5, h6, h7⟩ := checkpoint_inv h
  obtain ⟨c', hc'⟩ := Option.isSome_iff_exists.1 (hI.cfg (by rw [hs]; rfl))
  have hm0 : m0 = m := by
    rcases readConfig_inv h1 with ⟨_, rfl⟩ | ⟨hc, _⟩
    · rfl
    · rw [hc'] at hc; exact (nomatch hc)
  subst hm0
  simp only [Mgr.readState, hs, Except.ok.injEq, Prod.mk.injEq] at h3
  obtain ⟨rfl, rfl⟩ := h3
  subst h7
  obtain ⟨hlen, hkeep, hset⟩ := readAll_settled _ _ _ _ _ h4
  refine ⟨rfl, rfl, rfl, rfl, ?_, ?_⟩
  · intro k hk
    have : k ∈ (E.stTy.fieldNames.zip vs).map Prod.fst := by rw [List.map_fst_zip (by omega)]; exact hk
    obtain ⟨⟨k', x⟩, hm, rfl⟩ := List.mem_map.1 this
    have hdp : E.depth ≠ 0 := by
      intro hd
      cases hn : E.stTy.fieldNames with
      | nil => rw [hn] at hk; simp at hk
      | cons a as =>
        rw [hn] at h4
        simp [readAll, hd, lazyGet] at h4
    exact ⟨x, getState_settled rfl (hset k' x hm) hdp⟩
  · rintro k x m1 hg rfl
    have hdp : E.depth ≠ 0 := by
      intro hd
      simp [Mgr.getState, Mgr.readState, bind, Except.bind, hd, lazyGet, hs] at hg
    simp only [Mgr.getState, Mgr.readState, hs, bind, Except.bind, pure, Except.pure] at hg
    split at hg
    · exact (nomatch hg)
    · rename_i y hy
      simp only [Except.ok.injEq, Prod.mk.injEq] at hg
      obtain ⟨rfl, hm⟩ := hg
      have hst := lazyGet_settled _ _ _ _ _ hy
      have ho : (lazyGet (Mgr.lenv E m1) E.depth o k).obj = o := by
        have := congrArg Mgr.state hm
        rw [hs] at this
        exact Option.some.inj this
      rw [ho] at hst
      exact getState_settled rfl (hkeep k _ hst) hdp

/-- what `checkpoint` writes is restored, given what the config file loads as -/
theorem checkpoint_back (E : MgrEnv) (disk0 : Dir Files) (pre : List MOp) (m m' : Mgr) (files : Files) (o : LObj)
    (h0 : (Mgr.new E disk0).run E pre = .ok m) (hs : m.state = some o) (h : m.checkpoint E = .ok (files, m'))
    -- the config
    {cn : String} {cfs : List Fld} {cver : Option VerInfo} (hcty : E.cfgTy = .data cn cfs cver)
    (c c2 : Val) (hc : m.config = some c) (hback : ∀ cdoc cblobs, typedDump E.w.env (some m.schedules) false c = .ok (cdoc, cblobs) →
      cblobs = [] ∧ ∃ v' reg', smLoadConfig E.w (.data cn cfs cver) (some cdoc) E.overrides E.ignoreExtra =
          smLoadConfig E.w (.data cn cfs cver) (some cdoc) [] E.ignoreExtra ∧
        smLoadConfig E.w (.data cn cfs cver) (some cdoc) [] E.ignoreExtra = .ok ⟨v', reg', []⟩ ∧
        RegEqv (some (.node m.schedules)) (some (.node reg')) ∧ applyRegD (E.sv o.attrs) reg' v' = .ok c2)
    -- the state
    {sn : String} {sfs : List Fld} {sver : Option VerInfo} (hsty : E.stTy = .data sn sfs sver)
    (hsenv : EnvOK E.w.env E.stTy) (hcls : o.cls = sn)
    (saved : List (String × Val)) (hnames : dkeys saved = E.stTy.fieldNames)
    (hsaved : ∀ k x, dget saved k = some x → ∃ m'', m'.getState E k = .ok (x, m''))
    (hsfit : Fits E.w.ext true E.stTy none (.inst sn saved))
    (hdirect : ∀ segs c y, valAt (.inst sn saved) segs = some (.ser c y) → segs.length = 1)
    (rank : String → Nat) (hser : SerOK (m.lenv E) saved rank E.depth ∨ (∀ k c y, dget saved k ≠ some (.ser c y)))
    (hdes : DeserSer E.deser) (hdp : E.depth ≠ 0)
    -- the schedules
    (hsv : ∀ a b, (∀ k x, dget saved k = some x → (∀ c y, x ≠ .ser c y) → dget a k = some x ∧ dget b k = some x) →
      E.sv a = E.sv b)
    -- the other manager
    (ck : Bool) (disk2 : Dir Files) (hopen : ck = false ∨ openMgr disk2 = none) :
    ∃ o2 m2, (Mgr.new { E with init := .dir files, ckpt := ck } disk2).readState { E with init := .dir files, ckpt := ck } =
        .ok (o2, m2) ∧
      Holds { E with init := .dir files, ckpt := ck } m2 c2 m.schedules saved ∧ m2.disk = disk2 := by
  obtain ⟨c', m0, cdoc, cblobs, o', m1, vs, sdoc, sblobs, h1, h2, h3, h4, h5, h6, h7⟩ := checkpoint_inv h
  have hm0 : c' = c ∧ m0 = m := by
    rcases readConfig_inv h1 with ⟨hc', rfl⟩ | ⟨hc', _⟩
    · rw [hc'] at hc; cases hc; exact ⟨rfl, rfl⟩
    · rw [hc] at hc'; exact (nomatch hc')
  obtain ⟨rfl, rfl⟩ := hm0
  simp only [Mgr.readState, hs, Except.ok.injEq, Prod.mk.injEq] at h3
  obtain ⟨rfl, rfl⟩ := h3
  have hsn : E.stTy.fieldNames.Nodup := by
    have := hsfit
    rw [hsty] at this ⊢
    simp only [Fits] at this
    exact this.1.1
  obtain ⟨hlen, hkeep, hset⟩ := readAll_settled _ _ _ _ _ h4
  have hgetS : ∀ k x, Settled E.stLazy (readAll (lazyGet (m0.lenv E) E.depth) o E.stTy.fieldNames).obj k x →
      ∀ y, dget saved k = some y → y = x := by
    intro k x hk y hy
    obtain ⟨m'', hm⟩ := hsaved k y hy
    subst h7
    rw [getState_settled rfl hk hdp] at hm
    cases hm
    rfl
  have hzk : dkeys (E.stTy.fieldNames.zip vs) = E.stTy.fieldNames := by
    simp only [dkeys]
    rw [List.map_fst_zip (by omega)]
  have hzip : E.stTy.fieldNames.zip vs = saved := by
    refine ext_kvs _ _ (by rw [hzk]; exact hsn) (by rw [hzk, hnames]) ?_
    intro k
    cases hd : dget (E.stTy.fieldNames.zip vs) k with
    | none =>
      rw [dget_eq_none_iff, hzk, ← hnames, ← dget_eq_none_iff] at hd
      exact hd.symm
    | some x =>
      have hk : k ∈ dkeys saved := by
        rw [hnames, ← hzk]
        exact List.mem_map.2 ⟨_, dget_mem hd, rfl⟩
      cases hs : dget saved k with
      | none => rw [dget_eq_none_iff] at hs; exact absurd hk hs
      | some y => rw [hgetS k x (hset k x (dget_mem hd)) y hs]
  have hattr : ∀ k x, dget saved k = some x → (∀ c y, x ≠ .ser c y) → dget o.attrs k = some x := by
    intro k x hk hns
    have h1 := (hset k x (dget_mem (by rw [hzip]; exact hk))).1
    have x2 := readAll_ext (lazyGet_ext (m0.lenv E) E.depth) E.stTy.fieldNames o
    have y2 := readAll_loadsSer (L := m0.lenv E) hdes E.depth E.stTy.fieldNames o
    by_cases hkl : k ∈ loads (readAll (lazyGet (m0.lenv E) E.depth) o E.stTy.fieldNames).log
    · obtain ⟨c, y, hcy⟩ := y2 k hkl
      rw [h1] at hcy
      cases hcy
      exact absurd rfl (hns c y)
    · rw [x2.attr k hkl] at h1
      exact h1
  rw [hzip, hcls] at h5
  obtain ⟨rfl, v', reg', b1, b2, b3, b4⟩ := hback _ _ h2
  obtain ⟨o2, m2, g1, g2, g3, g4⟩ := restore_back { E with init := .dir files, ckpt := ck }
    (Mgr.new { E with init := .dir files, ckpt := ck } disk2) rfl rfl (files := files)
    (.inr ⟨by rcases hopen with rfl | ho <;> simp [Mgr.new, *], rfl⟩) hcty _ c2 o.attrs b1 b2 b3 b4 hsty hsenv saved hsfit
    hdirect h5 h6 rank (hser.elim (fun h => .inl fun _ => ⟨h.lazy, h.inv, h.deps, h.rank⟩) (fun h => .inr ⟨h, hdp⟩))
    (fun a ha => hsv _ _ fun k x hk hns => ⟨ha k x hk hns, hattr k x hk hns⟩)
  exact ⟨o2, m2, g1, g2, g4⟩

/-- C61 (partial): after any history, `checkpoint(dir)` and the start of another manager with `init_path=dir` (with no
checkpoint of its own to restore), the first access to the state of the other manager gives back the config, the schedules
and the state of the first one.

Conditions: as for C45, except that nothing is asked of the key; and the scheduled fields of the config hold the values of
their schedules when `checkpoint` is called (`hcur`; by C46 they do after a step and after the first access to the state). -/
theorem C61_partial (E : MgrEnv) (disk0 : Dir Files) (pre : List MOp) (m m' : Mgr) (files : Files) (o : LObj)
    (h0 : (Mgr.new E disk0).run E pre = .ok m) (hs : m.state = some o) (h : m.checkpoint E = .ok (files, m'))
    -- the config
    {cn : String} {cfs : List Fld} {cver : Option VerInfo} (hcty : E.cfgTy = .data cn cfs cver)
    (hcenv : EnvOK E.w.env E.cfgTy) (hmat : (materialize E.cfgTy).isOk = true)
    (c : Val) (hc : m.config = some c) (hcfit : Fits E.w.ext false E.cfgTy (some (.node m.schedules)) c)
    (hdepth : ∀ segs x, Reg.at (some (.node m.schedules)) segs = some x → segs.length ≤ 2)
    (hov : Again E m.schedules c)
    -- the state
    {sn : String} {sfs : List Fld} {sver : Option VerInfo} (hsty : E.stTy = .data sn sfs sver)
    (hsenv : EnvOK E.w.env E.stTy) (hcls : o.cls = sn)
    (saved : List (String × Val)) (hnames : dkeys saved = E.stTy.fieldNames)
    (hsaved : ∀ k x, dget saved k = some x → ∃ m'', m'.getState E k = .ok (x, m''))
    (hsfit : Fits E.w.ext true E.stTy none (.inst sn saved))
    (hdirect : ∀ segs c y, valAt (.inst sn saved) segs = some (.ser c y) → segs.length = 1)
    (rank : String → Nat) (hser : SerOK (m.lenv E) saved rank E.depth ∨ (∀ k c y, dget saved k ≠ some (.ser c y)))
    (hdes : DeserSer E.deser) (hdp : E.depth ≠ 0)
    -- the schedules
    (hcur : Current (E.sv o.attrs) (some (.node m.schedules)) c)
    (hsv : ∀ a b, (∀ k x, dget saved k = some x → (∀ c y, x ≠ .ser c y) → dget a k = some x ∧ dget b k = some x) →
      E.sv a = E.sv b)
    -- the other manager
    (ck : Bool) (disk2 : Dir Files) (hopen : ck = false ∨ openMgr disk2 = none) :
    ∃ o2 m2, (Mgr.new { E with init := .dir files, ckpt := ck } disk2).readState { E with init := .dir files, ckpt := ck } =
        .ok (o2, m2) ∧
      Holds { E with init := .dir files, ckpt := ck } m2 c m.schedules saved ∧ m2.disk = disk2 := by
  refine checkpoint_back E disk0 pre m m' files o h0 hs h hcty c c hc ?_ hsty hsenv hcls saved hnames hsaved hsfit hdirect rank hser hdes hdp hsv ck disk2 hopen
  intro cdoc cblobs hcd
  have hov := hov _ _ hcd
  rw [hcty] at hcfit hcenv hmat hov
  obtain ⟨cdoc', v', reg', e1, e2, e3, _, e5⟩ := config_roundtrip E.w hcfit hcenv hmat hdepth (E.sv o.attrs) hcur E.ignoreExtra
  rw [hcd] at e1
  simp only [Except.ok.injEq, Prod.mk.injEq] at e1
  obtain ⟨rfl, rfl⟩ := e1
  exact ⟨rfl, v', reg', hov, e2, e3, e5⟩

namespace ExM

theorem blob_history : (Mgr.new blobEnv blobDisk).run blobEnv [.setState "step" (.int 20), .step ⟨.none, false⟩] = .ok blobAfter := by
  have := run_append (E := blobEnv) [.setState "step" (.int 20)] [.step ⟨.none, false⟩] (Mgr.new blobEnv blobDisk)
  simp only [List.cons_append, List.nil_append] at this
  rw [this, blob_set]
  simp only [Except.bind, Mgr.run, Mgr.exec, blob_step, bind]

theorem blob_checkpoint : blobAfter.checkpoint blobEnv = .ok (blobAfterFiles, blobAfter) := rfl

/-- the hypotheses of C61_partial are met: a scheduled config, a state with a Serializable, in a manager that was itself
restored from a checkpoint -/
example : ∃ o2 m2, (Mgr.new { blobEnv with init := .dir blobAfterFiles, ckpt := false } []).readState
      { blobEnv with init := .dir blobAfterFiles, ckpt := false } = .ok (o2, m2) ∧
    Holds { blobEnv with init := .dir blobAfterFiles, ckpt := false } m2 (cfgV 20) blobAfter.schedules blobSaved ∧ m2.disk = [] := by
  refine C61_partial blobEnv blobDisk [.setState "step" (.int 20), .step ⟨.none, false⟩] blobAfter blobAfter blobAfterFiles _ blob_history
    rfl blob_checkpoint rfl ?_ rfl (cfgV 20) rfl ?_ ?_ (again_nil rfl _ _) (sn := "State") rfl ?_ rfl blobSaved rfl ?_ ?_ ?_ (fun _ => 0) (.inl ?_) ?_
    (by simp [blobEnv, E]) ?_ ?_ false [] (.inl rfl)
  · simp [blobEnv, E, cfgTy, w, EnvOK, EnvOKf, EnvOKf1, Fld.name, Fld.dflt]
  · simp [blobEnv, E, cfgTy, w, cfgV, blobAfter, regd, txt, Fits, FitsFs, FitsF, ClassOK, VerOK, NameOK, IdOK, Reg.isSched, Reg.child, Fld.name]
    refine ⟨by decide, ?_, _, _, ⟨rfl, rfl⟩, ⟨by decide, rfl, ?_, _, rfl, _, rfl, ⟨.inl ⟨_, rfl⟩, trivial, rfl⟩, .inr ⟨_, ⟨_, rfl⟩, by decide, _, rfl⟩⟩,
      _, rfl, ⟨.inl ⟨_, rfl⟩, trivial, rfl⟩, .inl rfl⟩
    · intro k h1 h2
      simp [dget, Ne.symm h1]
    · intro k h1
      simp [dget, Ne.symm h1]
  · intro segs x h
    match segs with
    | [] => simp
    | [_] => simp
    | [_, _] => simp
    | a :: b :: c :: ss =>
      simp only [blobAfter, regd, Reg.at, dget] at h
      split at h
      · simp only [Reg.at, dget] at h
        split at h <;> simp [Reg.at] at h
      · simp [Reg.at] at h
  · simp [blobEnv, E, blobTy, w, EnvOK, EnvOKf, EnvOKf1, Fld.name, Fld.dflt]
  · intro k x hk
    simp only [blobSaved, dget] at hk
    split at hk
    · rename_i h; subst h; cases hk; exact ⟨blobAfter, rfl⟩
    · split at hk
      · rename_i h; subst h; cases hk; exact ⟨blobAfter, rfl⟩
      · exact (nomatch hk)
  · simp [blobEnv, E, blobTy, blobSaved, Fits, FitsFs, FitsF, ClassOK, VerOK, NameOK, IdOK, Reg.isSched, Reg.child, Fld.name]
    exact ⟨by decide, _, _, ⟨rfl, rfl⟩, ⟨.inl ⟨_, rfl⟩, trivial, rfl⟩, _, rfl, _, rfl⟩
  · intro segs c y h
    match segs with
    | [] => simp [valAt] at h
    | [_] => rfl
    | a :: b :: ss =>
      simp only [blobSaved, valAt, dget] at h
      split at h
      · rename_i h2
        split at h2
        · cases h2; simp [valAt] at h
        · split at h2
          · cases h2; simp [valAt] at h
          · exact (nomatch h2)
      · exact (nomatch h)
  · exact ⟨rfl, fun _ _ _ _ _ _ => rfl, fun _ _ _ _ d hd => by simp [Mgr.lenv, blobEnv, E] at hd, fun _ _ => by simp [blobEnv, E]⟩
  · intro c y vs x h
    cases h
    exact ⟨c, y, rfl⟩
  · intro segs t i h
    match segs with
    | [] => simp [Reg.at] at h
    | [a] =>
      simp only [blobAfter, regd, Reg.at, dget] at h
      split at h <;> simp [Reg.at] at h
    | [a, b] =>
      simp only [blobAfter, regd, Reg.at, dget] at h
      split at h
      · rename_i ha
        simp only [Reg.at, dget] at h
        split at h
        · rename_i hb
          simp only [Reg.at, Option.some.injEq, Prod.mk.injEq] at h
          obtain ⟨rfl, rfl⟩ := h
          subst ha hb
          exact ⟨.int 20, (schedVal_iff.1 rfl), rfl⟩
        · simp [Reg.at] at h
      · simp [Reg.at] at h
    | a :: b :: c :: ss =>
      simp only [blobAfter, regd, Reg.at, dget] at h
      split at h
      · simp only [Reg.at, dget] at h
        split at h <;> simp [Reg.at] at h
      · simp [Reg.at] at h
  · intro a b h
    obtain ⟨h1, h2⟩ := h "step" (.int 20) rfl (by simp)
    funext t
    simp [blobEnv, E, ramp, h1, h2]

end ExM

/-- C61 is false of the code when the state was changed since the last step: the scheduled field that reads 10 in the manager
that wrote the checkpoint reads 20 in the manager started from it (see C46). -/
theorem C61_false : ∃ (E : MgrEnv) (disk0 : Dir Files) (pre : List MOp) (m m' : Mgr) (files : Files) (c c2 : Val) (o2 : LObj) (m2 : Mgr),
    (Mgr.new E disk0).run E pre = .ok m ∧ m.config = some c ∧ m.checkpoint E = .ok (files, m') ∧ m'.config = some c ∧
    (Mgr.new { E with init := .dir files, ckpt := false } []).readState { E with init := .dir files, ckpt := false } = .ok (o2, m2) ∧
    m2.config = some c2 ∧ valAt c ["opt", "lr"] = some (.int 10) ∧ valAt c2 ["opt", "lr"] = some (.int 20) :=
  ⟨ExM.blobEnv, ExM.blobDisk, [.setState "step" (.int 20)], ExM.blobBefore, _, _, _, _, _, _, ExM.blob_set, rfl, rfl, rfl, rfl, rfl,
    rfl, rfl⟩

end HS
