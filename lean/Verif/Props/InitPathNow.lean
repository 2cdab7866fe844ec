import Verif.Proofs.RestoreNow
import Verif.Props.ConfigFits
/-!
# C61: `checkpoint(dir)` at any time, also when the state was changed since the last step
-/
namespace HS

/-- C61 (partial): `checkpoint(dir)` is called at any time and a manager is started with `init_path=dir`. Its state is the same, and so are
the schedules and every field of the config without schedule; the fields with a schedule have the values of their schedules at the
state that was saved, so that the config is the one that this manager would have after applying the schedules now.

Conditions: as for C61_class_partial, without the condition that the scheduled fields belong to the current state; instead it must be possible
to apply the schedules to the current state (`happ`, otherwise a step would raise too). -/
theorem C61_now_partial (E : MgrEnv) (disk0 : Dir Files) (pre : List MOp) (m m' m1 : Mgr) (files : Files) (o : LObj)
    (h0 : (Mgr.new E disk0).run E pre = .ok m) (hs : m.state = some o) (h : m.checkpoint E = .ok (files, m'))
    -- the config
    (hC : CfgClass E) (hdoc : ∀ doc1, LoadedDoc E disk0 doc1 → CfgDoc E doc1)
    (hcenv : EnvOK E.w.env E.cfgTy) (hmat : (materialize E.cfgTy).isOk = true)
    (c : Val) (hc : m.config = some c)
    -- the state
    {sn : String} {sfs : List Fld} {sver : Option VerInfo} (hsty : E.stTy = .data sn sfs sver)
    (hsenv : EnvOK E.w.env E.stTy) (hcls : o.cls = sn)
    (saved : List (String × Val)) (hnames : dkeys saved = E.stTy.fieldNames)
    (hsaved : ∀ k x, dget saved k = some x → ∃ m'', m'.getState E k = .ok (x, m''))
    (hsfit : Fits E.w.ext true E.stTy none (.inst sn saved))
    (hdirect : ∀ segs c y, valAt (.inst sn saved) segs = some (.ser c y) → segs.length = 1)
    (rank : String → Nat) (hser : SerOK (m.lenv E) saved rank E.depth ∨ (∀ k c y, dget saved k ≠ some (.ser c y)))
    (hdes : DeserSer E.deser) (hdp : E.depth ≠ 0)
    -- the schedules
    (happ : m.apply E o = .ok m1)
    (hsv : ∀ a b, (∀ k x, dget saved k = some x → (∀ c y, x ≠ .ser c y) → dget a k = some x ∧ dget b k = some x) →
      E.sv a = E.sv b)
    -- the other manager
    (ck : Bool) (disk2 : Dir Files) (hopen : ck = false ∨ openMgr disk2 = none) :
    ∃ c2 o2 m2, (Mgr.new { E with init := .dir files, ckpt := ck } disk2).readState { E with init := .dir files, ckpt := ck } =
        .ok (o2, m2) ∧
      Holds { E with init := .dir files, ckpt := ck } m2 c2 m.schedules saved ∧ m2.disk = disk2 ∧ m1.config = some c2 ∧
      Current (E.sv o.attrs) (some (.node m.schedules)) c2 ∧
      ∀ segs x, (∀ n kvs, x ≠ .inst n kvs) → (∀ p y, Reg.at (some (.node m.schedules)) p = some y → ¬ p <+: segs) →
        (valAt c2 segs = some x ↔ valAt c segs = some x) := by
  obtain ⟨cn, cfs, cver, hcty⟩ := hC.cfg
  have hg := run_good hC hcenv hdoc h0 hc
  have hI := run_inv pre _ m (MInv.new E disk0) h0
  obtain ⟨_, _, _, _, _, c', c2, m0, h1, rfl, h3⟩ := apply_inv hI happ
  simp only [Mgr.readConfig, hc, Except.ok.injEq, Prod.mk.injEq] at h1
  obtain ⟨rfl, rfl⟩ := h1
  have htop : TopOK m.schedules := hI.top
  obtain ⟨o2, m2, g1, g2, g3⟩ := checkpoint_back E disk0 pre m m' files o h0 hs h hcty c c2 hc (by
    intro cdoc cblobs hcd
    have hov := hg.again hC hcenv hmat _ _ hcd
    have hfit := hg.fits
    rw [hcty] at hfit hov
    have henv := hcenv
    have hm := hmat
    rw [hcty] at henv hm
    obtain ⟨cdoc', v', reg', e1, e2, e3, _, e5⟩ := config_roundtrip_now E.w hfit henv hm hg.depth htop (E.sv o.attrs) h3 E.ignoreExtra
    rw [hcd] at e1
    simp only [Except.ok.injEq, Prod.mk.injEq] at e1
    obtain ⟨rfl, rfl⟩ := e1
    exact ⟨rfl, v', reg', hov, e2, e3, e5⟩) hsty hsenv hcls saved hnames hsaved hsfit hdirect rank hser hdes hdp hsv ck disk2 hopen
  refine ⟨c2, o2, m2, g1, g2, g3, rfl, fun segs txt i hat => apply_current _ segs _ _ _ htop h3 txt i hat, ?_⟩
  intro segs x hx hp
  have hv2 : (applyRegDX (E.sv o.attrs) m.schedules c).2 = c2 := by
    have h4 := (applyRegD_agree (E.sv o.attrs) m.schedules c).symm.trans h3
    cases hx : (applyRegDX (E.sv o.attrs) m.schedules c).1 with
    | error er => rw [hx] at h4; exact (nomatch h4)
    | ok u => rw [hx] at h4; injection h4
  rw [← hv2]
  exact applyX_frame _ segs _ _ htop x hx hp

namespace ExM
def readMgr : Mgr := { blobBefore with state := some ⟨"State", [("step", .int 20), ("net", .ser "Net" (.int 7))], []⟩ }

theorem blob_checkpoint_now : blobBefore.checkpoint blobEnv = .ok (blobAfterFiles, readMgr) := rfl

/-- the hypotheses of C61_now_partial are met where C61_false shows that C61 fails: the state was changed from 10 to 20 and no step followed;
the new manager has the value 20 -/
example : ∃ c2 o2 m2, (Mgr.new { blobEnv with init := .dir blobAfterFiles, ckpt := false } []).readState
      { blobEnv with init := .dir blobAfterFiles, ckpt := false } = .ok (o2, m2) ∧
    Holds { blobEnv with init := .dir blobAfterFiles, ckpt := false } m2 c2 blobBefore.schedules blobSaved ∧ m2.disk = [] ∧ c2 = cfgV 20 := by
  refine (fun key => ?_) (C61_now_partial blobEnv blobDisk [.setState "step" (.int 20)] blobBefore readMgr { blobBefore with config := some (cfgV 20) } blobAfterFiles _
    blob_set rfl blob_checkpoint_now blob_conditions.1 blob_conditions.2 (by simp [blobEnv, E, cfgTy, w, EnvOK, EnvOKf, EnvOKf1, Fld.name, Fld.dflt]) rfl
    (cfgV 10) rfl (sn := "State") rfl (by simp [blobEnv, E, blobTy, w, EnvOK, EnvOKf, EnvOKf1, Fld.name, Fld.dflt]) rfl blobSaved rfl ?_ ?_ ?_
    (fun _ => 0) (.inl ?_) ?_ (by simp [blobEnv, E]) rfl ?_ false [] (.inl rfl))
  · obtain ⟨c2, o2, m2, g1, g2, g3, g4, _⟩ := key
    exact ⟨c2, o2, m2, g1, g2, g3, (Option.some.inj g4).symm⟩
  · intro k x hk
    simp only [blobSaved, dget] at hk
    split at hk
    · rename_i h; subst h; cases hk; exact ⟨readMgr, rfl⟩
    · split at hk
      · rename_i h; subst h; cases hk; exact ⟨readMgr, rfl⟩
      · exact (nomatch hk)
  · simp [blobEnv, E, blobTy, blobSaved, Fits, FitsFs, FitsF, ClassOK, VerOK, NameOK, IdOK, Reg.isSched, Reg.child, Fld.name]
    exact ⟨by decide, .inl ⟨_, rfl⟩, trivial, rfl⟩
  · intro segs c y h
    match segs with
    | [] => simp [valAt] at h
    | [_] => rfl
    | a :: b :: ss =>
      simp only [blobSaved, valAt, dget] at h
      split at h
      · rename_i h2
        split at h2
        · cases h2; simp [valAt] at h
        · split at h2
          · cases h2; simp [valAt] at h
          · exact (nomatch h2)
      · exact (nomatch h)
  · exact ⟨rfl, fun _ _ _ _ _ _ => rfl, fun _ _ _ _ d hd => by simp [Mgr.lenv, blobEnv, E] at hd, fun _ _ => by simp [blobEnv, E]⟩
  · intro c y vs x h
    cases h
    exact ⟨c, y, rfl⟩
  · intro a b h
    obtain ⟨h1, h2⟩ := h "step" (.int 20) rfl (by simp)
    funext t
    simp [blobEnv, E, ramp, h1, h2]
end ExM


end HS
