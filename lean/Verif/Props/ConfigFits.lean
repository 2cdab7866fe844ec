import Verif.Proofs.Fits
import Verif.Props.InitPath
import Verif.Props.ConfigHist
import Verif.Props.Checkpointed
import Verif.Props.Again
/-!
# C45, C61 and C73 with conditions on the config class, the overrides and the config file only
-/
namespace HS

/-- the config class is one for which dump and load round trip (`TyOK`), its declarations are sound (`DeclOK`, `FirmDecl`) and its
field names are distinct identifiers; no two overrides are for a field and a part of it -/
structure CfgClass (E : MgrEnv) : Prop where
  cfg : ∃ n fs ver, E.cfgTy = .data n fs ver
  ty : TyOK E.w.ext E.cfgTy
  ids : IdsOK E.cfgTy
  decl : DeclOK E.cfgTy
  firm : FirmDecl E.cfgTy
  apart : Apart E.overrides

/-- the overrides, for the document they were written to -/
def OvsOK (E : MgrEnv) (doc : Val) : Prop :=
  (E.overrides ≠ [] → NoMark doc) ∧ ∀ n fs ver, E.cfgTy = .data n fs ver → ∀ o ∈ E.overrides, OvFor fs ver doc o

/-- a config document (with the overrides in it) as a parser produces it, with schedules in fields at most two deep, in which the
overrides reach their fields -/
def CfgDoc (E : MgrEnv) (doc : Val) : Prop := Plain doc ∧ Shallow true E.cfgTy 2 doc ∧ OvsOK E doc

/-- a config that was loaded round trips -/
theorem load_cfgFits {E : MgrEnv} (hC : CfgClass E) {doc : Option Val} {l : Loaded}
    (hdoc : ∀ doc1, applyOverrides E.w.ron E.cfgTy E.overrides (doc.getD (.dict [])) = .ok doc1 → CfgDoc E doc1)
    (hl : smLoadConfig E.w E.cfgTy doc E.overrides E.ignoreExtra = .ok l) : CfgFits E l l.value := by
  obtain ⟨n, fs, ver, hE⟩ := hC.cfg
  have key : ∀ file, typedLoad (E.w.dcfg true file) E.w.ron (some E.overrides) E.ignoreExtra E.cfgTy (doc.getD (.dict [])) = .ok l →
      CfgFits E l l.value := by
    intro file hl
    simp only [typedLoad, bind, Except.bind, pure, Except.pure] at hl
    cases ho : applyOverrides E.w.ron E.cfgTy E.overrides (doc.getD (.dict [])) with
    | error e => rw [ho] at hl; exact (nomatch hl)
    | ok doc1 =>
      rw [ho] at hl
      obtain ⟨hp, hs, _⟩ := hdoc doc1 ho
      have h1 := hC.ty; have h2 := hC.ids; have h3 := hC.decl; have h4 := hC.firm
      simp only [CfgFits]
      rw [hE] at h1 h2 h3 h4 hs hl ⊢
      have := load_fits (am := true) (file := file) (ig := E.ignoreExtra) (ron := E.w.ron) (l := l) E.w h1 h2 h3 h4 hp hs (by
        simp only [typedLoad, bind, Except.bind, pure, Except.pure]
        exact hl)
      exact ⟨this.1, this.2.2⟩
  cases doc with
  | none => exact key false hl
  | some d => exact key true hl

/-- a config that round trips and in which the overrides are in effect (of several for the same field: the last) -/
structure CfgGood (E : MgrEnv) (reg : RegD) (c : Val) : Prop where
  fits : Fits E.w.ext false E.cfgTy (some (.node reg)) c
  depth : ∀ segs x, Reg.at (some (.node reg)) segs = some x → segs.length ≤ 2
  wf : RegWFD reg
  denotes : ∀ n fs ver, E.cfgTy = .data n fs ver → ∀ o ∈ E.overrides, Denotes E.w.ron fs o
  effect : ∀ n fs ver, E.cfgTy = .data n fs ver → ∀ o, LastFor E.overrides o → InEffect E.w fs reg c o

theorem CfgClass.sound {E : MgrEnv} (hC : CfgClass E) (henv : EnvOK E.w.env E.cfgTy) : SoundTy E.w.ext E.w.env E.cfgTy :=
  ⟨hC.ty, hC.ids, henv, hC.decl, hC.firm⟩

/-- C73 (partial): in such a config the overrides can be given again and again -/
theorem CfgGood.again {E : MgrEnv} (hC : CfgClass E) (henv : EnvOK E.w.env E.cfgTy) (hmat : (materialize E.cfgTy).isOk = true)
    {reg : RegD} {c : Val} (h : CfgGood E reg c) : Again E reg c := by
  intro doc bs hd
  obtain ⟨n, fs, ver, hE⟩ := hC.cfg
  have hs := hC.sound henv
  have hf := h.fits
  rw [hE] at hs hf hmat ⊢
  exact C73_again E.w hs hmat hf (fun k r' hk => h.wf.mem (dget_mem hk)) hd _ hC.apart (h.denotes _ _ _ hE) (h.effect _ _ _ hE) _

theorem cfgGood_kept (E : MgrEnv) : KeptX E (fun l => CfgGood E l.schedules) := by
  intro l c attrs htop h
  obtain ⟨h1, h2⟩ := cfgFits_kept E l c attrs htop ⟨h.fits, h.depth⟩
  exact ⟨h1, h2, h.wf, h.denotes, fun n fs ver hE o ho =>
    effect_kept _ htop (fun k r' hk => h.wf.mem (dget_mem hk)) (h.effect n fs ver hE o ho)⟩

/-- what is loaded -/
theorem load_cfgGood {E : MgrEnv} (hC : CfgClass E) (henv : EnvOK E.w.env E.cfgTy) {doc : Option Val} {l : Loaded}
    (hdoc : ∀ doc1, applyOverrides E.w.ron E.cfgTy E.overrides (doc.getD (.dict [])) = .ok doc1 → CfgDoc E doc1)
    (hl : smLoadConfig E.w E.cfgTy doc E.overrides E.ignoreExtra = .ok l) : CfgGood E l.schedules l.value := by
  obtain ⟨h1, h2⟩ := load_cfgFits hC hdoc hl
  obtain ⟨n, fs, ver, hE⟩ := hC.cfg
  have hs := hC.sound henv
  have hap : ∃ doc1, applyOverrides E.w.ron E.cfgTy E.overrides (doc.getD (.dict [])) = .ok doc1 := by
    cases ho : applyOverrides E.w.ron E.cfgTy E.overrides (doc.getD (.dict [])) with
    | ok doc1 => exact ⟨doc1, rfl⟩
    | error e =>
      cases doc with
      | none =>
        simp only [Option.getD_none] at ho
        simp [smLoadConfig, typedLoad, ho, bind, Except.bind] at hl
      | some d =>
        simp only [Option.getD_some] at ho
        simp [smLoadConfig, typedLoad, ho, bind, Except.bind] at hl
  obtain ⟨doc1, ho⟩ := hap
  obtain ⟨k1, k2, k3, k4⟩ := hdoc doc1 ho
  refine ⟨h1, h2, ?_, ?_, ?_⟩
  · have : ∃ file, typedLoad (E.w.dcfg true file) E.w.ron (some E.overrides) E.ignoreExtra E.cfgTy (doc.getD (.dict [])) = .ok l := by
      cases doc with
      | none => exact ⟨false, hl⟩
      | some d => exact ⟨true, hl⟩
    obtain ⟨file, hload⟩ := this
    simp only [typedLoad, ho, bind, Except.bind, pure, Except.pure] at hload
    rw [hE] at hload k2
    have hid := hC.ids
    rw [hE] at hid
    cases hf : fromDict (E.w.dcfg true file) (.data n fs ver) E.ignoreExtra "" doc1 with
    | error e => rw [hf] at hload; exact (nomatch hload)
    | ok q =>
      obtain ⟨v, es⟩ := q
      rw [hf] at hload
      dsimp only at hload
      obtain ⟨reg, r1, r2, _⟩ := registry_of_load hid k2 hf
      rw [r1] at hload
      cases hload
      exact r2.wf
  · intro n' fs' ver' hE' o hm
    rw [hE'] at ho
    refine applied_denotes ho hm ?_
    intro key p s hov hb
    obtain ⟨t, g1, g2, _⟩ := (k4 _ _ _ hE' o hm).field key p s hov
    exact g2 (fieldAt_unique g1.toFieldAt hb)
  · intro n' fs' ver' hE' o hm
    rw [hE'] at hs ho k2 hl
    have hne : E.overrides ≠ [] := by have := hm.mem; intro h; rw [h] at this; simp at this
    exact C73_effect E.w hs hl hC.apart ho k1 (k3 hne) k2 (k4 _ _ _ hE') o hm

/-- and what is read back from a checkpoint -/
theorem CfgGood.reload {E : MgrEnv} (hC : CfgClass E) (henv : EnvOK E.w.env E.cfgTy) (hmat : (materialize E.cfgTy).isOk = true)
    {reg : RegD} {c : Val} (h : CfgGood E reg c) {doc : Val} {bs : List (String × Val)}
    (hd : typedDump E.w.env (some reg) false c = .ok (doc, bs)) {l : Loaded}
    (hl : smLoadConfig E.w E.cfgTy (some doc) E.overrides E.ignoreExtra = .ok l) : CfgGood E l.schedules l.value := by
  rw [h.again hC henv hmat doc bs hd] at hl
  obtain ⟨n, fs, ver, hE⟩ := hC.cfg
  have hs := hC.sound henv
  have hf := h.fits
  have hwf : ∀ k r', dget reg k = some r' → r'.WF k := fun k r' hk => h.wf.mem (dget_mem hk)
  have heff := h.effect
  rw [hE] at hs hf hmat henv hl
  obtain ⟨g1, g2⟩ := reload_fits E.w hf henv hmat h.depth E.ignoreExtra hd hl
  obtain ⟨doc', v', reg', es, e1, e2, e3, e4, _⟩ := config_roundtrip_restored E.w hf henv hmat h.depth E.ignoreExtra
  rw [hd] at e1
  cases e1
  rw [hl] at e2
  cases e2
  refine ⟨by rw [hE]; exact g1, g2, e4.wf, h.denotes, ?_⟩
  intro n' fs' ver' hE' o ho
  rw [hE] at hE'
  cases hE'
  exact effect_reload E.w hs hmat hf hwf hd hl e3 (heff _ _ _ hE o ho)

/-- the config of a StateManager is such a config at any time, whatever exceptions were raised before -/
theorem manager_good {E : MgrEnv} (hC : CfgClass E) (henv : EnvOK E.w.env E.cfgTy) {disk : Dir Files}
    (hdoc : ∀ doc1, LoadedDoc E disk doc1 → CfgDoc E doc1)
    (ops : List MOp) {c : Val} (hc : ((Mgr.new E disk).runX E ops).2.config = some c) :
    CfgGood E ((Mgr.new E disk).runX E ops).2.schedules c := by
  have h := runX_good (P := fun l => CfgGood E l.schedules) (E := E) (disk := disk)
    (fun l doc h1 h2 => load_cfgGood hC henv (fun doc1 ho => hdoc doc1 ⟨doc, h1, ho⟩) h2) (cfgGood_kept E) ops _
    ⟨MInv.new E disk, .inl ⟨rfl, rfl, rfl⟩⟩
  obtain ⟨doc, l, _, _, h3, h4⟩ := h.2.loaded hc
  rw [h3]
  exact h4

/-- the config of a StateManager round trips at any time, whatever exceptions were raised before -/
theorem manager_fits {E : MgrEnv} (hC : CfgClass E) {disk : Dir Files} (hdoc : ∀ doc1, LoadedDoc E disk doc1 → CfgDoc E doc1)
    (ops : List MOp) {c : Val} (hc : ((Mgr.new E disk).runX E ops).2.config = some c) :
    Fits E.w.ext false E.cfgTy (some (.node ((Mgr.new E disk).runX E ops).2.schedules)) c ∧
      ∀ segs x, Reg.at (some (.node ((Mgr.new E disk).runX E ops).2.schedules)) segs = some x → segs.length ≤ 2 := by
  have h := runX_good (P := CfgFits E) (E := E) (disk := disk)
    (fun l doc h1 h2 => load_cfgFits hC (fun doc1 ho => hdoc doc1 ⟨doc, h1, ho⟩) h2) (cfgFits_kept E) ops _
    ⟨MInv.new E disk, .inl ⟨rfl, rfl, rfl⟩⟩
  obtain ⟨doc, l, _, _, h3, h4⟩ := h.2.loaded hc
  rw [h3]
  exact h4

/-- without exceptions the two ways to run a history agree -/
theorem runX_run {E : MgrEnv} : ∀ (ops : List MOp) (m m' : Mgr), m.run E ops = .ok m' → (m.runX E ops).2 = m' := by
  intro ops
  induction ops with
  | nil => intro m m' h; cases h; rfl
  | cons op ops ih =>
    intro m m' h
    simp only [Mgr.run, bind, Except.bind] at h
    cases h1 : m.exec E op with
    | error e => rw [h1] at h; exact (nomatch h)
    | ok m1 =>
      rw [h1] at h
      have := (execX_exec E m op).ok (m := m1) (by rw [h1]; rfl)
      simp only [Mgr.runX, this]
      exact ih m1 m' h

/-- for histories without exceptions -/
theorem run_fits {E : MgrEnv} (hC : CfgClass E) {disk : Dir Files} (hdoc : ∀ doc1, LoadedDoc E disk doc1 → CfgDoc E doc1)
    {ops : List MOp} {m : Mgr} (h : (Mgr.new E disk).run E ops = .ok m) {c : Val} (hc : m.config = some c) :
    Fits E.w.ext false E.cfgTy (some (.node m.schedules)) c ∧
      ∀ segs x, Reg.at (some (.node m.schedules)) segs = some x → segs.length ≤ 2 := by
  have := manager_fits hC hdoc ops (c := c)
  rw [runX_run ops _ m h] at this
  exact this hc

theorem run_good {E : MgrEnv} (hC : CfgClass E) (henv : EnvOK E.w.env E.cfgTy) {disk : Dir Files}
    (hdoc : ∀ doc1, LoadedDoc E disk doc1 → CfgDoc E doc1)
    {ops : List MOp} {m : Mgr} (h : (Mgr.new E disk).run E ops = .ok m) {c : Val} (hc : m.config = some c) : CfgGood E m.schedules c := by
  have := manager_good hC henv hdoc ops (c := c)
  rw [runX_run ops _ m h] at this
  exact this hc

/-- C73 (partial): Let a StateManager load its config with overrides, and be used in any way, with whatever exceptions. If the config
is then saved and loaded again with the same overrides, the result is the same as without giving them again: a schedule that an
override installed is kept, and so is everything else. Of several overrides for the same field the last one counts, both times.
Missing: overrides for a field and a part of it, upgrade rules that touch an overridden field (C73_false), versioned classes below the config class,
values of overrides that are objects with schedules in them. -/
theorem C73_manager_partial {E : MgrEnv} (hC : CfgClass E) (henv : EnvOK E.w.env E.cfgTy) (hmat : (materialize E.cfgTy).isOk = true)
    {disk : Dir Files} (hdoc : ∀ doc1, LoadedDoc E disk doc1 → CfgDoc E doc1) (ops : List MOp) {c : Val}
    (hc : ((Mgr.new E disk).runX E ops).2.config = some c) {doc : Val} {bs : List (String × Val)}
    (hd : typedDump E.w.env (some ((Mgr.new E disk).runX E ops).2.schedules) false c = .ok (doc, bs)) :
    smLoadConfig E.w E.cfgTy (some doc) E.overrides E.ignoreExtra = smLoadConfig E.w E.cfgTy (some doc) [] E.ignoreExtra :=
  (manager_good hC henv hdoc ops hc).again hC henv hmat doc bs hd

/-- C45 (partial), with conditions on the config class and the document that was loaded at the start instead of on the config
after the step: after any history, a step that writes a checkpoint, and the start of a new manager on the directory, the first
access to the state gives back the config, the schedules and the state that were current after the step.
Missing: as for C45_partial. -/
theorem C45_class_partial (E : MgrEnv) (disk0 : Dir Files) (pre : List MOp) (mv : Move) (m m' : Mgr)
    (h0 : (Mgr.new E disk0).run E pre = .ok m) (h : m.step E mv = .ok m')
    (hck : E.ckpt = true)
    -- the config
    (hC : CfgClass E) (hdoc : ∀ doc1, LoadedDoc E disk0 doc1 → CfgDoc E doc1)
    (hcenv : EnvOK E.w.env E.cfgTy) (hmat : (materialize E.cfgTy).isOk = true)
    -- the state
    {sn : String} {sfs : List Fld} {sver : Option VerInfo} (hsty : E.stTy = .data sn sfs sver)
    (hsenv : EnvOK E.w.env E.stTy) (hcls : ∀ o, m'.state = some o → o.cls = sn)
    (saved : List (String × Val)) (hnames : dkeys saved = E.stTy.fieldNames)
    (hsaved : ∀ k x, dget saved k = some x → ∃ m'', m'.getState E k = .ok (x, m''))
    (hsfit : Fits E.w.ext true E.stTy none (.inst sn saved))
    (hdirect : ∀ segs c y, valAt (.inst sn saved) segs = some (.ser c y) → segs.length = 1)
    (rank : String → Nat) (hser : SerOK (m'.lenv E) saved rank E.depth ∨ (∀ k c y, dget saved k ≠ some (.ser c y)))
    (hdes : DeserSer E.deser)
    -- the key
    (val : Int) (hval : dget saved E.key = some (.int val)) (hrange : KeyInRange val)
    (hkeys : ∀ n ∈ dkeys m.disk, ∀ i, suffixInt n = some i → i < val) (hnewkey : m.last ≠ some (ckptName E.key val))
    -- the schedules
    (hsv : ∀ a b, (∀ k x, dget saved k = some x → (∀ c y, x ≠ .ser c y) → dget a k = some x ∧ dget b k = some x) →
      E.sv a = E.sv b) :
    ∃ c o2 m2, m'.config = some c ∧ (Mgr.new E m'.disk).readState E = .ok (o2, m2) ∧ Holds E m2 c m'.schedules saved := by
  obtain ⟨cn, cfs, cver, hcty⟩ := hC.cfg
  have h1 : (Mgr.new E disk0).run E (pre ++ [.step mv]) = .ok m' := by
    rw [run_append, h0]
    simp only [Except.bind, Mgr.run, Mgr.exec, h, bind]
  obtain ⟨o, m0, m1, _, _, _, ⟨c, hc, _⟩, _, _, _, hfin⟩ := step_inv (run_inv pre _ m (.new E disk0) h0) h
  have hc' : m'.config = some c := by
    rcases hfin with ⟨hno, _⟩ | ⟨_, _, _, _, _, _, _, _, _, _, _, _, _, rfl⟩
    · rw [hck] at hno; exact (nomatch hno)
    · exact hc
  have hg := run_good hC hcenv hdoc h1 hc'
  obtain ⟨o2, m2, g1, g2⟩ := C45_partial E disk0 pre mv m m' h0 h hck hcty hcenv hmat c hc' hg.fits hg.depth
    (hg.again hC hcenv hmat) hsty hsenv hcls saved hnames hsaved hsfit
    hdirect rank hser hdes val hval hrange hkeys hnewkey hsv
  exact ⟨c, o2, m2, hc', g1, g2⟩

/-- C61 (partial), with conditions on the config class and the document that was loaded at the start instead of on the config.
Missing: as for C61_partial. -/
theorem C61_class_partial (E : MgrEnv) (disk0 : Dir Files) (pre : List MOp) (m m' : Mgr) (files : Files) (o : LObj)
    (h0 : (Mgr.new E disk0).run E pre = .ok m) (hs : m.state = some o) (h : m.checkpoint E = .ok (files, m'))
    -- the config
    (hC : CfgClass E) (hdoc : ∀ doc1, LoadedDoc E disk0 doc1 → CfgDoc E doc1)
    (hcenv : EnvOK E.w.env E.cfgTy) (hmat : (materialize E.cfgTy).isOk = true)
    (c : Val) (hc : m.config = some c)
    -- the state
    {sn : String} {sfs : List Fld} {sver : Option VerInfo} (hsty : E.stTy = .data sn sfs sver)
    (hsenv : EnvOK E.w.env E.stTy) (hcls : o.cls = sn)
    (saved : List (String × Val)) (hnames : dkeys saved = E.stTy.fieldNames)
    (hsaved : ∀ k x, dget saved k = some x → ∃ m'', m'.getState E k = .ok (x, m''))
    (hsfit : Fits E.w.ext true E.stTy none (.inst sn saved))
    (hdirect : ∀ segs c y, valAt (.inst sn saved) segs = some (.ser c y) → segs.length = 1)
    (rank : String → Nat) (hser : SerOK (m.lenv E) saved rank E.depth ∨ (∀ k c y, dget saved k ≠ some (.ser c y)))
    (hdes : DeserSer E.deser) (hdp : E.depth ≠ 0)
    -- the schedules
    (hcur : Current (E.sv o.attrs) (some (.node m.schedules)) c)
    (hsv : ∀ a b, (∀ k x, dget saved k = some x → (∀ c y, x ≠ .ser c y) → dget a k = some x ∧ dget b k = some x) →
      E.sv a = E.sv b)
    -- the other manager
    (ck : Bool) (disk2 : Dir Files) (hopen : ck = false ∨ openMgr disk2 = none) :
    ∃ o2 m2, (Mgr.new { E with init := .dir files, ckpt := ck } disk2).readState { E with init := .dir files, ckpt := ck } =
        .ok (o2, m2) ∧
      Holds { E with init := .dir files, ckpt := ck } m2 c m.schedules saved ∧ m2.disk = disk2 := by
  obtain ⟨cn, cfs, cver, hcty⟩ := hC.cfg
  have hg := run_good hC hcenv hdoc h0 hc
  exact C61_partial E disk0 pre m m' files o h0 hs h hcty hcenv hmat c hc hg.fits hg.depth (hg.again hC hcenv hmat) hsty hsenv hcls saved hnames hsaved hsfit hdirect rank hser
    hdes hdp hcur hsv ck disk2 hopen

namespace ExM
theorem blob_class : CfgClass blobEnv where
  cfg := ⟨_, _, _, rfl⟩
  ty := by simp [blobEnv, E, cfgTy, TyOK, FldsOK, FldOK, NameOK, VerOK, Fld.name]; decide
  ids := by simp [blobEnv, E, cfgTy, IdsOK, IdsOKf, IdsOK1, NameOK, IdOK, Fld.name]; decide
  decl := by simp [blobEnv, E, cfgTy, DeclOK, DeclOKf, DeclOK1, Fld.name]
  firm := by simp [blobEnv, E, cfgTy, FirmDecl, FirmDeclf, FirmDecl1]
  apart := List.Pairwise.nil

/-- the conditions on the class and the document are met by the examples of C45_partial and C61_partial -/
theorem blob_conditions : CfgClass blobEnv ∧ ∀ doc1, LoadedDoc blobEnv blobDisk doc1 → CfgDoc blobEnv doc1 := by
  refine ⟨blob_class, ?_⟩
  rintro doc1 ⟨doc, h1, h2⟩
  have hopen : openMgr blobDisk = some "latest-step000000000010" := by decide +kernel
  have : doc1 = blobFiles.config := by
    cases h1 with
    | @ckpt n f _ h3 h4 =>
      rw [hopen] at h3
      cases h3
      have hf : f = blobFiles := by
        simp only [blobDisk, dget, if_true, Option.some.injEq, Ent.full.injEq] at h4
        exact h4.symm
      subst hf
      cases h2
      rfl
    | file h => rcases h with h | h
                · exact (nomatch h)
                · rw [hopen] at h; exact (nomatch h)
    | dir h => rcases h with h | h
               · exact (nomatch h)
               · rw [hopen] at h; exact (nomatch h)
    | absent h => rcases h with h | h
                  · exact (nomatch h)
                  · rw [hopen] at h; exact (nomatch h)
  subst this
  refine ⟨by simp [blobFiles, Plain, PlainD, PlainP, dkeys], ?_, fun h => absurd rfl h, fun _ _ _ _ o ho => absurd ho (by simp [blobEnv, E])⟩
  simp [blobEnv, E, cfgTy, Shallow, ShallowFs, ShallowF, blobFiles, upgraded, docEntries, Val.isInst, dkeys]
end ExM

end HS
