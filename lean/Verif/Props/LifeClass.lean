import Verif.Proofs.StateFits
import Verif.Props.Life
/-!
# C72 with conditions on the state class instead of on every state
-/
namespace HS

/-- `s` is what a user can read from the manager when a step has returned: the config, its schedules, the fields of the state, the
checkpoint key, which is an int; and the files of the checkpoint. -/
structure Has (E : MgrEnv) (m' : Mgr) (s : Snap) : Prop where
  config : m'.config = some s.config
  schedules : m'.schedules = s.schedules
  names : dkeys s.state = E.stTy.fieldNames
  state : ∀ k x, dget s.state k = some x → ∃ m'', m'.getState E k = .ok (x, m'')
  key : dget s.state E.key = some (.int s.key)
  files : dget m'.disk (ckptName E.key s.key) = some (.full s.files)

section
variable {E : MgrEnv} {pay : String → Val → Prop} {sn : String} {fs : List Fld} {ver : Option VerInfo}

theorem Vals.serOK (hC : StClass E pay sn fs ver) {saved : List (String × Val)} (h : Vals E.w.ext pay fs saved) (m : Mgr) :
    (∃ rank, SerOK (m.lenv E) saved rank E.depth) ∨ (∀ k c y, dget saved k ≠ some (.ser c y)) := by
  cases hl : E.stLazy with
  | false =>
    right
    intro k c y hk
    obtain ⟨f, hf, _, hv⟩ := h.get hk
    have := hC.lazy f hf c hv.of_ser.1
    rw [hl] at this
    exact (nomatch this)
  | true =>
    left
    obtain ⟨rank, h1, h2⟩ := hC.deps
    refine ⟨rank, hl, fun k c y hk vs _ => h.deser hC k c y hk vs, ?_, ?_⟩
    · intro k c y hk d hd
      obtain ⟨f, hf, rfl, hv⟩ := h.get hk
      obtain ⟨h3, h4⟩ := h1 f hf c hv.of_ser.1 d hd
      refine ⟨?_, h4⟩
      rw [← h.names] at h3
      cases hn : dget saved d with
      | none => exact absurd h3 ((dget_eq_none_iff _ _).1 hn)
      | some x => rfl
    · intro k hk
      obtain ⟨x, hx⟩ := Option.isSome_iff_exists.1 hk
      obtain ⟨f, hf, rfl, _⟩ := h.get hx
      exact h2 f hf

/-- what is read after a step meets the conditions of C72 -/
theorem Has.ok (hC : StClass E pay sn fs ver) (hck : E.ckpt = true) {m m' : Mgr} (hI : MInv m) (h : StInv E pay sn fs m) {mv : Move}
    (hst : m.step E mv = .ok m') {s : Snap} (hs : Has E m' s) (hr : KeyInRange s.key)
    (hfresh : dhas m.disk (ckptName E.key s.key) = false) :
    SnapOK E m' s ∧ Vals E.w.ext pay fs s.state ∧ StInv E pay sn fs m' := by
  obtain ⟨o, ho, hcls, saved, hv, hset⟩ := step_st hC hck hI h hst (hs.state _ _ hs.key) hfresh
  have hfn : E.stTy.fieldNames = fs.map Fld.name := by rw [hC.ty]; rfl
  have hdp : E.depth ≠ 0 := by
    intro hd
    obtain ⟨m'', hm⟩ := hs.state _ _ hs.key
    simp [Mgr.getState, Mgr.readState, bind, Except.bind, hd, lazyGet] at hm
    split at hm <;> simp at hm
  have hsv : Vals E.w.ext pay fs s.state := by
    refine ⟨by rw [hs.names, hfn], ?_⟩
    intro f hf x hx
    obtain ⟨m'', hm⟩ := hs.state _ _ hx
    cases hd : dget saved f.name with
    | none => exact absurd (List.mem_map.2 ⟨f, hf, rfl⟩) (hv.names ▸ (dget_eq_none_iff _ _).1 hd)
    | some y =>
      obtain ⟨g1, g2⟩ := hset _ _ hd
      rw [getState_settled ho ⟨g2, fun _ => g1⟩ hdp] at hm
      cases hm
      exact hv.vals f hf x hd
  refine ⟨?_, hsv, ?_, ?_⟩
  · refine ⟨hs.config, hs.schedules, ?_, hs.names, hs.state, ?_, ?_, hsv.serOK hC m', hs.key, hr, ?_, hs.files⟩
    · intro o' ho'
      rw [ho] at ho'
      cases ho'
      exact ⟨fs, ver, by rw [hcls]; exact hC.ty⟩
    · intro sn' fs' ver' he
      rw [hC.ty] at he
      cases he
      exact hsv.fits hC
    · intro sn' segs c y hval
      match segs with
      | [] => simp [valAt] at hval
      | k :: segs =>
        simp only [valAt] at hval
        cases hd : dget s.state k with
        | none => rw [hd] at hval; exact (nomatch hval)
        | some x =>
          rw [hd] at hval
          obtain ⟨f, _, _, hx⟩ := hsv.get hd
          rw [hx.direct segs c y hval]
          rfl
    · intro a b hab
      refine hC.sv a b ?_
      intro f hf hns
      cases hd : dget s.state f.name with
      | none => exact absurd (List.mem_map.2 ⟨f, hf, rfl⟩) (hsv.names ▸ (dget_eq_none_iff _ _).1 hd)
      | some x =>
        obtain ⟨g1, g2⟩ := hab _ x hd ((hsv.vals f hf x hd).not_ser hns)
        rw [g1, g2]
  · intro o' ho'
    rw [ho] at ho'
    cases ho'
    exact ⟨hcls, saved, hv, fun k x hk => .inl (hset k x hk)⟩
  · rw [ho]; intro h; exact (nomatch h)

end

/-- Histories as in `Life`, where values assigned to the fields of the state have the type of the field (nothing else is assumed about the
states at which the steps are taken). -/
inductive LifeT (E : MgrEnv) (pay : String → Val → Prop) (fs : List Fld) (d0 : Dir Files) : LSys → Prop where
  | init : (∀ n ∈ dkeys d0, suffixInt n = .none) → LifeT E pay fs d0 ⟨d0, .none, .none, .none⟩
  | start {s : LSys} (sn : Option Snap) : LifeT E pay fs d0 s → (sn = s.safe ∨ s.pend.isSome = true ∧ sn = s.pend) →
      restored s.disk = sn.map Snap.files → LifeT E pay fs d0 ⟨s.disk, some (Mgr.new E s.disk), sn, .none⟩
  | op {s : LSys} {m : Mgr} (op : MOp) : LifeT E pay fs d0 s → s.mgr = some m → (∀ mv, op ≠ .step mv) → op.Typed E.w.ext pay fs →
      LifeT E pay fs d0 ⟨s.disk, some (m.execX E op).2, s.safe, s.pend⟩
  | assign {s : LSys} {m : Mgr} (path : List String) (v : Val) : LifeT E pay fs d0 s → s.mgr = some m →
      AssignOK E (configX E m).2.schedules path v → LifeT E pay fs d0 ⟨s.disk, some (setConfigX E path v m).2, s.safe, s.pend⟩
  | step {s : LSys} {m m' : Mgr} (mv : Move) (sn : Snap) : LifeT E pay fs d0 s → s.mgr = some m → m.step E mv = .ok m' → Has E m' sn →
      KeyInRange sn.key → (∀ c, s.safe = some c → c.key < sn.key) → LifeT E pay fs d0 ⟨m'.disk, some m', some sn, .none⟩
  | raise {s : LSys} {m : Mgr} (mv : Move) (e : Err) : LifeT E pay fs d0 s → s.mgr = some m → (m.execX E (.step mv)).1 = .error e →
      LifeT E pay fs d0 ⟨(m.execX E (.step mv)).2.disk, some (m.execX E (.step mv)).2, s.safe, s.pend⟩
  | crashStep {s : LSys} {m m' : Mgr} {d : Dir Files} (mv : Move) (n : Nat) (sn : Snap) : LifeT E pay fs d0 s → s.mgr = some m →
      m.step E mv = .ok m' → Has E m' sn → KeyInRange sn.key → (∀ c, s.safe = some c → c.key < sn.key) → m.crashStep E mv n = .ok d →
      LifeT E pay fs d0 ⟨d, .none, s.safe, some sn⟩
  | crash {s : LSys} : LifeT E pay fs d0 s → LifeT E pay fs d0 ⟨s.disk, .none, s.safe, s.pend⟩

structure TInv (E : MgrEnv) (pay : String → Val → Prop) (sn : String) (fs : List Fld) (d0 : Dir Files) (s : LSys) : Prop where
  life : Life E d0 s
  mgr : ∀ m, s.mgr = some m → StInv E pay sn fs m
  safe : ∀ t, s.safe = some t → FilesOK E pay sn fs t.files
  pend : ∀ t, s.pend = some t → FilesOK E pay sn fs t.files

theorem Wrote.filesOK {E : MgrEnv} {pay : String → Val → Prop} {sn : String} {fs : List Fld} {ver : Option VerInfo}
    (hC : StClass E pay sn fs ver) {s : Snap} (hw : Wrote E s) (hv : Vals E.w.ext pay fs s.state) : FilesOK E pay sn fs s.files := by
  intro o ho
  obtain ⟨o', h1, h2, h3⟩ := hw.loads sn fs ver hC.ty
  rw [ho] at h1
  cases h1
  exact ⟨h2, s.state, hv, h3⟩

theorem lifeT_inv {E : MgrEnv} (hE : RunOK E) {pay : String → Val → Prop} {sn : String} {fs : List Fld} {ver : Option VerInfo}
    (hC : StClass E pay sn fs ver) (hinit : InitOK E pay sn fs) {d0 : Dir Files} {s : LSys} (h : LifeT E pay fs d0 s) :
    TInv E pay sn fs d0 s := by
  induction h with
  | init hd => exact ⟨.init hd, nofun, nofun, nofun⟩
  | @start s t _ hor hres ih =>
    have hok : ∀ u, t = some u → FilesOK E pay sn fs u.files := by
      intro u hu
      rcases hor with h | ⟨_, h⟩
      · exact ih.safe u (h ▸ hu)
      · exact ih.pend u (h ▸ hu)
    refine ⟨.start t ih.life hor hres, ?_, hok, nofun⟩
    intro m hm
    cases hm
    refine ⟨nofun, fun _ => ?_⟩
    simp only [Mgr.new, hE.ckpt, if_true]
    split
    · rename_i n hn
      intro f hf
      have hr : restored s.disk = some f := by simp [restored, hn, hf]
      rw [hr] at hres
      cases t with
      | none => exact (nomatch hres)
      | some u =>
        simp only [Option.map_some, Option.some.injEq] at hres
        rw [hres]
        exact hok u rfl
    · exact hinit
  | @op s m op _ hm hop ht ih =>
    refine ⟨.op op ih.life hm hop, ?_, ih.safe, ih.pend⟩
    intro m' hm'
    cases hm'
    exact execX_st hC (ih.mgr m hm) op hop ht
  | @assign s m path v _ hm hA ih =>
    refine ⟨.assign path v ih.life hm hA, ?_, ih.safe, ih.pend⟩
    intro m' hm'
    cases hm'
    obtain ⟨d1, d2, d3, d4, _⟩ := setConfigX_rest E path v m
    have hb : (setConfigX E path v m).2.blobs E = m.blobs E := by simp only [Mgr.blobs, d1, d4]
    obtain ⟨a1, a2⟩ := ih.mgr m hm
    refine ⟨fun o ho => ?_, fun hn => ?_⟩
    · rw [hb]; exact a1 o (by rw [← d3]; exact ho)
    · rw [d1, d2]; exact a2 (by rw [← d3]; exact hn)
  | @step s m m' mv t _ hm hst hs hr hlt ih =>
    have hl := life_inv hE ih.life
    obtain ⟨f1, f2⟩ := key_fresh hl hm hr hlt
    have hg := (hl.mgr m hm).2
    obtain ⟨g1, g2, g3⟩ := hs.ok hC hE.ckpt hg.inv (ih.mgr m hm) hst hr f1
    obtain ⟨w1, _⟩ := step_wrote hE hg.inv hst g1 ((good_step hg hst).snap g1) f1 f2
    refine ⟨.step mv t ih.life hm hst g1 hlt, ?_, ?_, nofun⟩
    · intro m'' hm''
      cases hm''
      exact g3
    · intro u hu
      cases hu
      exact w1.filesOK hC g2
  | @raise s m mv e _ hm he ih =>
    have hl := life_inv hE ih.life
    refine ⟨.raise mv e ih.life hm he, ?_, ih.safe, ih.pend⟩
    intro m' hm'
    cases hm'
    exact stepX_st hC (ih.mgr m hm) mv he (raise_disk hl hm mv e he)
  | @crashStep s m m' d mv n t _ hm hst hs hr hlt hcr ih =>
    have hl := life_inv hE ih.life
    obtain ⟨f1, f2⟩ := key_fresh hl hm hr hlt
    have hg := (hl.mgr m hm).2
    obtain ⟨g1, g2, g3⟩ := hs.ok hC hE.ckpt hg.inv (ih.mgr m hm) hst hr f1
    obtain ⟨w1, _⟩ := step_wrote hE hg.inv hst g1 ((good_step hg hst).snap g1) f1 f2
    refine ⟨.crashStep mv n t ih.life hm hst g1 hlt hcr, nofun, ih.safe, ?_⟩
    intro u hu
    cases hu
    exact w1.filesOK hC g2
  | @crash s _ ih => exact ⟨.crash ih.life, nofun, ih.safe, ih.pend⟩

/-! ## C72 -/

/-- C72: C72_crash_safe_partial with conditions on the state class and on the values that are assigned, instead of on the state of every
step: at any moment, however often processes were killed before, a StateManager started now finds either what the user had when the last
step returned (or at the last start), or what they had in the step that was interrupted since. -/
theorem C72_class_crash_safe_partial {E : MgrEnv} (hE : RunOK E) {pay : String → Val → Prop} {sn : String} {fs : List Fld}
    {ver : Option VerInfo} (hC : StClass E pay sn fs ver) (hinit : InitOK E pay sn fs) {d0 : Dir Files} {s : LSys}
    (h : LifeT E pay fs d0 s) :
    ∃ sn, (sn = s.safe ∨ s.pend.isSome = true ∧ sn = s.pend) ∧ restored s.disk = sn.map Snap.files ∧
      match sn with
      | some t => ∃ o m, (Mgr.new E s.disk).readState E = .ok (o, m) ∧ Holds E m t.config t.schedules t.state
      | none => (Mgr.new E s.disk).last = none :=
  C72_crash_safe_partial hE (lifeT_inv hE hC hinit h).life

/-- C72: a step that returned is never lost. -/
theorem C72_class_never_lost_partial {E : MgrEnv} (hE : RunOK E) {pay : String → Val → Prop} {sn : String} {fs : List Fld}
    {ver : Option VerInfo} (hC : StClass E pay sn fs ver) (hinit : InitOK E pay sn fs) {d0 : Dir Files} {s : LSys}
    (h : LifeT E pay fs d0 s) (hs : s.safe.isSome = true) :
    ∃ t o m, (Mgr.new E s.disk).readState E = .ok (o, m) ∧ Holds E m t.config t.schedules t.state ∧
      (s.safe = some t ∨ s.pend = some t) :=
  C72_never_lost_partial hE (lifeT_inv hE hC hinit h).life hs

/-- C72: what `LifeT` asks of a step can be read from the manager: whenever a step returns and the checkpoint key is an int that is larger
than the restored or last saved one, there is a snapshot, and with it the history continues. -/
theorem C72_class_step {E : MgrEnv} (hE : RunOK E) {pay : String → Val → Prop} {sn : String} {fs : List Fld}
    {ver : Option VerInfo} (hC : StClass E pay sn fs ver) (hinit : InitOK E pay sn fs) {d0 : Dir Files} {s : LSys}
    (h : LifeT E pay fs d0 s) {m m' : Mgr} (hm : s.mgr = some m) {mv : Move} (hst : m.step E mv = .ok m') {key : Int}
    (hkf : E.key ∈ fs.map Fld.name) (hkey : ∃ m'', m'.getState E E.key = .ok (.int key, m'')) (hr : KeyInRange key)
    (hlt : ∀ c, s.safe = some c → c.key < key) :
    ∃ t, t.key = key ∧ LifeT E pay fs d0 ⟨m'.disk, some m', some t, .none⟩ := by
  have hi := lifeT_inv hE hC hinit h
  have hl := life_inv hE hi.life
  obtain ⟨f1, f2⟩ := key_fresh hl hm hr hlt
  have hg := (hl.mgr m hm).2
  obtain ⟨o, ho, hcls, saved, hv, hset⟩ := step_st hC hE.ckpt hg.inv (hi.mgr m hm) hst hkey f1
  have hdp : E.depth ≠ 0 := by
    intro hd
    obtain ⟨m'', hm⟩ := hkey
    simp [Mgr.getState, Mgr.readState, bind, Except.bind, hd, lazyGet] at hm
    split at hm <;> simp at hm
  have hget : ∀ k x, dget saved k = some x → m'.getState E k = .ok (x, m') := fun k x hk =>
    getState_settled ho ⟨(hset k x hk).2, fun _ => (hset k x hk).1⟩ hdp
  have hk : dget saved E.key = some (.int key) := by
    cases hd : dget saved E.key with
    | none => exact absurd hkf (hv.names ▸ (dget_eq_none_iff _ _).1 hd)
    | some y =>
      obtain ⟨m'', hm⟩ := hkey
      rw [hget _ _ hd] at hm
      cases hm
      rfl
  obtain ⟨o1, m0, m1, _, _, _, ⟨c1, hc1, _⟩, _, _, _, hfin⟩ := step_inv hg.inv hst
  rcases hfin with ⟨hno, _⟩ | ⟨_, c', kv, val', files, o', d', l', hc', hkv, hval', hor, hrun, rfl⟩
  · rw [hE.ckpt] at hno; exact (nomatch hno)
  have hval : val' = key := by
    have hs := lazyGet_settled _ _ _ _ _ hkv
    have : Settled E.stLazy o' E.key kv := by
      rcases hor with ⟨_, rfl⟩ | ⟨_, hdump⟩
      · exact hs
      · obtain ⟨_, _, vs, _, _, _, hvs, _, _, rfl⟩ := dump_inv hdump
        exact (readAll_settled _ _ _ _ _ hvs).2.1 _ _ hs
    simp only [Option.some.injEq] at ho
    subst ho
    have he := (hset _ _ hk).2.symm.trans this.1
    cases he
    simp only [ckptVal, Except.ok.injEq] at hval'
    exact hval'.symm
  subst hval
  have hsaved := (C41_step_saves_partial mv E.key val' files m.disk m.last ((dget_eq_none_iff _ _).1 ((dhas_false _ _).1 f1)) f2 hrun).1
  refine ⟨⟨c1, m1.schedules, saved, val', files⟩, rfl, .step mv _ h hm hst ?_ hr hlt⟩
  exact ⟨hc1, rfl, by rw [hv.names, hC.ty]; rfl, fun k x hk => ⟨_, hget k x hk⟩, hk, hsaved⟩

namespace ExLife
open ExM

/-- what `Net` serializes to: ints -/
def netPay (c : String) (y : Val) : Prop := c = "Net" ∧ ∃ i, y = .int i

def stFs : List Fld := [.mk "step" .int .none, .mk "net" (.blob "Net") .none]

theorem ser_net {f : Fld} (hf : f ∈ stFs) {c : String} (h : SerTy f.ty c) : f.name = "net" ∧ c = "Net" := by
  simp only [stFs, List.mem_cons, List.not_mem_nil, or_false] at hf
  rcases hf with rfl | rfl
  · exact (nomatch h)
  · cases h; exact ⟨rfl, rfl⟩

theorem stClass : StClass env netPay "State" stFs .none where
  ty := rfl
  ok := by
    simp [stFs, ClassOK, VerOK, NameOK, IdOK, Fld.name]
    decide
  lazy := fun _ _ _ _ => rfl
  deser := fun _ _ _ _ _ _ _ => rfl
  deps := ⟨fun _ => 0, fun _ _ _ _ d hd => by simp [env, blobEnv, E] at hd, fun _ _ => by simp [env, blobEnv, E]⟩
  sv := by
    intro a b h
    have := h (.mk "step" .int .none) (by simp [stFs]) (by intro c hc; exact (nomatch hc))
    simp only [Fld.name] at this
    funext t
    simp [env, blobEnv, E, ramp, this]

theorem vals (i j : Int) : Vals w.ext netPay stFs [("step", .int i), ("net", .ser "Net" (.int j))] := by
  refine ⟨rfl, ?_⟩
  intro f hf x hx
  simp only [stFs, List.mem_cons, List.not_mem_nil, or_false] at hf
  rcases hf with rfl | rfl
  · simp only [Fld.name, dget, if_true, Option.some.injEq] at hx
    subst hx
    exact .plain (by simp [Fld.ty, TyOK]) (by simp [Fld.ty, IdsOK]) ⟨.inl ⟨_, rfl⟩, trivial, rfl⟩
  · simp [Fld.name, dget] at hx
    subst hx
    exact .ser (.ser _) ⟨rfl, _, rfl⟩

theorem initOK : InitOK env netPay "State" stFs := by
  refine ⟨?_, fun h => absurd rfl (h _)⟩
  intro f hf o ho
  cases hf
  have : loadStateObj env blobFiles.state = .ok unread := rfl
  rw [this] at ho
  cases ho
  refine ⟨rfl, [("step", .int 10), ("net", .ser "Net" (.int 7))], vals 10 7, ?_⟩
  intro k x hk
  simp only [dget] at hk
  split at hk
  · rename_i h; subst h; cases hk; exact .inl ⟨rfl, rfl⟩
  · split at hk
    · rename_i h; subst h; cases hk; exact .inr ⟨_, _, _, rfl, rfl, rfl⟩
    · exact (nomatch hk)

/-- the class, the initial state and a history: a first process makes a step at 10 and is killed, a second one is started, sets
`step = 20` and makes a step -/
example : RunOK env ∧ StClass env netPay "State" stFs .none ∧ InitOK env netPay "State" stFs ∧
    ∃ d m t, t.key = 20 ∧ LifeT env netPay stFs [] ⟨d, some m, some t, .none⟩ := by
  refine ⟨runOK, stClass, initOK, ?_⟩
  have h1 : LifeT env netPay stFs [] ⟨disk10, some (after 10 "latest-step000000000010" .init), some (snap 10), .none⟩ := by
    have hs := snapOK 10 (by simp [KeyInRange]) _ name10 .init
    refine LifeT.step (s := ⟨[], some (Mgr.new env []), .none, .none⟩) ⟨.none, false⟩ (snap 10) ?_ rfl step10
      ⟨hs.config, hs.schedules, hs.names, hs.state, hs.key, hs.files⟩ hs.range nofun
    exact LifeT.start (s := ⟨[], .none, .none, .none⟩) .none (.init nofun) (.inl rfl) (by
      have : openMgr ([] : Dir Files) = none := by decide +kernel
      simp [restored, this])
  have h2 : LifeT env netPay stFs [] ⟨disk10, some (Mgr.new env disk10), some (snap 10), .none⟩ := by
    refine LifeT.start (s := ⟨disk10, .none, some (snap 10), .none⟩) (some (snap 10)) h1.crash (.inl rfl) ?_
    have : openMgr disk10 = some "latest-step000000000010" := by decide +kernel
    simp only [restored, this]
    rfl
  have h3 : LifeT env netPay stFs [] ⟨disk10, some set20, some (snap 10), .none⟩ := by
    have := LifeT.op (.setState "step" (.int 20)) h2 rfl nofun (by
      intro f hf hn
      simp only [stFs, List.mem_cons, List.not_mem_nil, or_false] at hf
      rcases hf with rfl | rfl
      · exact .plain (by simp [Fld.ty, TyOK]) (by simp [Fld.ty, IdsOK]) ⟨.inl ⟨_, rfl⟩, trivial, rfl⟩
      · simp [Fld.name] at hn)
    have he := execX_exec env (Mgr.new env disk10) (.setState "step" (.int 20)) |>.ok (by simp only [Mgr.exec, set20_eq]; rfl)
    rw [he] at this
    exact this
  obtain ⟨t, h4, h5⟩ := C72_class_step runOK stClass initOK h3 rfl step20 (key := 20) (by simp [stFs, Fld.name, env, blobEnv, E])
    ⟨_, rfl⟩ (by simp [KeyInRange]) (by intro c hc; cases hc; decide)
  exact ⟨_, _, t, h4, h5⟩

end ExLife

end HS
