import Verif.Model.Assign
import Verif.Props.Shared
/-!
# C78: `checkpoint_dir` assigned to a manager that was created without one
-/
namespace HS

/-- C78: with nothing read before, it makes no difference whether the directory is given at construction or assigned later. -/
theorem C78_first (E : MgrEnv) (d : Dir Files) : (Mgr.new E.noDir []).assignDir d = Mgr.new E.withDir d := by
  simp only [Mgr.assignDir, Mgr.new, MgrEnv.noDir, MgrEnv.withDir, if_true]
  cases openMgr d <;> rfl

/-! ## a directory without checkpoint -/

theorem compat_none (d0 d : Dir Files) : Compat none d0 d := fun _ _ h => nomatch h

theorem reads_noDir (E : MgrEnv) : ReadsOnly none [] (Mgr.new E.noDir []) := ⟨rfl, rfl, fun _ h => nomatch h⟩

/-- all operations of a manager without directory, `step` included -/
theorem execX_noDir_sim (E : MgrEnv) (d : Dir Files) (op : MOp) :
    Sim none [] d (fun m => m.execX E.noDir op) (fun m => m.execX E.noDir op) := by
  have hc := compat_none [] d
  by_cases hr : op.reads = true
  · exact execX_sim E.noDir hc op hr
  · cases op with
    | step mv =>
      show Sim none [] d (stepX E.noDir mv) (stepX E.noDir mv)
      exact (stateX_sim E.noDir hc).bind fun o => (applyX_sim E.noDir hc o).bind fun _ m hm => .inr ⟨rfl, rfl, hm⟩
    | _ => exact absurd rfl hr

theorem runX_noDir (E : MgrEnv) (d : Dir Files) : ∀ (ops : List MOp) (m : Mgr), ReadsOnly none [] m →
    ((m.onDisk d).runX E.noDir ops).1 = (m.runX E.noDir ops).1 ∧
      ((m.onDisk d).runX E.noDir ops).2 = (m.runX E.noDir ops).2.onDisk d ∧ ReadsOnly none [] (m.runX E.noDir ops).2 := by
  intro ops
  induction ops with
  | nil => intro m hm; exact ⟨rfl, rfl, hm⟩
  | cons op ops ih =>
    intro m hm
    rcases execX_noDir_sim E d op m hm with ⟨h, -⟩ | ⟨h1, h2, h3⟩
    · exact (nomatch h)
    · simp only at h1 h2 h3
      obtain ⟨i1, i2, i3⟩ := ih _ h3
      simp only [Mgr.runX]
      rw [h1, h2, i1, i2]
      exact ⟨rfl, rfl, i3⟩

/-- a call that is no step does not depend on whether there is a directory to write to -/
theorem execX_withDir (E : MgrEnv) (m : Mgr) (op : MOp) (hr : op.reads = true) : m.execX E.withDir op = m.execX E.noDir op := by
  cases op with
  | step mv => exact (nomatch hr)
  | _ => rfl

theorem runX_withDir (E : MgrEnv) : ∀ (ops : List MOp) (m : Mgr), (∀ op ∈ ops, op.reads = true) → m.runX E.withDir ops = m.runX E.noDir ops := by
  intro ops
  induction ops with
  | nil => intro m _; rfl
  | cons op ops ih =>
    intro m h
    simp only [Mgr.runX]
    rw [execX_withDir E m op (h op (List.mem_cons_self ..)), ih _ fun o ho => h o (List.mem_cons_of_mem _ ho)]

/-- C78: a directory without checkpoint: after any history of reads and assignments (failed ones included) the manager is the one that
would have come out had the directory been given at construction, and all calls had the same outcome. -/
theorem C78_empty (E : MgrEnv) (d : Dir Files) (hd : openMgr d = none) (ops : List MOp) (hr : ∀ op ∈ ops, op.reads = true) :
    ((Mgr.new E.noDir []).runX E.noDir ops).1 = ((Mgr.new E.withDir d).runX E.withDir ops).1 ∧
    ((Mgr.new E.noDir []).runX E.noDir ops).2.assignDir d = ((Mgr.new E.withDir d).runX E.withDir ops).2 := by
  have h0 : Mgr.new E.withDir d = (Mgr.new E.noDir []).onDisk d := by
    simp only [Mgr.new, MgrEnv.noDir, MgrEnv.withDir, if_true, hd, Mgr.onDisk]; rfl
  obtain ⟨h1, h2, h3⟩ := runX_noDir E d ops _ (reads_noDir E)
  rw [runX_withDir E ops _ hr, h0, h1, h2]
  refine ⟨rfl, ?_⟩
  simp only [Mgr.assignDir, hd]; rfl

/-- C78: and if there were steps before, all reads go on to give what they gave. -/
theorem C78_empty_reads (E : MgrEnv) (d : Dir Files) (hd : openMgr d = none) (ops more : List MOp) (hr : ∀ op ∈ more, op.reads = true) :
    let m := ((Mgr.new E.noDir []).runX E.noDir ops).2
    ((m.assignDir d).runX E.withDir more).1 = (m.runX E.noDir more).1 ∧
    (configX E.withDir ((m.assignDir d).runX E.withDir more).2).1 = (configX E.noDir (m.runX E.noDir more).2).1 ∧
    ∀ k, (getStateX E.withDir k ((m.assignDir d).runX E.withDir more).2).1 = (getStateX E.noDir k (m.runX E.noDir more).2).1 := by
  intro m
  have hm := (runX_noDir E [] ops _ (reads_noDir E)).2.2
  have ha : m.assignDir d = m.onDisk d := by simp only [Mgr.assignDir, hd]; rfl
  obtain ⟨h1, h2, h3⟩ := runX_noDir E d more m hm
  rw [runX_withDir E more _ hr, ha, h1, h2]
  refine ⟨rfl, ?_, fun k => ?_⟩
  · rcases configX_sim E.noDir (compat_none [] d) _ h3 with ⟨h, -⟩ | h
    · exact (nomatch h)
    · exact h.1
  · rcases getStateX_sim E.noDir (compat_none [] d) k _ h3 with ⟨h, -⟩ | h
    · exact (nomatch h)
    · exact h.1

/-! ## a directory with a checkpoint -/

/-- reading the state from a checkpoint, when the config was read before -/
theorem readState_ckpt {E : MgrEnv} {m m1 : Mgr} {n : String} {f : Files} {o : LObj} (hs : m.state = none) (hl : m.last = some n)
    (hf : dget m.disk n = some (.full f)) (h : m.readState E = .ok (o, m1)) :
    loadStateObj E f.state = .ok o ∧ m1.src = .ckpt n ∧ m1.disk = m.disk ∧
      ∃ c m0 c1, m.readConfig E = .ok (c, m0) ∧ applyRegD (E.sv o.attrs) m0.schedules c = .ok c1 ∧ m1.config = some c1 := by
  simp only [Mgr.readState, hs, Mgr.loadState, hl, bind, Except.bind, pure, Except.pure] at h
  cases hc : m.readConfig E with
  | error e => rw [hc] at h; exact (nomatch h)
  | ok r =>
    obtain ⟨c, m0⟩ := r
    rw [hc] at h
    have hk : m0.config = some c ∧ m0.disk = m.disk := by
      rcases readConfig_inv hc with ⟨h1, rfl⟩ | ⟨_, l, _, rfl, rfl⟩
      · exact ⟨h1, rfl⟩
      · exact ⟨rfl, rfl⟩
    simp only [ckptFiles, hk.2, hf] at h
    cases ho : loadStateObj E f.state with
    | error e => rw [ho] at h; exact (nomatch h)
    | ok o' =>
      rw [ho] at h
      simp only [Mgr.apply, Mgr.readConfig, hk.1, bind, Except.bind, pure, Except.pure] at h
      cases ha : applyRegD (E.sv o'.attrs) m0.schedules c with
      | error e => rw [ha] at h; exact (nomatch h)
      | ok c1 =>
        rw [ha] at h
        simp only [Except.ok.injEq, Prod.mk.injEq] at h
        obtain ⟨rfl, rfl⟩ := h
        exact ⟨rfl, rfl, hk.2, c, m0, c1, rfl, ha, rfl⟩

theorem getState_split {E : MgrEnv} {m m1 : Mgr} {k : String} {v : Val} (h : m.getState E k = .ok (v, m1)) :
    ∃ o m0, m.readState E = .ok (o, m0) ∧ (lazyGet (m0.lenv E) E.depth o k).res = .ok v ∧ m1.config = m0.config := by
  simp only [Mgr.getState, bind, Except.bind, pure, Except.pure] at h
  cases hr : m.readState E with
  | error e => rw [hr] at h; exact (nomatch h)
  | ok r =>
    rw [hr] at h
    simp only at h
    cases hv : (lazyGet (r.2.lenv E) E.depth r.1 k).res with
    | error e => rw [hv] at h; exact (nomatch h)
    | ok v' =>
      rw [hv] at h
      simp only [Except.ok.injEq, Prod.mk.injEq] at h
      exact ⟨r.1, r.2, rfl, by rw [hv, h.1], by rw [← h.2]⟩

/-- C78 fails when there is a checkpoint and the config has been read before (as it has when the name of the directory depends on it):
the fields of the state are those of the checkpoint, but the config stays the one that was loaded from `init_path`, with its schedules at
the state of the checkpoint. -/
theorem C78_config_read_false (E : MgrEnv) (d : Dir Files) {n : String} {f : Files} (hn : openMgr d = some n) (hf : dget d n = some (.full f))
    {c : Val} (m : Mgr) (hc : m.config = some c) (hs : m.state = none) :
    (m.assignDir d).readConfig E.withDir = .ok (c, m.assignDir d) ∧
    ∀ k v m1, (m.assignDir d).getState E.withDir k = .ok (v, m1) →
      (∀ v' m2, (Mgr.new E.withDir d).getState E.withDir k = .ok (v', m2) → v = v') ∧
      ∃ o c1, loadStateObj E f.state = .ok o ∧ applyRegD (E.sv o.attrs) m.schedules c = .ok c1 ∧ m1.readConfig E.withDir = .ok (c1, m1) := by
  have hcfg : (m.assignDir d).readConfig E.withDir = .ok (c, m.assignDir d) := by simp only [Mgr.readConfig, Mgr.assignDir, hc]
  refine ⟨hcfg, fun k v m1 h => ?_⟩
  obtain ⟨o, m0, h1, h2, h3⟩ := getState_split h
  obtain ⟨a1, a2, a3, c', mc, c1, a4, a5, a6⟩ := readState_ckpt (m := m.assignDir d) hs (by simp only [Mgr.assignDir, hn]) hf h1
  rw [hcfg] at a4
  cases a4
  refine ⟨fun v' m2 h' => ?_, o, c1, a1, a5, ?_⟩
  · obtain ⟨o', m0', b1, b2, _⟩ := getState_split h'
    obtain ⟨e1, e2, e3, _⟩ := readState_ckpt (m := Mgr.new E.withDir d) rfl
      (by simp only [Mgr.new, MgrEnv.withDir, if_true, hn]) hf b1
    rw [a1] at e1
    cases e1
    have hL : m0.lenv E.withDir = m0'.lenv E.withDir := by
      simp only [Mgr.lenv, Mgr.blobs, a2, a3, e2, e3]; rfl
    rw [hL, b2] at h2
    cases h2; rfl
  · simp only [Mgr.readConfig, h3, a6]

/-- C78 fails when there is a checkpoint and the state has been read before: nothing of it is ever restored, all reads go on to give
what they gave. -/
theorem C78_state_read_false (E : MgrEnv) (d : Dir Files) (ops : List MOp) {o : LObj} (m : Mgr)
    (hm : m = ((Mgr.new E.noDir []).runX E.noDir ops).2) (hs : m.state = some o) :
    ((m.assignDir d).readConfig E.withDir).map Prod.fst = (m.readConfig E.noDir).map Prod.fst ∧
    ∀ k, ((m.assignDir d).getState E.withDir k).map Prod.fst = (m.getState E.noDir k).map Prod.fst := by
  subst hm
  have hR := (runX_noDir E [] ops _ (reads_noDir E)).2.2
  have hI := runX_inv E.noDir [] ops
  generalize ((Mgr.new E.noDir []).runX E.noDir ops).2 = m at *
  obtain ⟨c, hc⟩ := Option.isSome_iff_exists.1 (hI.cfg (by rw [hs]; rfl))
  constructor
  · simp only [Mgr.readConfig, Mgr.assignDir, hc]
    rfl
  · intro k
    have hsrc : m.src = .init := by
      cases hx : m.src with
      | init => rfl
      | ckpt k => exact (nomatch hR.2.2 k hx)
    have hL : (m.assignDir d).lenv E.withDir = m.lenv E.noDir := by
      simp only [Mgr.lenv, Mgr.blobs, Mgr.assignDir, hsrc]; rfl
    have h1 : ∀ m : Mgr, m.state = some o → ∀ E, m.readState E = .ok (o, m) := fun m h E => by simp only [Mgr.readState, h]
    simp only [Mgr.getState, bind, Except.bind, pure, Except.pure]
    rw [h1 m hs, h1 (m.assignDir d) hs]
    simp only [hL]
    rw [show E.withDir.depth = E.noDir.depth from rfl]
    cases (lazyGet (m.lenv E.noDir) E.noDir.depth o k).res <;> rfl

theorem runX_sameDisk (E : MgrEnv) : ∀ (ops : List MOp) (m : Mgr), (∀ op ∈ ops, op.reads = true) → SameDisk m (m.runX E ops).2 := by
  intro ops
  induction ops with
  | nil => intro m _; exact ⟨rfl, rfl⟩
  | cons op ops ih =>
    intro m h
    have h1 := C71_disk E m op (by rintro mv rfl; exact (nomatch h _ (List.mem_cons_self ..)))
    have h2 := ih (m.execX E op).2 fun o ho => h o (List.mem_cons_of_mem _ ho)
    exact ⟨h2.1.trans h1.1, h2.2.trans h1.2⟩

/-- C78: and the next step that returns deletes that checkpoint, whatever was done before, and whatever the key of the state is. (If it is
that of the checkpoint, nothing is written in its place.) -/
theorem C78_deleted_false (E : MgrEnv) (d : Dir Files) {n : String} (hn : openMgr d = some n) (mv : Move)
    (ops more : List MOp) (hr : ∀ op ∈ more, op.reads = true) {m' : Mgr}
    (h : (((((Mgr.new E.noDir []).runX E.noDir ops).2.assignDir d).runX E.withDir more).2).execX E.withDir (.step mv) = (.ok (), m')) :
    dget m'.disk n = none := by
  obtain ⟨hd, hl⟩ := runX_sameDisk E.withDir more (((Mgr.new E.noDir []).runX E.noDir ops).2.assignDir d) hr
  generalize ((((Mgr.new E.noDir []).runX E.noDir ops).2.assignDir d).runX E.withDir more).2 = m at *
  simp only [Mgr.assignDir, hn] at hd hl
  have ht := stepX_keeps (E := E.withDir) (P := SameDisk m) (S := fun m' => dget m'.disk n = none) (R := fun _ => True)
    (fun h => nomatch h) (fun _ _ => trivial) (sameDisk_config _ m) (sameDisk_state _ m) (fun _ _ h _ => h)
    (fun _ _ _ _ h _ _ _ => h) mv (d := m.disk) (l := m.last) (fun m' h => h) (by
      intro m1 val files ops t hm hops
      rw [hl] at hops
      exact last_gone (key := E.withDir.key) mv val files m.disk (runOps m.disk ops) n (some t) (by simp only [stepRun, hops]))
    (fun _ _ _ _ _ _ => trivial)
  have := ht m ⟨rfl, rfl⟩
  have h' : stepX E.withDir mv m = (.ok (), m') := h
  rw [h'] at this
  exact this

/-! ## concrete cases -/

namespace ExAssign
open ExM ExLife

/-- a directory with a checkpoint at step 20, whose config has `n = 5` -/
def files20 : Files :=
  ⟨.dict [("!__name__", .str "Config"), ("opt", .dict [("!__name__", .str "Opt"), ("lr", .str txt)]), ("n", .int 5)],
   .dict [("!__name__", .str "State"), ("step", .int 20), ("net", .str "<blob:msgpack>")], [("state.net.msgpack", .int 7)]⟩
def dir20 : Dir Files := [("latest-step000000000020", .full files20)]

/-- `opt.lr`, `n` and `step` as the user reads them -/
def shows (E : MgrEnv) (m : Mgr) : Option Int × Option Int × Option Int :=
  let c := (configX E m).1.toOption
  let int : Option Val → Option Int := fun x => match x with
    | some (.int i) => some i
    | _ => none
  (int (c.bind (valAt · ["opt", "lr"])), int (c.bind (valAt · ["n"])), int (getStateX E "step" m).1.toOption)

/-- given at construction -/
def given : Mgr := ((Mgr.new env.withDir dir20).runX env.withDir [.readConfig, .getState "step"]).2
/-- assigned after the config was read -/
def afterConfig : Mgr := ((((Mgr.new env.noDir []).runX env.noDir [.readConfig]).2.assignDir dir20).runX env.withDir [.getState "step"]).2
/-- assigned after the state was read -/
def afterState : Mgr := (((Mgr.new env.noDir []).runX env.noDir [.getState "step"]).2.assignDir dir20)

end ExAssign

open ExAssign ExM ExLife in
/-- Given at construction, config and state are those of the checkpoint. Assigned after the config was read, the state is that of the
checkpoint, the config (`n = 3`) that of `init_path`. Assigned after the state was read, the state is that of `init_path`, and the step
replaces the checkpoint at 20 by one at 10. -/
example : shows env.withDir given = (some 20, some 5, some 20) ∧ shows env.withDir afterConfig = (some 20, some 3, some 20) ∧
    shows env.withDir afterState = (some 10, some 3, some 10) ∧
    dkeys (afterState.execX env.withDir (.step ⟨.none, false⟩)).2.disk = ["latest-step000000000010"] ∧
    (afterState.execX env.withDir (.step ⟨.none, false⟩)).1.toOption.isSome = true := by
  decide +kernel

open ExAssign ExM ExLife in
/-- The hypotheses of the theorems: the directory is found to have this checkpoint; after `readConfig` there is a config and no state. -/
example : openMgr dir20 = some "latest-step000000000020" ∧ openMgr ([] : Dir Files) = none ∧
    ((Mgr.new env.noDir []).runX env.noDir [.readConfig]).2.config.isSome = true ∧
    ((Mgr.new env.noDir []).runX env.noDir [.readConfig]).2.state.isNone = true ∧
    ((Mgr.new env.noDir []).runX env.noDir [.getState "step"]).2.state.isSome = true := by
  decide +kernel

open ExAssign ExM ExLife in
/-- the checkpoint has the key of the state: the step returns and leaves no checkpoint at all -/
example : let m := (((Mgr.new env.noDir []).runX env.noDir [.setState "step" (.int 20)]).2.assignDir dir20)
    (m.execX env.withDir (.step ⟨.none, false⟩)).1.toOption.isSome = true ∧
      dkeys (m.execX env.withDir (.step ⟨.none, false⟩)).2.disk = [] := by
  decide +kernel

end HS
