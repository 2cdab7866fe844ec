import Verif.Proofs.ManagerExc
import Verif.Props.ConfigHist
/-!
# C71: a StateManager after an exception
-/
namespace HS

/-! ## the config -/

/-- C71: after every history of operations, any of which may have raised and been caught, the config that is returned has the same
schedules as the config loaded from the file given by `ConfigFrom` with the overrides, and the same value as that config in every
field that has no schedule; nothing is added or removed. -/
theorem C71_config (E : MgrEnv) (disk : Dir Files) (ops : List MOp) (m1 : Mgr) (c : Val)
    (hr : ((Mgr.new E disk).runX E ops).2.readConfig E = .ok (c, m1)) :
    ∃ doc l, ConfigFrom E disk doc ∧ smLoadConfig E.w E.cfgTy doc E.overrides E.ignoreExtra = .ok l ∧ m1.schedules = l.schedules ∧
      ∀ segs x, (∀ n kvs, x ≠ .inst n kvs) → (∀ p y, Reg.at (some (.node l.schedules)) p = some y → ¬ p <+: segs) →
        (valAt c segs = some x ↔ valAt l.value segs = some x) := by
  refine config_historyX (P := fun l c => ∀ segs x, (∀ n kvs, x ≠ .inst n kvs) →
      (∀ p y, Reg.at (some (.node l.schedules)) p = some y → ¬ p <+: segs) →
      (valAt c segs = some x ↔ valAt l.value segs = some x)) (fun l doc _ _ segs x _ _ => Iff.rfl) ?_ ops hr
  intro l c attrs htop hP segs x hx hp
  rw [← hP segs x hx hp]
  exact applyX_frame _ segs _ _ htop x hx hp

/-- C71 (partial): and a scheduled field holds the value of its schedule at 0 or at some state, never anything else. Missing:
schedules in deeper fields (C39). -/
theorem C71_scheduled_partial (E : MgrEnv) (disk : Dir Files) (n : String) (fs : List Fld) (ver : Option VerInfo)
    (hE : E.cfgTy = .data n fs ver) (hid : IdsOK (.data n fs ver))
    (hsh : ∀ doc1, LoadedDoc E disk doc1 → Shallow true (.data n fs ver) 2 doc1) (ops : List MOp) (m1 : Mgr) (c : Val)
    (hr : ((Mgr.new E disk).runX E ops).2.readConfig E = .ok (c, m1)) (segs : List String) (txt : String) (i : Bool)
    (hat : Reg.at (some (.node m1.schedules)) segs = some (txt, i)) :
    ∃ x, valAt c segs = some x ∧ (SchedIs E.w.ext.schedAt0 txt i x ∨ ∃ attrs, SchedIs (E.sv attrs) txt i x) := by
  obtain ⟨doc, l, h1, h2, h3, h4⟩ := config_historyX (P := fun l c => ∀ segs txt i, Reg.at (some (.node l.schedules)) segs = some (txt, i) →
      ∃ x, valAt c segs = some x ∧ (SchedIs E.w.ext.schedAt0 txt i x ∨ ∃ attrs, SchedIs (E.sv attrs) txt i x)) (by
        intro l doc h1 h2 segs txt i hat
        obtain ⟨x, a, b⟩ := load_current E disk n fs ver hE hid hsh doc l h1 h2 segs txt i hat
        exact ⟨x, b, .inl a⟩) (by
        intro l c attrs htop hP segs txt i hat
        rcases applyX_sched (E.sv attrs) segs _ c htop txt i hat with h | ⟨x, a, b⟩
        · rw [h]; exact hP segs txt i hat
        · exact ⟨x, b, .inr ⟨attrs, a⟩⟩) ops hr
  exact h4 segs txt i (by rw [← h3]; exact hat)

/-! ## the checkpoint directory -/

/-- the directory and the previous checkpoint are as they were -/
def SameDisk (m0 m : Mgr) : Prop := m.disk = m0.disk ∧ m.last = m0.last

theorem sameDisk_config (E : MgrEnv) (m0 : Mgr) : Trip (SameDisk m0) (configX E) (fun c m => SameDisk m0 m ∧ m.config = some c) (SameDisk m0) :=
  configX_keeps fun _ _ _ h _ => h
theorem sameDisk_state (E : MgrEnv) (m0 : Mgr) : Trip (SameDisk m0) (stateX E) (fun o m => SameDisk m0 m ∧ m.state = some o) (SameDisk m0) :=
  stateX_keeps (fun _ _ _ h _ => h) (fun _ _ h _ => h) (fun _ _ _ h => h)

/-- C71: an operation other than `step` leaves the checkpoint directory alone, whether it returns or raises. -/
theorem C71_disk (E : MgrEnv) (m : Mgr) (op : MOp) (hop : ∀ mv, op ≠ .step mv) :
    (m.execX E op).2.disk = m.disk ∧ (m.execX E op).2.last = m.last := by
  have ho : ∀ m' o o' r, SameDisk m m' → m'.state = some o → LExt o o' r →
      FromReads (m'.lenv E) E.depth o o' → SameDisk m { m' with state := some o' } :=
    fun _ _ _ _ h _ _ _ => h
  have h0 : SameDisk m m := ⟨rfl, rfl⟩
  show SameDisk m _
  cases op with
  | readConfig => exact ((sameDisk_config E m).bind fun _ => Trip.pure (Q := fun _ => SameDisk m) fun _ h => h.1).both (fun _ _ h => h) h0
  | getState k =>
    exact ((getStateX_keeps (sameDisk_state E m) ho k).bind fun _ => Trip.pure (Q := fun _ => SameDisk m) fun _ h => h).both (fun _ _ h => h) h0
  | setState k v =>
    exact ((sameDisk_state E m).bind fun o => Trip.modify (Q := fun _ => SameDisk m)
      (f := fun m => { m with state := some (lazySet o k v) }) fun _ h => h.1).both (fun _ _ h => h) h0
  | step mv => exact absurd rfl (hop mv)
  | configDict =>
    exact ((configDictX_keeps (sameDisk_config E m)).bind fun _ => Trip.pure (Q := fun _ => SameDisk m) fun _ h => h).both (fun _ _ h => h) h0
  | checkpoint =>
    exact ((checkpointX_keeps (sameDisk_config E m) (sameDisk_state E m) ho).bind fun _ =>
      Trip.pure (Q := fun _ => SameDisk m) fun _ h => h).both (fun _ _ h => h) h0

/-- C71: a `step` that raises leaves the checkpoint directory and the previous checkpoint as they were, unless the previous
checkpoint `n` has disappeared: then the new checkpoint has been written (if there was none of its name), and nothing else has
happened to the directory. -/
theorem C71_step_disk (E : MgrEnv) (m : Mgr) (mv : Move) (e : Err) (h : (m.execX E (.step mv)).1 = .error e) :
    (m.execX E (.step mv)).2.last = m.last ∧
    ((m.execX E (.step mv)).2.disk = m.disk ∨
     ∃ n val files, m.last = some n ∧ dget (m.execX E (.step mv)).2.disk n = none ∧
       (m.execX E (.step mv)).2.disk =
         runOps m.disk (if dhas m.disk (ckptName E.key val) then [] else checkpointOps mv (ckptName E.key val) files)) := by
  have ho : ∀ m' o o' r, SameDisk m m' → m'.state = some o → LExt o o' r →
      FromReads (m'.lenv E) E.depth o o' → SameDisk m { m' with state := some o' } :=
    fun _ _ _ _ h _ _ _ => h
  have ht := stepX_keeps (E := E) (P := SameDisk m) (S := fun _ => True) (R := fun m' => m'.last = m.last ∧ (m'.disk = m.disk ∨
      ∃ n val files, m.last = some n ∧ dget m'.disk n = none ∧
        m'.disk = runOps m.disk (if dhas m.disk (ckptName E.key val) then [] else checkpointOps mv (ckptName E.key val) files)))
    (fun _ _ _ => trivial) (fun m' h => ⟨h.2, .inl h.1⟩) (sameDisk_config E m) (sameDisk_state E m) (fun _ _ h _ => h) ho mv
    (d := m.disk) (l := m.last) (fun m' h => h) (fun _ _ _ _ _ _ _ => trivial) (by
      intro m' val files ops hm hops
      refine ⟨hm.2, .inr ?_⟩
      simp only [stepOps] at hops
      cases hl : m.last with
      | none => simp [hl] at hops
      | some n =>
        simp only [hl] at hops
        generalize hops0 : (if dhas m.disk (ckptName E.key val) then [] else checkpointOps mv (ckptName E.key val) files) = ops0 at hops
        split at hops
        · exact (nomatch hops)
        · rename_i hh
          simp only [Prod.mk.injEq, and_true] at hops
          subst hops
          refine ⟨n, val, files, rfl, ?_, by rw [hops0]⟩
          exact (dhas_false _ _).1 (by simpa using hh))
  have := ht m ⟨rfl, rfl⟩
  split at this
  · rename_i a m' he
    have : (m.execX E (.step mv)).1 = .ok () := by simp only [Mgr.execX, he]
    rw [this] at h
    exact (nomatch h)
  · rename_i e' m' he
    simp only [Mgr.execX, he]
    exact this

/-! ## the state -/

/-- the config and the state have been read, and the fields of the state that were not loaded since are as in `o0` -/
def SameState (o0 : LObj) (m : Mgr) : Prop := ∃ o r, m.state = some o ∧ LExt o0 o r

theorem sameState_some {o0 : LObj} {m : Mgr} (h : SameState o0 m) : m.state.isSome = true := by
  obtain ⟨o, _, h, _⟩ := h; rw [h]; rfl

theorem sameState_obj {o0 : LObj} : ∀ (m' : Mgr) (o o' : LObj) (r : List String), SameState o0 m' → m'.state = some o → LExt o o' r →
    SameState o0 { m' with state := some o' } := by
  rintro m' o o' r ⟨o1, r1, h1, h2⟩ hs hr
  rw [hs] at h1
  cases h1
  exact ⟨o', _, rfl, h2.trans hr⟩

/-- C71: no operation other than an assignment changes the value of an attribute of the state, whether it returns or raises: every
attribute that was not waiting to be loaded has the value it had. An operation that raises is never an assignment, once the state
has been read. -/
theorem C71_state (E : MgrEnv) (m : Mgr) (o : LObj) (hs : m.state = some o) (op : MOp)
    (hop : (∀ k v, op ≠ .setState k v) ∨ ∃ e, (m.execX E op).1 = .error e) :
    ∃ o', (m.execX E op).2.state = some o' ∧ o'.cls = o.cls ∧
      ∀ k, dget o.unloaded k = none → dget o'.attrs k = dget o.attrs k ∧ dget o'.unloaded k = none := by
  have fin : SameState o (m.execX E op).2 → ∃ o', (m.execX E op).2.state = some o' ∧ o'.cls = o.cls ∧
      ∀ k, dget o.unloaded k = none → dget o'.attrs k = dget o.attrs k ∧ dget o'.unloaded k = none := by
    rintro ⟨o', r, h1, h2⟩
    refine ⟨o', h1, h2.cls, ?_⟩
    intro k hk
    have : k ∉ r := fun hr => by
      have := (h2.was k hr).1
      rw [hk] at this
      exact (nomatch this)
    exact ⟨h2.attr k this, by rw [h2.unl k this, hk]⟩
  have h0 : SameState o m := ⟨o, [], hs, .refl o⟩
  have hc : Trip (SameState o) (configX E) (fun c m => SameState o m ∧ m.config = some c) (SameState o) := configX_keeps fun _ _ _ h _ => h
  have hst : Trip (SameState o) (stateX E) (fun o' m => SameState o m ∧ m.state = some o') (SameState o) :=
    stateX_some fun _ h => sameState_some h
  cases op with
  | readConfig => exact fin ((hc.bind fun _ => Trip.pure (Q := fun _ => SameState o) fun _ h => h.1).both (fun _ _ h => h) h0)
  | getState k =>
    exact fin (((getStateX_keeps hst (fun _ _ _ _ h h1 h2 _ => sameState_obj _ _ _ _ h h1 h2) k).bind fun _ => Trip.pure (Q := fun _ => SameState o) fun _ h => h).both (fun _ _ h => h) h0)
  | setState k v =>
    rcases hop with hop | ⟨e, he⟩
    · exact absurd rfl (hop k v)
    · simp only [Mgr.execX, setStateX, Call.bind_eq, stateX, Call.self_eq, hs, Call.pure_eq, Call.modify_eq] at he
      exact (nomatch he)
  | step mv =>
    have hd : SameDisk m m := ⟨rfl, rfl⟩
    refine fin ((stepX_keeps (E := E) (P := fun m' => SameState o m' ∧ SameDisk m m') (S := SameState o) (R := SameState o)
      (fun _ _ h => h.1) (fun _ h => h.1) (configX_keeps fun _ _ _ h _ => h) (stateX_some fun _ h => sameState_some h.1)
      (fun _ _ h _ => h) (fun m' o1 o2 r h h1 h2 _ => ⟨sameState_obj m' o1 o2 r h.1 h1 h2, h.2⟩) mv (d := m.disk) (l := m.last)
      (fun _ h => h.2) (fun _ _ _ _ _ h _ => h.1) (fun _ _ _ _ h _ => h.1)).both (fun _ _ h => h) ⟨h0, hd⟩)
  | configDict =>
    exact fin (((configDictX_keeps hc).bind fun _ => Trip.pure (Q := fun _ => SameState o) fun _ h => h).both (fun _ _ h => h) h0)
  | checkpoint =>
    exact fin (((checkpointX_keeps hc hst (fun _ _ _ _ h h1 h2 _ => sameState_obj _ _ _ _ h h1 h2)).bind fun _ =>
      Trip.pure (Q := fun _ => SameState o) fun _ h => h).both (fun _ _ h => h) h0)

/-! ## going on after an exception -/

/-- C71: a load of the config that raises leaves the manager as it was, so that the next attempt starts afresh. -/
theorem C71_load (E : MgrEnv) (m : Mgr) (e : Err) (h : (m.execX E .readConfig).1 = .error e) : (m.execX E .readConfig).2 = m := by
  simp only [Mgr.execX, Call.bind_eq, configX, Call.pure_eq] at h ⊢
  cases hc : m.config with
  | some c => rw [hc] at h
  | none =>
    rw [hc] at h
    simp only at h ⊢
    cases hl : m.loadConfig E with
    | error e' => simp only
    | ok l => rw [hl] at h; exact (nomatch h)

/-- the config has been read, and it is `c` -/
def SameConfig (c : Val) (s : RegD) (m : Mgr) : Prop := m.config = some c ∧ m.schedules = s ∧ m.state.isSome = true

/-- nothing but `step` changes the config once the state has been read -/
theorem sameConfig_exec (E : MgrEnv) {m : Mgr} {c : Val} {s : RegD} (h0 : SameConfig c s m) (op : MOp) (hop : ∀ mv, op ≠ .step mv) :
    SameConfig c s (m.execX E op).2 := by
  have hc : Trip (SameConfig c s) (configX E) (fun c' m => SameConfig c s m ∧ m.config = some c') (SameConfig c s) :=
    configX_keeps fun _ _ _ h hn => by rw [h.1] at hn; exact (nomatch hn)
  have hst : Trip (SameConfig c s) (stateX E) (fun o' m => SameConfig c s m ∧ m.state = some o') (SameConfig c s) :=
    stateX_some fun _ h => h.2.2
  have ho : ∀ (m' : Mgr) (o o' : LObj) (r : List String), SameConfig c s m' → m'.state = some o → LExt o o' r →
      FromReads (m'.lenv E) E.depth o o' → SameConfig c s { m' with state := some o' } := fun _ _ _ _ h _ _ _ => ⟨h.1, h.2.1, rfl⟩
  cases op with
  | readConfig => exact (hc.bind fun _ => Trip.pure (Q := fun _ => SameConfig c s) fun _ h => h.1).both (fun _ _ h => h) h0
  | getState k =>
    exact ((getStateX_keeps hst ho k).bind fun _ => Trip.pure (Q := fun _ => SameConfig c s) fun _ h => h).both (fun _ _ h => h) h0
  | setState k v =>
    exact (hst.bind fun o => Trip.modify (Q := fun _ => SameConfig c s)
      (f := fun m => { m with state := some (lazySet o k v) }) fun _ h => ⟨h.1.1, h.1.2.1, rfl⟩).both (fun _ _ h => h) h0
  | step mv => exact absurd rfl (hop mv)
  | configDict =>
    exact ((configDictX_keeps hc).bind fun _ => Trip.pure (Q := fun _ => SameConfig c s) fun _ h => h).both (fun _ _ h => h) h0
  | checkpoint =>
    exact ((checkpointX_keeps hc hst ho).bind fun _ => Trip.pure (Q := fun _ => SameConfig c s) fun _ h => h).both (fun _ _ h => h) h0

theorem sameConfig_run (E : MgrEnv) {c : Val} {s : RegD} : ∀ (ops : List MOp) (m : Mgr), SameConfig c s m →
    (∀ mv, MOp.step mv ∉ ops) → SameConfig c s (m.runX E ops).2 := by
  intro ops
  induction ops with
  | nil => intro m h _; exact h
  | cons op ops ih =>
    intro m h hop
    exact ih _ (sameConfig_exec E h op (fun mv he => hop mv (he ▸ List.mem_cons_self))) (fun mv hm => hop mv (List.mem_cons_of_mem _ hm))

/-- C71: whatever was raised before, a `step` that returns brings every scheduled field to the value of its schedule, and it stays
there until the next step, also when other operations raise in between. -/
theorem C71_step (E : MgrEnv) (disk : Dir Files) (pre post : List MOp) (mv : Move)
    (h1 : (((Mgr.new E disk).runX E pre).2.execX E (.step mv)).1 = .ok ()) (hpost : ∀ mv, MOp.step mv ∉ post) :
    ∃ o m0 c m2, m2 = ((((Mgr.new E disk).runX E pre).2.execX E (.step mv)).2.runX E post).2 ∧
      ((Mgr.new E disk).runX E pre).2.readState E = .ok (o, m0) ∧ m2.readConfig E = .ok (c, m2) ∧
      Current (E.sv o.attrs) (some (.node m2.schedules)) c := by
  have hI := runX_inv E disk pre
  have ha := stepX_agree E mv ((Mgr.new E disk).runX E pre).2
  generalize ((Mgr.new E disk).runX E pre).2 = m at *
  cases hst : m.step E mv with
  | error e =>
    rw [hst] at ha
    obtain ⟨m', hm'⟩ := ha.err rfl
    simp only [Mgr.execX, hm'] at h1
    exact (nomatch h1)
  | ok m1 =>
    rw [hst] at ha
    have hx := ha.ok rfl
    obtain ⟨o, m0, m1', hr, _, _, ⟨c, hc, hcur⟩, hs, _, _, hfin⟩ := step_inv hI hst
    have hm1 : SameConfig c m1'.schedules m1 := by
      rcases hfin with ⟨_, rfl⟩ | ⟨_, c', kv, val, files, o', d', l', hc', _, _, _, _, rfl⟩
      · exact ⟨hc, rfl, by rw [hs]; rfl⟩
      · exact ⟨hc, rfl, rfl⟩
    have := sameConfig_run E post m1 hm1 hpost
    refine ⟨o, m0, c, _, rfl, hr, ?_, ?_⟩
    · simp only [Mgr.execX, hx, Mgr.readConfig, this.1]
    · simp only [Mgr.execX, hx]
      rw [this.2.1]
      exact hcur

/-! ### without a step the config may be stale -/

/-- the config read back after a history -/
def configAfter (E : MgrEnv) (disk : Dir Files) (ops : List MOp) : Option Val := ((Mgr.new E disk).runX E ops).2.config

namespace ExX
/-- the state does not have the attribute `step` that the schedule of `lr` names -/
def E : MgrEnv := { ExR.E with initial := fun _ => .ok ("State", [("epoch", .int 3)]) }

def failed : Except Err Unit → Bool
  | .error .attributeError => true
  | _ => false
def returned : Except Err Unit → Bool
  | .ok _ => true
  | _ => false

/-- the schedule of `lr` cannot be evaluated at the state -/
def stale (m : Mgr) : Bool :=
  match m.config, m.state, Reg.at (some (.node m.schedules)) ["lr"] with
  | some _, some o, some (txt, _) => match E.sv o.attrs txt with
    | .error _ => true
    | .ok _ => false
  | _, _, _ => false

/-- outcomes of a history -/
def outcomes (ops : List MOp) : List (Except Err Unit) := ((Mgr.new E []).runX E ops).1

def lr (ops : List MOp) : Option ℚ :=
  match configAfter E [] ops with
  | some c => match valAt c ["lr"] with
    | some (.flt (.fin q)) => some q
    | _ => .none
  | .none => .none
end ExX

/-- C71 is false of the values of schedules: when `state` raises because a schedule cannot be evaluated, the state has already been
assigned. The same access then returns, though no schedule was applied: `lr` has its value at 0, and after the missing attribute is
set to 5 it keeps it until the next step. -/
theorem C71_retry_false : ∃ (E : MgrEnv) (k : String) (e : Err),
    ((Mgr.new E []).execX E (.getState k)).1 = .error e ∧
    (((Mgr.new E []).execX E (.getState k)).2.execX E (.getState k)).1 = .ok () ∧
    ∃ c o, (((Mgr.new E []).execX E (.getState k)).2.execX E (.getState k)).2.config = some c ∧
      (((Mgr.new E []).execX E (.getState k)).2.execX E (.getState k)).2.state = some o ∧
      ¬ Current (E.sv o.attrs) (some (.node (((Mgr.new E []).execX E (.getState k)).2.execX E (.getState k)).2.schedules)) c := by
  refine ⟨ExX.E, "epoch", .attributeError, ?_, ?_, ?_⟩
  · have h : ExX.failed ((Mgr.new ExX.E []).execX ExX.E (.getState "epoch")).1 = true := by decide +kernel
    revert h
    generalize ((Mgr.new ExX.E []).execX ExX.E (.getState "epoch")).1 = x
    intro h
    unfold ExX.failed at h
    split at h
    · rfl
    · exact (nomatch h)
  · have h : ExX.returned (((Mgr.new ExX.E []).execX ExX.E (.getState "epoch")).2.execX ExX.E (.getState "epoch")).1 = true := by
      decide +kernel
    revert h
    generalize (((Mgr.new ExX.E []).execX ExX.E (.getState "epoch")).2.execX ExX.E (.getState "epoch")).1 = x
    intro h
    cases x with
    | ok u => rfl
    | error e => exact (nomatch h)
  · have h : ExX.stale (((Mgr.new ExX.E []).execX ExX.E (.getState "epoch")).2.execX ExX.E (.getState "epoch")).2 = true := by
      decide +kernel
    revert h
    generalize (((Mgr.new ExX.E []).execX ExX.E (.getState "epoch")).2.execX ExX.E (.getState "epoch")).2 = m
    intro h
    unfold ExX.stale at h
    split at h
    · rename_i c o txt i h1 h2 h3
      refine ⟨c, o, h1, h2, ?_⟩
      intro hcur
      obtain ⟨x, ⟨f, hf, _⟩, _⟩ := hcur ["lr"] txt i h3
      rw [hf] at h
      exact (nomatch h)
    · exact (nomatch h)

/-- the history of the theorem, continued: the attribute is set, and a step is made -/
example : (ExX.outcomes [.getState "epoch", .getState "epoch", .setState "step" (.int 5), .step ⟨.none, false⟩]).map ExX.returned =
      [false, true, true, true] ∧
    ExX.lr [.getState "epoch", .getState "epoch", .setState "step" (.int 5)] = some 9 ∧
    ExX.lr [.getState "epoch", .getState "epoch", .setState "step" (.int 5), .step ⟨.none, false⟩] = some 1 := by
  decide +kernel

/-- the hypotheses of C71_step: the step at the end of this history returns after two operations that raised -/
example : (ExX.outcomes [.getState "epoch", .step ⟨.none, false⟩, .setState "step" (.int 5), .step ⟨.none, false⟩]).map ExX.returned =
    [false, false, true, true] := by
  decide +kernel

namespace ExX
/-- the previous checkpoint is deleted by someone else between two steps -/
def gone : Mgr := { (((Mgr.new { ExR.E with ckpt := true } []).runX { ExR.E with ckpt := true } [.step ⟨.none, false⟩, .setState "step" (.int 1)])).2 with disk := [] }
end ExX

/-- the second case of C71_step_disk: the step raises, the new checkpoint is in the directory, the manager goes on believing in
the old one -/
example : (match (ExX.gone.execX { ExR.E with ckpt := true } (.step ⟨.none, false⟩)) with
    | (.error .fileNotFound, m) => decide (dkeys m.disk = ["latest-step000000000001"]) && decide (m.last = some "latest-step000000000000")
    | _ => false) = true := by
  decide +kernel

end HS
