import Verif.Model.LazyConfigUser
import Verif.Props.LazyConfig
import Verif.Props.UserConfig
/-!
# C94: lazy fields and values that the user assigns to the config
-/
namespace HS

theorem runUC_append (E : MgrEnv) (dc : DeserC) : ∀ (a b : List UOp) (m : Mgr), (m.runUC E dc (a ++ b)).2 = ((m.runUC E dc a).2.runUC E dc b).2 := by
  intro a
  induction a with
  | nil => intro b m; rfl
  | cons x xs ih => intro b m; exact ih b _

theorem runUC_good {E : MgrEnv} (dc : DeserC) {disk : Dir Files} : ∀ (ops : List UOp) (m : Mgr), Good E disk (fun _ _ => True) m →
    Good E disk (fun _ _ => True) (m.runUC E dc ops).2 := by
  intro ops
  induction ops with
  | nil => intro m h; exact h
  | cons op ops ih =>
    intro m h
    refine ih _ ?_
    cases op with
    | op o => exact runC_good (dc := dc) (fun _ _ _ _ => trivial) (fun _ _ _ _ _ => trivial) [o] m h
    | setConfig p v => exact setConfigX_good (fun _ _ _ _ => trivial) (fun _ _ _ _ _ => trivial) h

theorem runUC_inv (E : MgrEnv) (dc : DeserC) (disk : Dir Files) (ops : List UOp) : MInv ((Mgr.new E disk).runUC E dc ops).2 :=
  (runUC_good dc ops _ (new_good E disk _)).1

theorem runUC_kept {E : MgrEnv} (dc : DeserC) {P : Mgr → Prop} (h : ∀ c, KeptU (E.atCfg dc c) P) : ∀ (ops : List UOp) (m : Mgr),
    (∀ q w, UOp.setConfig q w ∈ ops → ∀ m, P m → P (setConfigX E q w m).2) → P m → P (m.runUC E dc ops).2 := by
  intro ops
  induction ops with
  | nil => intro m _ h; exact h
  | cons op ops ih =>
    intro m hset hm
    refine ih _ (fun p v hm => hset p v (List.mem_cons_of_mem _ hm)) ?_
    cases op with
    | op o =>
      show P (m.execC E dc o).2
      rw [execC_at]
      exact execX_keptU (h _) hm o
    | setConfig p v => exact hset p v (List.mem_cons_self ..) m hm

/-- C94 with assignments to the config anywhere in the history: an access returns what `deserialize` makes of the file, the fields it
uses and the config that `manager.config` returns at this moment. -/
theorem C94_user (E : MgrEnv) (dc : DeserC) (hl : E.stLazy = true) (disk : Dir Files) (ops : List UOp) (o : LObj) (m1 : Mgr)
    (hs : stateX E ((Mgr.new E disk).runUC E dc ops).2 = (.ok o, m1)) (hd : o.unloaded.length < E.depth) :
    ∃ c, configX E m1 = (.ok c, m1) ∧ ∀ k,
      (configX E (getStateC E dc k ((Mgr.new E disk).runUC E dc ops).2).2).1 = .ok c ∧
      ∀ v, (getStateC E dc k ((Mgr.new E disk).runUC E dc ops).2).1 = .ok v ↔ FieldVal (m1.lenv (E.atCfg dc c)) o k v := by
  obtain ⟨c, hc⟩ := stateX_config (runUC_inv E dc disk ops) hs
  refine ⟨c, configX_some hc, fun k => ?_⟩
  rw [getStateC_eq hs k]
  constructor
  · rw [configX_some (m := { m1 with state := some (lazyGet (m1.lenvC E dc) E.depth o k).obj }) (c := c) hc]
  · intro v
    rw [lenvC_at (c := c) (by rw [hc]; rfl)]
    exact C93_exact (m1.lenv (E.atCfg dc c)) hl E.depth o hd [] k v

/-- C94: a field that is read for the first time after the user assigned `v` to a field of the config that has no schedule is built with a
config that holds `v`, whatever happened between the assignment and the access. -/
theorem C94_user_value (E : MgrEnv) (dc : DeserC) (hl : E.stLazy = true) (disk : Dir Files) (pre post : List UOp) (path : List String) (v : Val)
    (hv : ∀ n kvs, v ≠ .inst n kvs) (h : (((Mgr.new E disk).runUC E dc pre).2.execUC E dc (.setConfig path v)).1 = .ok ())
    (hns : ∀ p y, Reg.at (some (.node (((Mgr.new E disk).runUC E dc pre).2.execUC E dc (.setConfig path v)).2.schedules)) p = some y → ¬ p <+: path)
    (hpost : ∀ q w, UOp.setConfig q w ∈ post → ¬ q <+: path) (o : LObj) (m1 : Mgr)
    (hs : stateX E ((Mgr.new E disk).runUC E dc (pre ++ .setConfig path v :: post)).2 = (.ok o, m1)) (hd : o.unloaded.length < E.depth) :
    ∃ c, configX E m1 = (.ok c, m1) ∧ valAt c path = some v ∧ ∀ k w,
      ((getStateC E dc k ((Mgr.new E disk).runUC E dc (pre ++ .setConfig path v :: post)).2).1 = .ok w ↔
        FieldVal (m1.lenv (E.atCfg dc c)) o k w) := by
  obtain ⟨c, hc, hk⟩ := C94_user E dc hl disk _ o m1 hs hd
  refine ⟨c, hc, ?_, fun k w => (hk k).2 w⟩
  have hI := runUC_inv E dc disk pre
  rw [runUC_append] at hs
  generalize ((Mgr.new E disk).runUC E dc pre).2 = m0 at *
  simp only [Mgr.execUC] at h hns
  obtain ⟨c1, c', m2, h1, h2, h3⟩ := setConfigX_ok h
  rw [h3] at hns
  have h0 : HasAt path v m2.schedules ({ m2 with config := some c' } : Mgr) :=
    ⟨(readConfig_keep hI h1).1.top, rfl, c', rfl, setAttrAt_get h2⟩
  have hr : HasAt path v m2.schedules (m0.runUC E dc (.setConfig path v :: post)).2 := by
    simp only [Mgr.runUC, Mgr.execUC, h3]
    exact runUC_kept dc (fun c => hasAt_kept (E.atCfg dc c) hv hns) post _ (fun q w hm m h => hasAt_set E hv w (hpost q w hm) m h) h0
  have ht := stateX_keptU (hasAt_kept E hv hns) _ hr
  rw [hs] at ht
  obtain ⟨⟨_, _, c2, hc2, h4⟩, _⟩ := ht
  have := configX_some (E := E) hc2
  rw [this] at hc
  cases congrArg Prod.fst hc
  exact h4

theorem step_sameConfig {E : MgrEnv} {m : Mgr} {mv : Move} (hI : MInv m) (h : (stepX E mv m).1 = .ok ()) :
    ∃ o m0 c s, m.readState E = .ok (o, m0) ∧ SameConfig c s (stepX E mv m).2 ∧ Current (E.sv o.attrs) (some (.node s)) c := by
  have ha := stepX_agree E mv m
  cases hst : m.step E mv with
  | error e =>
    rw [hst] at ha
    obtain ⟨m', hm'⟩ := ha.err rfl
    rw [hm'] at h
    exact (nomatch h)
  | ok m1 =>
    rw [hst] at ha
    have hx := ha.ok rfl
    rw [hx]
    obtain ⟨o, m0, m1', hr, _, _, ⟨c, hc, hcur⟩, hs, _, _, hfin⟩ := step_inv hI hst
    have hm1 : SameConfig c m1'.schedules m1 := by
      rcases hfin with ⟨_, rfl⟩ | ⟨_, c', kv, val, files, o', d', l', hc', _, _, _, _, rfl⟩
      · exact ⟨hc, rfl, by rw [hs]; rfl⟩
      · exact ⟨hc, rfl, rfl⟩
    exact ⟨o, m0, c, m1'.schedules, hr, hm1, hcur⟩

theorem sameConfig_runUC (E : MgrEnv) (dc : DeserC) {c : Val} {s : RegD} : ∀ (ops : List UOp) (m : Mgr), SameConfig c s m →
    (∀ mv, UOp.op (.step mv) ∉ ops) → (∀ q w, UOp.setConfig q w ∉ ops) → SameConfig c s (m.runUC E dc ops).2 := by
  intro ops
  induction ops with
  | nil => intro m h _ _; exact h
  | cons op ops ih =>
    intro m h h1 h2
    refine ih _ ?_ (fun mv hm => h1 mv (List.mem_cons_of_mem _ hm)) (fun q w hm => h2 q w (List.mem_cons_of_mem _ hm))
    cases op with
    | op o =>
      show SameConfig c s (m.execC E dc o).2
      rw [execC_at]
      exact sameConfig_exec _ h o fun mv e => h1 mv (by rw [e]; exact List.mem_cons_self)
    | setConfig q w => exact absurd List.mem_cons_self (h2 q w)

/-- C94: after a step that returned, and up to the next step, lazy fields are built with a config in which every scheduled field has the value
of its schedule at the state of that step, also when the attributes of the state have been assigned since. -/
theorem C94_scheduled (E : MgrEnv) (dc : DeserC) (hl : E.stLazy = true) (disk : Dir Files) (pre post : List UOp) (mv : Move)
    (h : (((Mgr.new E disk).runUC E dc pre).2.execUC E dc (.op (.step mv))).1 = .ok ())
    (hstep : ∀ mv', UOp.op (.step mv') ∉ post) (hset : ∀ q w, UOp.setConfig q w ∉ post) :
    ∃ os ms o m1 c, ((Mgr.new E disk).runUC E dc pre).2.readState E = .ok (os, ms) ∧
      stateX E ((Mgr.new E disk).runUC E dc (pre ++ .op (.step mv) :: post)).2 = (.ok o, m1) ∧
      configX E m1 = (.ok c, m1) ∧ Current (E.sv os.attrs) (some (.node m1.schedules)) c ∧
      (o.unloaded.length < E.depth → ∀ k v,
        ((getStateC E dc k ((Mgr.new E disk).runUC E dc (pre ++ .op (.step mv) :: post)).2).1 = .ok v ↔ FieldVal (m1.lenv (E.atCfg dc c)) o k v)) := by
  have hI := runUC_inv E dc disk pre
  have key : ∃ os ms c s, ((Mgr.new E disk).runUC E dc pre).2.readState E = .ok (os, ms) ∧ Current (E.sv os.attrs) (some (.node s)) c ∧
      SameConfig c s ((Mgr.new E disk).runUC E dc (pre ++ .op (.step mv) :: post)).2 := by
    rw [runUC_append]
    generalize ((Mgr.new E disk).runUC E dc pre).2 = m0 at *
    simp only [Mgr.execUC, Mgr.execC] at h
    rw [stepC_at] at h
    obtain ⟨os, ms, c, s, h1, h2, h3⟩ := step_sameConfig hI h
    refine ⟨os, ms, c, s, h1, h3, ?_⟩
    show SameConfig c s ((stepC E dc mv m0).2.runUC E dc post).2
    rw [stepC_at]
    exact sameConfig_runUC E dc post _ h2 hstep hset
  obtain ⟨os, ms, c, s, h1, h3, h4⟩ := key
  obtain ⟨o, ho⟩ := Option.isSome_iff_exists.1 h4.2.2
  refine ⟨os, ms, o, _, c, h1, stateX_some' ho, configX_some h4.1, by rw [h4.2.1]; exact h3, fun hd k v => ?_⟩
  obtain ⟨c', hc', hk⟩ := C94_user E dc hl disk _ o _ (stateX_some' ho) hd
  rw [configX_some h4.1] at hc'
  cases congrArg Prod.fst hc'
  exact (hk k).2 v

/-! ## an example -/

namespace ExLCU
/-- `deserialize` uses the field `n` of the config -/
def dc : DeserC := fun c cls p _ => .ok (.ser cls (.list [p, (valAt c ["n"]).getD .none]))
def netV (n : Int) : Val := .ser "Net" (.list [.int 7, .int n])
def cfg5 (lr : Int) : Val := .inst "Config" [("opt", .inst "Opt" [("lr", .int lr)]), ("n", .int 5)]
def m1 : Mgr := { ExM.restoredMgr with config := some (cfg5 10), state := some { ExM.unread with attrs := [("step", .int 11), ("net", .none)] } }
def ops : List UOp := [.setConfig ["n"] (.int 5), .op (.setState "step" (.int 11))]

theorem restored : stateX ExM.blobEnv ((Mgr.new ExM.blobEnv ExM.blobDisk).runUC ExM.blobEnv dc ops).2 =
    (.ok { ExM.unread with attrs := [("step", .int 11), ("net", .none)] }, m1) := by
  rw [ExLC.new_eq]
  rfl

/-- C94_user_value (and C94_user) apply: `n` was loaded as 3, the user assigned 5 -/
example : (getStateC ExM.blobEnv dc "net" ((Mgr.new ExM.blobEnv ExM.blobDisk).runUC ExM.blobEnv dc ops).2).1 = .ok (netV 5) := by
  obtain ⟨c, _, hc, h⟩ := C94_user_value ExM.blobEnv dc rfl ExM.blobDisk [] [.op (.setState "step" (.int 11))] ["n"] (.int 5) nofun
    (by rw [ExLC.new_eq]; rfl)
    (by
      intro p y hp
      have hs : (((Mgr.new ExM.blobEnv ExM.blobDisk).runUC ExM.blobEnv dc []).2.execUC ExM.blobEnv dc (.setConfig ["n"] (.int 5))).2.schedules =
          ExM.regd := by rw [ExLC.new_eq]; rfl
      rw [hs] at hp
      intro hpre
      have : p = [] ∨ p = ["n"] := by
        match p, hpre with
        | [], _ => exact .inl rfl
        | [a], h => simp [List.cons_prefix_cons] at h; exact .inr (by rw [h])
        | a :: b :: q, h => simp [List.cons_prefix_cons] at h
      rcases this with rfl | rfl
      · exact (nomatch hp)
      · exact (nomatch hp))
    (by intro q w hm; simp at hm) _ m1 restored (by decide)
  refine (h "net" _).2 ⟨1, ?_⟩
  show some (Val.ser "Net" (.list [.int 7, (valAt c ["n"]).getD .none])) = _
  rw [hc]
  rfl

/-- C94_scheduled applies: a step without a new checkpoint leaves `net` unread -/
example : (((Mgr.new ExM.blobEnv ExM.blobDisk).runUC ExM.blobEnv dc []).2.execUC ExM.blobEnv dc (.op (.step ⟨.none, false⟩))).1 = .ok () := by
  rw [ExLC.new_eq]
  rfl
end ExLCU

end HS
