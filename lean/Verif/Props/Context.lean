import Verif.Model.Context
import Verif.Props.ManagerExc
import Verif.Props.Restore
/-!
# C75: which values of the deserialization context take effect
-/
namespace HS

/-! ## once the state is there, `initial_state` plays no role -/

theorem stateX_loaded {E : MgrEnv} {m : Mgr} {o : LObj} (h : m.state = some o) : stateX E m = (.ok o, m) := by
  simp only [stateX, Call.bind_eq, Call.self_eq, h, Call.pure_eq]

/-- two calls that do the same to every manager with property `P`, which they keep -/
def SameOn {α : Type} (P : Mgr → Prop) (x y : Call α) : Prop := (∀ m, P m → x m = y m) ∧ ∀ m, P m → P (x m).2

theorem SameOn.bind {α β : Type} {P : Mgr → Prop} {x y : Call α} {f g : α → Call β} (h : SameOn P x y)
    (hf : ∀ a, SameOn P (f a) (g a)) : SameOn P (x >>= f) (y >>= g) := by
  constructor
  · intro m hm
    rw [Call.bind_eq, Call.bind_eq, ← h.1 m hm]
    have := h.2 m hm
    cases hx : x m with
    | mk r m' =>
      rw [hx] at this
      cases r with
      | error e => rfl
      | ok a => exact (hf a).1 m' this
  · intro m hm
    rw [Call.bind_eq]
    have := h.2 m hm
    cases hx : x m with
    | mk r m' =>
      rw [hx] at this
      cases r with
      | error e => exact this
      | ok a => exact (hf a).2 m' this

/-- the state has been read -/
def HasState (m : Mgr) : Prop := m.state.isSome = true

theorem SameOn.self : SameOn HasState Call.self Call.self := ⟨fun _ _ => rfl, fun _ h => h⟩
theorem SameOn.lift {α : Type} (x : Except Err α) : SameOn HasState (Call.lift x) (Call.lift x) := ⟨fun _ _ => rfl, fun _ h => h⟩
theorem SameOn.pure {α : Type} (a : α) : SameOn HasState (pure a : Call α) (pure a) := ⟨fun _ _ => rfl, fun _ h => h⟩
theorem SameOn.modify {f : Mgr → Mgr} (h : ∀ m, HasState m → HasState (f m)) : SameOn HasState (Call.modify f) (Call.modify f) :=
  ⟨fun _ _ => rfl, h⟩
theorem SameOn.ite {α : Type} {P : Mgr → Prop} (b : Bool) {x y x' y' : Call α} (h : SameOn P x x') (h' : SameOn P y y') :
    SameOn P (Call.ite b x y) (Call.ite b x' y') := by
  cases b
  · exact h'
  · exact h

section
variable (E : MgrEnv) (i : Val → Except Err (String × List (String × Val)))

theorem configX_same : SameOn HasState (configX { E with initial := i }) (configX E) := by
  refine ⟨fun _ _ => rfl, fun m h => ?_⟩
  simp only [configX]
  split
  · exact h
  · split
    · exact h
    · exact h

theorem stateX_same : SameOn HasState (stateX { E with initial := i }) (stateX E) := by
  constructor
  · intro m h
    obtain ⟨o, ho⟩ := Option.isSome_iff_exists.1 h
    rw [stateX_loaded ho, stateX_loaded ho]
  · intro m h
    obtain ⟨o, ho⟩ := Option.isSome_iff_exists.1 h
    rw [stateX_loaded ho]
    exact h

theorem applyX_same (o : LObj) : SameOn HasState (applyX { E with initial := i } o) (applyX E o) := by
  refine (configX_same E i).bind fun _ => SameOn.self.bind fun _ => ?_
  exact SameOn.bind (SameOn.modify (by intro m h; exact h)) fun _ => SameOn.lift _

theorem getStateX_same (k : String) : SameOn HasState (getStateX { E with initial := i } k) (getStateX E k) := by
  refine (stateX_same E i).bind fun _ => SameOn.self.bind fun _ => ?_
  exact SameOn.bind (SameOn.modify (by intro m h; rfl)) fun _ => SameOn.lift _

theorem dumpX_same (c : Val) (o : LObj) : SameOn HasState (dumpX { E with initial := i } c o) (dumpX E c o) := by
  refine SameOn.self.bind fun _ => (SameOn.lift _).bind fun _ => ?_
  exact SameOn.bind (SameOn.modify (by intro m h; rfl)) fun _ => (SameOn.lift _).bind fun _ => (SameOn.lift _).bind fun _ => SameOn.pure _

theorem checkpointX_same : SameOn HasState (checkpointX { E with initial := i }) (checkpointX E) := by
  refine (configX_same E i).bind fun _ => SameOn.self.bind fun _ => (SameOn.lift _).bind fun _ => (stateX_same E i).bind fun _ =>
    SameOn.self.bind fun _ => ?_
  exact SameOn.bind (SameOn.modify (by intro m h; rfl)) fun _ => (SameOn.lift _).bind fun _ => (SameOn.lift _).bind fun _ => SameOn.pure _

theorem stepX_same (mv : Move) : SameOn HasState (stepX { E with initial := i } mv) (stepX E mv) := by
  refine (stateX_same E i).bind fun o => (applyX_same E i o).bind fun _ => SameOn.ite _ ?_ (SameOn.pure _)
  refine (getStateX_same E i _).bind fun kv => (SameOn.lift _).bind fun val => (stateX_same E i).bind fun o =>
    (configX_same E i).bind fun c => SameOn.self.bind fun m => (SameOn.ite _ (SameOn.pure _) (dumpX_same E i c o)).bind fun files => ?_
  generalize stepOps mv E.key val files m.disk m.last = q
  obtain ⟨ops, t⟩ := q
  cases t with
  | some t => exact SameOn.modify (by intro m h; exact h)
  | none => exact SameOn.bind (SameOn.modify (by intro m h; exact h)) fun _ => SameOn.lift _

theorem execX_same (op : MOp) : SameOn HasState (fun m => m.execX { E with initial := i } op) (fun m => m.execX E op) := by
  cases op with
  | readConfig => exact (configX_same E i).bind fun _ => SameOn.pure _
  | getState k => exact (getStateX_same E i k).bind fun _ => SameOn.pure _
  | setState k v => exact (stateX_same E i).bind fun _ => SameOn.modify fun _ _ => rfl
  | step mv => exact stepX_same E i mv
  | configDict => exact ((configX_same E i).bind fun _ => (SameOn.lift _).bind fun _ => SameOn.pure _).bind fun _ => SameOn.pure _
  | checkpoint => exact (checkpointX_same E i).bind fun _ => SameOn.pure _
end

theorem at_initial (E : CEnv) (c c' s : Ctx) : E.at c s = { E.at c' s with initial := E.initial c } := rfl

/-! ## C75 -/

/-- the operations other than `StateManager.set_deserialize_ctx` -/
def others : List COp → List COp
  | [] => []
  | .setCtx _ _ :: h => others h
  | o :: h => o :: others h

/-- what the operations other than `StateManager.set_deserialize_ctx` returned -/
def otherResults : List COp → List (Except Err Unit) → List (Except Err Unit)
  | .setCtx _ _ :: h, _ :: rs => otherResults h rs
  | _ :: h, r :: rs => r :: otherResults h rs
  | _, _ => []

/-- the operations of a history that have nothing to do with the context -/
def plain : List COp → List MOp
  | [] => []
  | .op o :: h => o :: plain h
  | _ :: h => plain h

/-- the context that the calls of `StateManager.set_deserialize_ctx` in a history give: for each key the value that was set last -/
def CtxOf (h : List COp) (c : Ctx) : Prop :=
  ∀ k, (dget c k = none ∧ ∀ v, COp.setCtx k v ∉ h) ∨
    ∃ v h1 h2, dget c k = some v ∧ h = h1 ++ .setCtx k v :: h2 ∧ ∀ v', COp.setCtx k v' ∉ h2

theorem call_ctx {α : Type} (E : CEnv) (x : MgrEnv → Call α) (M : CMgr) : (M.call E x).2.ctx = M.ctx := rfl

theorem exec_ctx (E : CEnv) (M : CMgr) (o : COp) : (M.exec E o).2.ctx = match o with
    | .setCtx k v => dset M.ctx k v
    | _ => M.ctx := by
  cases o with
  | op o => rfl
  | setCtx k v => rfl
  | setStateCtx k v =>
    simp only [CMgr.exec]
    split
    · rfl
    · split <;> rfl

theorem runC_append (E : CEnv) : ∀ (h1 h2 : List COp) (M : CMgr), (M.run E (h1 ++ h2)).2 = ((M.run E h1).2.run E h2).2
  | [], _, _ => rfl
  | o :: h1, h2, M => runC_append E h1 h2 (M.exec E o).2

theorem call_same {α : Type} (E : CEnv) (x : MgrEnv → Call α) (hx : ∀ E i, SameOn HasState (x { E with initial := i }) (x E)) (m : Mgr) (hm : HasState m)
    (c c' s : Ctx) : (CMgr.mk m c s).call E x =
      (((CMgr.mk m c' s).call E x).1, { ((CMgr.mk m c' s).call E x).2 with ctx := c }) ∧ HasState ((CMgr.mk m c s).call E x).2.m := by
  obtain ⟨o, ho⟩ := Option.isSome_iff_exists.1 hm
  have h1 := (hx (E.at c' s) (E.initial c)).1 m hm
  rw [← at_initial] at h1
  have h2 := (hx (E.at c' s) (E.initial c)).2 m hm
  rw [← at_initial] at h2
  refine ⟨?_, ?_⟩
  · simp only [CMgr.call, ho, h1]
  · simpa only [CMgr.call, ho] using h2

theorem exec_same (E : CEnv) (m : Mgr) (hm : HasState m) (c c' s : Ctx) (o : COp) (ho : ∀ k v, o ≠ .setCtx k v) :
    (CMgr.mk m c s).exec E o = (((CMgr.mk m c' s).exec E o).1, { ((CMgr.mk m c' s).exec E o).2 with ctx := c }) ∧
      HasState ((CMgr.mk m c s).exec E o).2.m := by
  cases o with
  | op o => exact call_same E (fun E m => m.execX E o) (fun E i => execX_same E i o) m hm c c' s
  | setCtx k v => exact absurd rfl (ho k v)
  | setStateCtx k v =>
    obtain ⟨h1, h2⟩ := call_same E stateX (fun E i => stateX_same E i) m hm c c' s
    simp only [CMgr.exec]
    rw [h1] at h2 ⊢
    simp only at h2 ⊢
    split
    · exact ⟨rfl, h2⟩
    · split
      · exact ⟨rfl, h2⟩
      · exact ⟨rfl, h2⟩

theorem run_late (E : CEnv) : ∀ (h : List COp) (m : Mgr) (_ : HasState m) (c c' s : Ctx),
    otherResults h ((CMgr.mk m c s).run E h).1 = ((CMgr.mk m c' s).run E (others h)).1 ∧
    ((CMgr.mk m c s).run E h).2.m = ((CMgr.mk m c' s).run E (others h)).2.m ∧
    ((CMgr.mk m c s).run E h).2.stCtx = ((CMgr.mk m c' s).run E (others h)).2.stCtx ∧ HasState ((CMgr.mk m c s).run E h).2.m
  | [], m, hm, c, c', s => ⟨rfl, rfl, rfl, hm⟩
  | .setCtx k v :: h, m, hm, c, c', s => run_late E h m hm (dset c k v) c' s
  | .op o :: h, m, hm, c, c', s => by
    obtain ⟨h1, h2⟩ := exec_same E m hm c c' s (.op o) (by simp)
    have := run_late E h ((CMgr.mk m c' s).exec E (.op o)).2.m (by rw [h1] at h2; exact h2) c ((CMgr.mk m c' s).exec E (.op o)).2.ctx
      ((CMgr.mk m c' s).exec E (.op o)).2.stCtx
    simp only [CMgr.run, others, otherResults, h1]
    exact ⟨by rw [this.1], this.2⟩
  | .setStateCtx k v :: h, m, hm, c, c', s => by
    obtain ⟨h1, h2⟩ := exec_same E m hm c c' s (.setStateCtx k v) (by simp)
    have := run_late E h ((CMgr.mk m c' s).exec E (.setStateCtx k v)).2.m (by rw [h1] at h2; exact h2) c
      ((CMgr.mk m c' s).exec E (.setStateCtx k v)).2.ctx ((CMgr.mk m c' s).exec E (.setStateCtx k v)).2.stCtx
    simp only [CMgr.run, others, otherResults, h1]
    exact ⟨by rw [this.1], this.2⟩

/-- C75: values that are set on the manager after its state has been loaded have no effect, on no operation of any history: every
other operation has the outcome, and every attribute of the state the value, that it has without them. -/
theorem C75_late (E : CEnv) (M : CMgr) (hs : M.m.state.isSome = true) (h : List COp) :
    otherResults h (M.run E h).1 = (M.run E (others h)).1 ∧ (M.run E h).2.m = (M.run E (others h)).2.m ∧
      ∀ name, (M.run E h).2.get E name = (M.run E (others h)).2.get E name := by
  obtain ⟨h1, h2, h3, h4⟩ := run_late E h M.m hs M.ctx M.ctx M.stCtx
  refine ⟨h1, h2, fun name => ?_⟩
  have := call_same E (fun E => getStateX E name) (fun E i => getStateX_same E i name) (M.run E h).2.m h4 (M.run E h).2.ctx
    (M.run E (others h)).2.ctx (M.run E h).2.stCtx
  simp only [CMgr.get]
  rw [show (M.run E h).2 = ⟨(M.run E h).2.m, (M.run E h).2.ctx, (M.run E h).2.stCtx⟩ from rfl, this.1]
  rw [show (M.run E h).2.m = (M.run E (others h)).2.m from h2, show (M.run E h).2.stCtx = (M.run E (others h)).2.stCtx from h3]

/-- the manager's context after any history -/
theorem ctxOf_run (E : CEnv) (disk : Dir Files) (h : List COp) : CtxOf h ((CMgr.new E disk).run E h).2.ctx := by
  have key : ∀ (h2 h1 : List COp) (M : CMgr), CtxOf h1 M.ctx → CtxOf (h1 ++ h2) (M.run E h2).2.ctx := by
    intro h2
    induction h2 with
    | nil => intro h1 M hM; rw [List.append_nil]; exact hM
    | cons o h2 ih =>
      intro h1 M hM
      have : CtxOf (h1 ++ [o]) (M.exec E o).2.ctx := by
        rw [exec_ctx]
        intro k
        have skip : (∀ v, o ≠ .setCtx k v) → (dget M.ctx k = none ∧ ∀ v, COp.setCtx k v ∉ h1 ++ [o]) ∨
            ∃ v h3 h4, dget M.ctx k = some v ∧ h1 ++ [o] = h3 ++ .setCtx k v :: h4 ∧ ∀ v', COp.setCtx k v' ∉ h4 := by
          intro ho
          rcases hM k with ⟨a, b⟩ | ⟨v, h3, h4, a, b, c⟩
          · refine .inl ⟨a, fun v hv => ?_⟩
            rcases List.mem_append.1 hv with hv | hv
            · exact b v hv
            · exact ho v (List.mem_singleton.1 hv).symm
          · refine .inr ⟨v, h3, h4 ++ [o], a, by rw [b]; simp, fun v' hv => ?_⟩
            rcases List.mem_append.1 hv with hv | hv
            · exact c v' hv
            · exact ho v' (List.mem_singleton.1 hv).symm
        cases o with
        | op o => exact skip (by simp)
        | setStateCtx k' v => exact skip (by simp)
        | setCtx k' v =>
          by_cases hk : k = k'
          · subst hk
            exact .inr ⟨v, h1, [], by simp [dget_dset_self], rfl, by simp⟩
          · simp only [dget_dset_ne _ _ (fun e => hk e.symm : k' ≠ k)]
            exact skip fun v' e => hk (by cases e; rfl)
      have := ih (h1 ++ [o]) (M.exec E o).2 this
      rw [List.append_assoc] at this
      exact this
  exact key h [] _ fun k => .inl ⟨rfl, by simp⟩

theorem run_plain (E : CEnv) (c0 : Ctx) : ∀ (h : List COp) (m : Mgr) (_ : HasState m) (c s : Ctx) (_ : ∀ k v, COp.setStateCtx k v ∉ h),
    ((CMgr.mk m c s).run E (others h)).1 = (m.runX (E.at c0 s) (plain h)).1 ∧
    ((CMgr.mk m c s).run E (others h)).2.m = (m.runX (E.at c0 s) (plain h)).2 ∧
    ((CMgr.mk m c s).run E (others h)).2.stCtx = s
  | [], m, hm, c, s, _ => ⟨rfl, rfl, rfl⟩
  | .setCtx k v :: h, m, hm, c, s, hn => run_plain E c0 h m hm c s fun k v hv => hn k v (List.mem_cons_of_mem _ hv)
  | .setStateCtx k v :: h, m, hm, c, s, hn => absurd (List.mem_cons_self) (hn k v)
  | .op o :: h, m, hm, c, s, hn => by
    obtain ⟨o', ho⟩ := Option.isSome_iff_exists.1 hm
    have hx := execX_same (E.at c0 s) (E.initial c) o
    rw [← at_initial] at hx
    have h1 : m.execX (E.at c s) o = m.execX (E.at c0 s) o := hx.1 m hm
    have h2 : HasState (m.execX (E.at c0 s) o).2 := by rw [← h1]; exact hx.2 m hm
    have := run_plain E c0 h (m.execX (E.at c0 s) o).2 h2 c s fun k v hv => hn k v (List.mem_cons_of_mem _ hv)
    obtain ⟨o2, ho2⟩ := Option.isSome_iff_exists.1 h2
    have he : (CMgr.mk m c s).exec E (.op o) = ((m.execX (E.at c0 s) o).1, ⟨(m.execX (E.at c0 s) o).2, c, s⟩) := by
      simp only [CMgr.exec, CMgr.call, ho, h1, ho2]
    simp only [others, plain, CMgr.run, Mgr.runX, he]
    exact ⟨by rw [this.1], this.2⟩

/-- C75: the context in effect is the one at the moment the state was loaded. Let `op` be the operation of a history during which the
state was loaded, whether `op` returned or raised. Then `op` and everything after it happen as with a manager whose `initial_state` and
`deserialize` get one fixed context: what was set on the manager before `op`, for each key the value that was set last. Missing: values
set on the manager later, which never reach a field (`C75_late`, `C75_late_false`). -/
theorem C75_context_partial (E : CEnv) (disk : Dir Files) (h1 h2 : List COp) (op : MOp)
    (hn : ((CMgr.new E disk).run E h1).2.m.state = none)
    (hs : ((CMgr.new E disk).run E (h1 ++ [.op op])).2.m.state.isSome = true) (hst : ∀ k v, COp.setStateCtx k v ∉ h2) :
    ∃ c, CtxOf h1 c ∧
      otherResults (.op op :: h2) (((CMgr.new E disk).run E h1).2.run E (.op op :: h2)).1 =
        (((CMgr.new E disk).run E h1).2.m.runX (E.at c c) (op :: plain h2)).1 ∧
      ((CMgr.new E disk).run E (h1 ++ .op op :: h2)).2.m = (((CMgr.new E disk).run E h1).2.m.runX (E.at c c) (op :: plain h2)).2 ∧
      ∀ name, ((CMgr.new E disk).run E (h1 ++ .op op :: h2)).2.get E name =
        (getStateX (E.at c c) name ((CMgr.new E disk).run E (h1 ++ .op op :: h2)).2.m).1 := by
  refine ⟨((CMgr.new E disk).run E h1).2.ctx, ctxOf_run E disk h1, ?_⟩
  rw [runC_append] at hs
  rw [runC_append]
  generalize ((CMgr.new E disk).run E h1).2 = M at hn hs
  have he : M.exec E (.op op) = ((M.m.execX (E.at M.ctx M.ctx) op).1, ⟨(M.m.execX (E.at M.ctx M.ctx) op).2, M.ctx, M.ctx⟩) ∧
      HasState (M.m.execX (E.at M.ctx M.ctx) op).2 := by
    simp only [CMgr.run, CMgr.exec, CMgr.call, hn] at hs ⊢
    obtain ⟨o, ho⟩ := Option.isSome_iff_exists.1 hs
    simp only [ho]
    exact ⟨trivial, hs⟩
  obtain ⟨a1, a2, a3, a4⟩ := run_late E h2 _ he.2 M.ctx M.ctx M.ctx
  obtain ⟨b1, b2, b3⟩ := run_plain E M.ctx h2 _ he.2 M.ctx M.ctx hst
  refine ⟨?_, ?_, fun name => ?_⟩
  · simp only [CMgr.run, otherResults, Mgr.runX, he.1]
    rw [a1, b1]
  · simp only [CMgr.run, Mgr.runX, he.1]
    rw [a2, b2]
  · simp only [CMgr.run, he.1]
    rw [b3] at a3
    generalize ((CMgr.mk (M.m.execX (E.at M.ctx M.ctx) op).2 M.ctx M.ctx).run E h2).2 = N at a3 a4
    obtain ⟨o, ho⟩ := Option.isSome_iff_exists.1 a4
    have := (getStateX_same (E.at M.ctx M.ctx) (E.initial N.ctx) name).1 N.m a4
    rw [← at_initial] at this
    simp only [CMgr.get, CMgr.call, ho, a3, this]

/-- C75: a value that is set on the state is in the context of every field that is loaded afterwards: reads after it happen with the
state's context changed at that key, and nothing else. -/
theorem C75_state (E : CEnv) (M : CMgr) (o : LObj) (hs : M.m.state = some o) (hl : E.base.stLazy = true) (k : String) (v : Val) :
    (M.exec E (.setStateCtx k v)).1 = .ok () ∧ (M.exec E (.setStateCtx k v)).2.m = M.m ∧
    ∀ name, (M.exec E (.setStateCtx k v)).2.get E name = (getStateX (E.at M.ctx (dset M.stCtx k v)) name M.m).1 := by
  have : M.exec E (.setStateCtx k v) = (.ok (), ⟨M.m, M.ctx, dset M.stCtx k v⟩) := by
    simp only [CMgr.exec, CMgr.call, hs, stateX_loaded hs, hl, if_true]
  rw [this]
  refine ⟨rfl, rfl, fun name => ?_⟩
  simp only [CMgr.get, CMgr.call, hs]

/-- an attribute that is there and is not waiting to be loaded -/
theorem get_loaded {E : MgrEnv} {m : Mgr} {o : LObj} {name : String} {v : Val} (hd : E.depth ≠ 0) (hs : m.state = some o) (hu : dget o.unloaded name = none)
    (ha : dget o.attrs name = some v) : (getStateX E name m).1 = .ok v := by
  have : lazyGet (m.lenv E) E.depth o name = ⟨.ok v, o, []⟩ := by
    cases hdp : E.depth with
    | zero => exact absurd hdp hd
    | succ n =>
      simp only [lazyGet, hu]
      cases (m.lenv E).isLazy <;> simp only [plainGet, ha]
  simp only [getStateX, Call.bind_eq, stateX_loaded hs, Call.self_eq, Call.modify_eq, Call.lift_eq, this]

theorem lazyGet_attr (L : LEnv) (fuel : Nat) (o : LObj) (name : String) (x : Val)
    (h : (lazyGet L fuel o name).res = .ok x) : dget (lazyGet L fuel o name).obj.attrs name = some x := by
  cases fuel with
  | zero => simp [lazyGet] at h
  | succ fuel =>
    revert h
    simp only [lazyGet]
    split
    · split
      · simp
      · split
        · simp
        · split
          · simp
          · split
            · simp
            · split
              · intro h
                simp only [Except.ok.injEq] at h
                subst h
                simp
              · simp
    · simp only [plainGet]
      split
      · rename_i hx
        intro h
        simp only [Except.ok.injEq] at h
        subst h
        exact hx
      · simp

/-- the attribute has been loaded and has the value `v` -/
def HasAttr (name : String) (v : Val) (m : Mgr) : Prop := ∃ o, m.state = some o ∧ dget o.unloaded name = none ∧ dget o.attrs name = some v

theorem get_ok {E : MgrEnv} (hl : E.stLazy = true) {m : Mgr} {name : String} {v : Val} (h : (getStateX E name m).1 = .ok v) :
    HasAttr name v (getStateX E name m).2 ∧ E.depth ≠ 0 := by
  simp only [getStateX, Call.bind_eq] at h ⊢
  cases hx : stateX E m with
  | mk r m1 =>
    cases r with
    | error e => rw [hx] at h; exact (nomatch h)
    | ok o =>
      rw [hx] at h
      simp only [Call.self_eq, Call.modify_eq, Call.lift_eq] at h ⊢
      refine ⟨⟨_, rfl, lazyGet_done _ hl _ _ _ v h, lazyGet_attr _ _ _ _ v h⟩, ?_⟩
      intro hd
      rw [hd] at h
      exact (nomatch h)

theorem execX_hasAttr (E : MgrEnv) {m : Mgr} {name : String} {v : Val} (h : HasAttr name v m) (op : MOp)
    (hop : ∀ w, op ≠ .setState name w) : HasAttr name v (m.execX E op).2 := by
  obtain ⟨o, h1, h2, h3⟩ := h
  by_cases hs : ∃ k w, op = .setState k w
  · obtain ⟨k, w, rfl⟩ := hs
    simp only [Mgr.execX, setStateX, Call.bind_eq, stateX_loaded h1, Call.modify_eq]
    refine ⟨_, rfl, h2, ?_⟩
    have hk : k ≠ name := fun e => hop w (by rw [e])
    simpa only [lazySet, dget_dset_ne _ _ hk] using h3
  · obtain ⟨o', a, _, b⟩ := C71_state E m o h1 op (.inl fun k w e => hs ⟨k, w, e⟩)
    exact ⟨o', a, (b name h2).2, by rw [(b name h2).1, h3]⟩

theorem exec_hasAttr (E : CEnv) {M : CMgr} {name : String} {v : Val} (h : HasAttr name v M.m) (op : COp)
    (hop : ∀ w, op ≠ .op (.setState name w)) : HasAttr name v (M.exec E op).2.m := by
  cases op with
  | op o => exact execX_hasAttr _ h o fun w e => hop w (by rw [e])
  | setCtx k w => exact h
  | setStateCtx k w =>
    obtain ⟨o, h1, _⟩ := id h
    simp only [CMgr.exec, CMgr.call, h1, stateX_loaded h1]
    split <;> exact h

/-- C75: a field that has been read keeps its value, whatever is set on the manager or on the state afterwards. -/
theorem C75_read (E : CEnv) (hl : E.base.stLazy = true) (M : CMgr) (name : String) (v : Val) (hg : M.get E name = .ok v) (h : List COp)
    (hh : ∀ w, COp.op (.setState name w) ∉ h) : ((M.exec E (.op (.getState name))).2.run E h).2.get E name = .ok v := by
  have h0 := get_ok (E := E.at M.ctx (match M.m.state with | some _ => M.stCtx | none => M.ctx)) hl (m := M.m) (name := name) (v := v) hg
  have hm : (M.exec E (.op (.getState name))).2.m = (getStateX (E.at M.ctx (match M.m.state with | some _ => M.stCtx | none => M.ctx)) name M.m).2 := by
    simp only [CMgr.exec, CMgr.call, Mgr.execX, Call.bind_eq]
    cases hx : getStateX (E.at M.ctx (match M.m.state with | some _ => M.stCtx | none => M.ctx)) name M.m with
    | mk r m1 => cases r <;> rfl
  have key : ∀ (h : List COp) (M : CMgr), (∀ w, COp.op (.setState name w) ∉ h) → HasAttr name v M.m → HasAttr name v (M.run E h).2.m := by
    intro h
    induction h with
    | nil => intro M _ hM; exact hM
    | cons o h ih =>
      intro M hn hM
      exact ih _ (fun w hw => hn w (List.mem_cons_of_mem _ hw)) (exec_hasAttr E hM o fun w e => hn w (by rw [e]; exact List.mem_cons_self))
  obtain ⟨o, a, b, c⟩ := key h _ hh (by rw [hm]; exact h0.1)
  simp only [CMgr.get, CMgr.call]
  exact get_loaded h0.2 a b c

/-- a state that is not `Lazy` has no context of its own -/
theorem C75_not_lazy (E : CEnv) (M : CMgr) (hl : E.base.stLazy = false) (k : String) (v : Val) : ∃ e, (M.exec E (.setStateCtx k v)).1 = .error e := by
  simp only [CMgr.exec]
  split
  · exact ⟨_, rfl⟩
  · simp [hl]

namespace ExCtx
open ExM
/-- a `deserialize` that looks up "device" in the context -/
def E : CEnv := { base := blobEnv, initial := fun _ => blobEnv.initial, deser := fun ctx c y _ => .ok (.ser c ((dget ctx "device").getD y)) }

/-- the value of `state.net` after a history -/
def net (h : List COp) : Option Int :=
  match ((CMgr.new E blobDisk).run E h).2.get E "net" with
  | .ok (.ser _ (.int i)) => some i
  | _ => .none
end ExCtx

/-- C75 is false of the manager's context once the state is loaded: a value that is set before a field is read for the first time does
not reach its `deserialize`, which is called with the context as it was when the state was loaded. Set on the state it does. -/
theorem C75_late_false :
    ExCtx.net [] = some 7 ∧ ExCtx.net [.setCtx "device" (.int 1)] = some 1 ∧
    ExCtx.net [.op (.getState "step"), .setCtx "device" (.int 1)] = some 7 ∧
    ExCtx.net [.op (.getState "step"), .setStateCtx "device" (.int 1)] = some 1 ∧
    ExCtx.net [.op (.getState "net"), .setStateCtx "device" (.int 1)] = some 7 := by
  decide +kernel

/-- the hypotheses of C75_context_partial: the state is loaded by the third operation, two values are set for the key before it -/
example : ((CMgr.new ExCtx.E ExM.blobDisk).run ExCtx.E [.setCtx "device" (.int 1), .setCtx "device" (.int 2)]).2.m.state.isNone = true ∧
    ((CMgr.new ExCtx.E ExM.blobDisk).run ExCtx.E ([.setCtx "device" (.int 1), .setCtx "device" (.int 2)] ++ [.op (.getState "step")])).2.m.state.isSome = true ∧
    ExCtx.net [.setCtx "device" (.int 1), .setCtx "device" (.int 2), .op (.getState "step"), .setCtx "device" (.int 3)] = some 2 := by
  decide +kernel

end HS
