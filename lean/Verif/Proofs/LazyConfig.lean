import Verif.Model.LazyConfig
import Verif.Proofs.ManagerExc
/-!
# Operations on a manager whose `deserialize` methods use the config
-/
namespace HS

variable {E : MgrEnv} {dc : DeserC}

theorem configX_at (c : Val) : configX (E.atCfg dc c) = configX E := rfl
theorem stateX_at (c : Val) : stateX (E.atCfg dc c) = stateX E := rfl
theorem applyX_at (c : Val) (o : LObj) : applyX (E.atCfg dc c) o = applyX E o := rfl
theorem lenvC_at {m : Mgr} {c : Val} (h : m.config.getD .none = c) : m.lenvC E dc = m.lenv (E.atCfg dc c) := by subst h; rfl

theorem getStateC_at (k : String) (m : Mgr) :
    getStateC E dc k m = getStateX (E.atCfg dc ((stateX E m).2.config.getD .none)) k m := by
  simp only [getStateC, getStateX, Call.bind_eq, stateX_at]
  rcases h : stateX E m with ⟨r, m1⟩
  cases r with
  | error e => rfl
  | ok o => rfl

theorem stateX_some' {m : Mgr} {o : LObj} (h : m.state = some o) : stateX E m = (.ok o, m) := by
  simp [stateX, Call.bind_eq, Call.self, h]
  rfl

theorem configX_some {m : Mgr} {c : Val} (h : m.config = some c) : configX E m = (.ok c, m) := by
  simp only [configX, h]

theorem dumpC_at {m : Mgr} {c0 c : Val} {o : LObj} (h : m.config.getD .none = c0) : dumpC E dc c o m = dumpX (E.atCfg dc c0) c o m := by
  subst h
  rfl

theorem checkpointC_at (m : Mgr) :
    checkpointC E dc m = checkpointX (E.atCfg dc ((stateX E (configX E m).2).2.config.getD .none)) m := by
  simp only [checkpointC, checkpointX, Call.bind_eq, configX_at, stateX_at]
  rcases h : configX E m with ⟨r, m1⟩
  cases r with
  | error e => rfl
  | ok c =>
    simp only [Call.self, Call.lift]
    have hw : ∀ c, (E.atCfg dc c).w = E.w := fun _ => rfl
    simp only [hw]
    cases typedDump E.w.env (some m1.schedules) false c with
    | error e => rfl
    | ok cd =>
      simp only
      rcases h2 : stateX E m1 with ⟨r2, m2⟩
      cases r2 with
      | error e => rfl
      | ok o => rfl

theorem stateX_sets {m m1 : Mgr} {o : LObj} (h : stateX E m = (.ok o, m1)) : m1.state = some o := by
  have := stateX_keeps (E := E) (P := fun _ => True) (fun _ _ _ _ _ => trivial) (fun _ _ _ _ => trivial) (fun _ _ _ _ => trivial) m trivial
  rw [h] at this
  exact this.2

theorem applyX_sets {m m1 : Mgr} {o : LObj} (h : applyX E o m = (.ok (), m1)) : m1.state = m.state ∧ ∃ c, m1.config = some c := by
  simp only [applyX, Call.bind_eq, Call.self, Call.modify, Call.lift] at h
  rcases hc : configX E m with ⟨r, m2⟩
  rw [hc] at h
  cases r with
  | error e => exact (nomatch h)
  | ok c =>
    have hs : m2.state = m.state := by
      simp only [configX] at hc
      split at hc
      · cases hc; rfl
      · split at hc <;> cases hc
        rfl
    simp only at h
    injection h with h1 h2
    subst h2
    exact ⟨hs, _, rfl⟩

/-- the config while fields of the state are read in an operation -/
def cfgIn (E : MgrEnv) (m : Mgr) : MOp → Val
  | .getState _ => (stateX E m).2.config.getD .none
  | .checkpoint => (stateX E (configX E m).2).2.config.getD .none
  | .step _ => ((do let o ← stateX E; applyX E o : Call Unit) m).2.config.getD .none
  | _ => .none

theorem stepC_at (mv : Move) (m : Mgr) : stepC E dc mv m = stepX (E.atCfg dc (cfgIn E m (.step mv))) mv m := by
  simp only [stepC, stepX, cfgIn, Call.bind_eq, stateX_at, applyX_at, configX_at]
  rcases h : stateX E m with ⟨r, m1⟩
  cases r with
  | error e => rfl
  | ok o =>
    simp only
    rcases h2 : applyX E o m1 with ⟨r2, m2⟩
    cases r2 with
    | error e => rfl
    | ok u =>
      obtain ⟨hs, c, hc⟩ := applyX_sets h2
      rw [stateX_sets h] at hs
      simp only [hc, Option.getD_some]
      have hk : (E.atCfg dc c).ckpt = E.ckpt := rfl
      simp only [Call.ite, hk]
      split
      · have g1 : getStateC E dc E.key m2 = getStateX (E.atCfg dc c) E.key m2 := by
          rw [getStateC_at, stateX_some' hs, hc]
          rfl
        have hkey : (E.atCfg dc c).key = E.key := rfl
        simp only [Call.bind_eq, g1, hkey]
        have g2 : getStateX (E.atCfg dc c) E.key m2 = ((lazyGet (m2.lenv (E.atCfg dc c)) E.depth o E.key).res,
            { m2 with state := some (lazyGet (m2.lenv (E.atCfg dc c)) E.depth o E.key).obj }) := by
          simp [getStateX, Call.bind_eq, stateX_at, stateX_some' hs, Call.self, Call.modify, Call.lift]
          exact ⟨rfl, rfl⟩
        rw [g2]
        generalize lazyGet (m2.lenv (E.atCfg dc c)) E.depth o E.key = rr
        cases rr.res with
        | error e => rfl
        | ok kv =>
          simp only [Call.lift]
          cases ckptVal kv with
          | error e => rfl
          | ok val =>
            simp only
            rw [stateX_some' (m := { m2 with state := some rr.obj }) rfl]
            simp only
            rw [configX_some (m := { m2 with state := some rr.obj }) hc]
            simp only [Call.self]
            have g3 : dumpC E dc c rr.obj { m2 with state := some rr.obj } = dumpX (E.atCfg dc c) c rr.obj { m2 with state := some rr.obj } :=
              dumpC_at (by simp [hc])
            have g4 : ∀ b, Call.ite b (pure ⟨.none, .none, []⟩) (dumpC E dc c rr.obj) { m2 with state := some rr.obj } =
                Call.ite b (pure ⟨.none, .none, []⟩) (dumpX (E.atCfg dc c) c rr.obj) { m2 with state := some rr.obj } := by
              intro b
              simp only [Call.ite, g3]
            rw [g4]
            rfl
      · rfl

/-- an operation is that of Model/ManagerExc in which `deserialize` is given the config as it is while fields are read -/
theorem execC_at (m : Mgr) (op : MOp) : m.execC E dc op = m.execX (E.atCfg dc (cfgIn E m op)) op := by
  cases op with
  | readConfig => rfl
  | getState k => simp only [Mgr.execC, Mgr.execX, Call.bind_eq, getStateC_at, cfgIn]
  | setState k v => rfl
  | step mv => exact stepC_at mv m
  | configDict => rfl
  | checkpoint => simp only [Mgr.execC, Mgr.execX, Call.bind_eq, checkpointC_at, cfgIn]

end HS
