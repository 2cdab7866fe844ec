import Verif.Props.ManagerExc

/-!
# What `checkpoint` saves after exceptions: C71
-/

namespace HS

/-- C71, saving: whatever was raised before, a call of `checkpoint` that returns writes the config that `config` returns, with
its schedules in the place of the current values, and is the checkpoint of the model without exceptions (about which C61 says
that a new manager started from it goes on in the same way). -/
theorem C71_checkpoint (E : MgrEnv) (m m' : Mgr) (F : Files) (h : checkpointX E m = (.ok F, m')) :
    (∃ c m1 blobs, configX E m = (.ok c, m1) ∧ typedDump E.w.env (some m1.schedules) false c = .ok (F.config, blobs)) ∧
    m.checkpoint E = .ok (F, m') := by
  have hck : m.checkpoint E = .ok (F, m') := by
    have ha := checkpointX_agree E m
    cases hc : m.checkpoint E with
    | error e =>
      obtain ⟨m2, hm⟩ := ha.err hc
      rw [h] at hm
      exact (nomatch hm)
    | ok q =>
      obtain ⟨F', m2⟩ := q
      have := ha.ok hc
      rw [h] at this
      cases this
      rfl
  refine ⟨?_, hck⟩
  simp only [checkpointX, Call.bind_eq, Call.self_eq, Call.lift_eq] at h
  split at h
  · rename_i c m1 hc
    split at h
    · rename_i q m2 hq
      simp only [Prod.mk.injEq] at hq
      obtain ⟨hq1, rfl⟩ := hq
      refine ⟨c, m1, q.2, hc, ?_⟩
      split at h
      · split at h
        · split at h
          · split at h
            · rw [Call.pure_eq] at h
              cases h
              exact hq1
            · cases h
          · cases h
        · cases h
      · cases h
    · cases h
  · cases h

/-- C71, `config_dict`: whatever was raised before, a call that returns gives the dict of the config that `config` returns (about
which C60 says that it mirrors it). -/
theorem C71_config_dict (E : MgrEnv) (m m' : Mgr) (d : Val) (h : configDictX E m = (.ok d, m')) :
    (∃ c es, configX E m = (.ok c, m') ∧ asdict (configDictCfg E.w.env) "" c = .ok (d, es)) ∧ m.configDict E = .ok (d, m') := by
  have hck : m.configDict E = .ok (d, m') := by
    have ha := configDictX_agree E m
    cases hc : m.configDict E with
    | error e =>
      obtain ⟨m2, hm⟩ := ha.err hc
      rw [h] at hm
      exact (nomatch hm)
    | ok q =>
      obtain ⟨F', m2⟩ := q
      have := ha.ok hc
      rw [h] at this
      cases this
      rfl
  refine ⟨?_, hck⟩
  simp only [configDictX, Call.bind_eq, Call.lift_eq] at h
  split at h
  · rename_i c m1 hc
    split at h
    · rename_i q m2 hq
      simp only [Prod.mk.injEq] at hq
      obtain ⟨hq1, rfl⟩ := hq
      rw [Call.pure_eq] at h
      cases h
      exact ⟨c, q.2, hc, hq1⟩
    · cases h
  · cases h

/-- reading the state raises at first, since the schedule of `lr` cannot be evaluated; then the state is completed and
`checkpoint` saves the schedule -/
example : let m := ((Mgr.new ExX.E []).runX ExX.E [.getState "epoch", .setState "step" (.int 5)]).2
    ((Mgr.new ExX.E []).runX ExX.E [.getState "epoch"]).1.map ExX.failed = [true] ∧
    (match checkpointX ExX.E m with
      | (.ok F, _) => (match F.config.at? ["lr"] with | some (.str _) => true | _ => false)
      | _ => false) = true := by
  decide +kernel

end HS
