import Verif.Props.Restore
/-!
# C41: the checkpoint key
-/
namespace HS

/-- an int, or a bool, which is an int in Python: the number it stands for -/
def IntVal (x : Val) (i : Int) : Prop := x = .int i ∨ ∃ b, x = .bool b ∧ i = if b then 1 else 0

/-- C41: after every successful step of a manager with a checkpoint directory, whatever was done before, the key field of the state
holds an int (or bool), and the manager's checkpoint is the one named after its value. -/
theorem C41_key (E : MgrEnv) (disk : Dir Files) (pre : List MOp) (m m' : Mgr) (mv : Move)
    (h0 : (Mgr.new E disk).run E pre = .ok m) (hck : E.ckpt = true) (h : m.step E mv = .ok m') :
    ∃ x i, m'.getState E E.key = .ok (x, m') ∧ IntVal x i ∧ m'.last = some (ckptName E.key i) := by
  have hI := run_inv pre _ m (.new E disk) h0
  obtain ⟨o, m0, m1, hr, ha, j1, hcur, hst, hlast, hdisk, hfin⟩ := step_inv hI h
  rcases hfin with ⟨hno, _⟩ | ⟨_, c', kv, val', files, o', d', l', hc', hkv, hval', hor, hrun, rfl⟩
  · rw [hck] at hno; exact (nomatch hno)
  have hdp : E.depth ≠ 0 := by
    intro hd
    rw [hd] at hkv
    simp [lazyGet] at hkv
  have hkset := lazyGet_settled _ _ _ _ _ hkv
  refine ⟨kv, val', getState_settled (o := o') rfl ?_ hdp, ?_, ?_⟩
  · rcases hor with ⟨_, rfl⟩ | ⟨_, hdump⟩
    · exact hkset
    · obtain ⟨_, _, vs, _, _, _, hvs, _, _, rfl⟩ := dump_inv hdump
      obtain ⟨_, hk, _⟩ := readAll_settled _ _ _ _ _ hvs
      exact hk _ _ hkset
  · cases kv with
    | int i => cases hval'; exact .inl rfl
    | bool b => cases hval'; exact .inr ⟨b, rfl, rfl⟩
    | _ => exact (nomatch hval')
  · simp only [stepRun, stepOps] at hrun
    revert hrun
    split
    · rename_i heq
      intro hrun
      simp only [Option.some.injEq, Prod.mk.injEq] at hrun
      rw [← hrun.2]
      revert heq
      repeat' split
      all_goals (intro heq; simp only [Prod.mk.injEq, Option.some.injEq, reduceCtorEq, and_false] at heq)
      all_goals (rw [← heq.2])
    · intro hrun; exact (nomatch hrun)

/-- the step of a restored manager from 10 to 20 succeeds -/
example : ((Mgr.new ExM.E ExM.disk).run ExM.E [.setState "step" (.int 20), .step ⟨.none, false⟩]).toOption.map
    (fun m => (m.last, match m.getState ExM.E "step" with
      | .ok (.int i, _) => some i
      | _ => .none)) = some (some "latest-step000000000020", some 20) := by
  decide +kernel

/-- C41: if the key field holds anything else, the step fails with AssertionError, and neither state nor directory changes. -/
theorem C41_bad_key (E : MgrEnv) (m m1 : Mgr) (mv : Move) (hck : E.ckpt = true) (o : LObj) (x : Val)
    (hst : m.readState E = .ok (o, m)) (ha : m.apply E o = .ok m1) (hx : Settled E.stLazy o E.key x) (hd : E.depth ≠ 0)
    (hbad : ∀ i, ¬ IntVal x i) : m.step E mv = .error .assertionError := by
  have hs : m.state = some o := by
    simp only [Mgr.readState] at hst
    cases hms : m.state with
    | some o' => rw [hms] at hst; simp only [Except.ok.injEq, Prod.mk.injEq] at hst; rw [hst.1]
    | none =>
      rw [hms] at hst
      simp only [bind, Except.bind, pure, Except.pure] at hst
      split at hst
      · exact (nomatch hst)
      · rename_i q hq
        split at hst
        · exact (nomatch hst)
        · rename_i m2 hm2
          simp only [Except.ok.injEq, Prod.mk.injEq] at hst
          have : m2.state = some q.1 := by
            simp only [Mgr.apply, bind, Except.bind, pure, Except.pure] at hm2
            split at hm2
            · exact (nomatch hm2)
            · rename_i q2 hq2
              split at hm2
              · exact (nomatch hm2)
              · cases hm2
                simp only [Mgr.readConfig, bind, Except.bind, pure, Except.pure] at hq2
                split at hq2
                · cases hq2; rfl
                · split at hq2
                  · exact (nomatch hq2)
                  · cases hq2; rfl
          rw [hst.2, hms] at this
          exact (nomatch this)
  have hs1 : m1.state = some o := by
    simp only [Mgr.apply, bind, Except.bind, pure, Except.pure] at ha
    split at ha
    · exact (nomatch ha)
    · rename_i q2 hq2
      split at ha
      · exact (nomatch ha)
      · cases ha
        simp only [Mgr.readConfig, bind, Except.bind, pure, Except.pure] at hq2
        split at hq2
        · cases hq2; exact hs
        · split at hq2
          · exact (nomatch hq2)
          · cases hq2; exact hs
  have hg := getState_settled hs1 hx hd
  have hv : ckptVal x = .error .assertionError := by
    cases x with
    | int i => exact absurd (.inl rfl) (hbad i)
    | bool b => exact absurd (.inr ⟨b, rfl, rfl⟩) (hbad _)
    | _ => rfl
  simp only [Mgr.step, hst, bind, Except.bind, ha, hck, if_true, hg, hv]

/-- a manager whose `step` was assigned a string: the step fails -/
example : (⟨some (ExM.cfgV 10), [], some ⟨"State", [("step", .str "x")], []⟩, .init, .none, []⟩ : Mgr).step ExM.E ⟨.none, false⟩ =
    .error .assertionError :=
  C41_bad_key ExM.E _ _ _ rfl _ (.str "x") rfl rfl ⟨rfl, fun _ => rfl⟩ (by simp [ExM.E])
    (by rintro i (h | ⟨b, h, _⟩) <;> exact (nomatch h))

end HS
