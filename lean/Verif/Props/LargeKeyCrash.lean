import Verif.Props.LargeKey
/-! # Crashes when the checkpoint key reaches thirteen digits

`step` (`hyperstate/hyperstate.py:124-142`) removes the previous checkpoint after the new one is written; a restart looks at the last
twelve characters of the names (`hyperstate/hyperstate.py:334-349`). -/
namespace HS
variable {P : Type}

/-- C40, the failing case in general: the previous key has at most twelve digits and the new one more, with smaller last twelve
digits. A crash after the new
checkpoint is written leaves the previous one to be restored; a crash while the previous one is deleted by copying leaves nothing to be
restored, although the new checkpoint is complete; and a step that is not interrupted leaves the new one. -/
theorem C40_large_keys_false (key : String) (j k : Nat) (hj : j < 10 ^ 12) (hk : 10 ^ 12 ≤ k) (hlt : k % 10 ^ 12 < j) (q p : P) :
    restored (stepCrash ⟨none, true⟩ key k p [(ckptName key j, .full q)] (some (ckptName key j)) 1) = some q ∧
    restored (stepCrash ⟨none, true⟩ key k p [(ckptName key j, .full q)] (some (ckptName key j)) 2) = none ∧
    dget (stepCrash ⟨none, true⟩ key k p [(ckptName key j, .full q)] (some (ckptName key j)) 2) (ckptName key k) = some (.full p) ∧
    stepRun ⟨none, true⟩ key k p [(ckptName key j, .full q)] (some (ckptName key j)) =
      some ([(ckptName key k, .full p)], some (ckptName key k)) := by
  have sj : suffixInt (ckptName key j) = some (j : Int) := suffixInt_ckptName key ⟨by omega, by omega⟩
  have sk := C43_large_key key k hk
  have hne : ckptName key j ≠ ckptName key k := by
    intro h
    rw [h, sk] at sj
    simp only [Option.some.injEq, Int.natCast_inj] at sj
    omega
  have hops : stepOps ⟨none, true⟩ key k p [(ckptName key j, .full q)] (some (ckptName key j)) =
      ([.put (ckptName key k) (.full p), .put (ckptName key j) .broken, .del (ckptName key j)], some (ckptName key k)) := by
    simp [stepOps, dhas, dget, hne, checkpointOps, runOps, Op.run, dset, removeOps]
  have hopen : ∀ e : Ent P, e.isDir = true → openMgr [(ckptName key j, e), (ckptName key k, .full p)] = some (ckptName key j) := by
    intro e he
    have hf : findLatest [(ckptName key j, e), (ckptName key k, .full p)] = some (ckptName key j) := by
      apply findLatest_max (List.mem_cons_self ..) he sj
      intro m e' i hm _ hi
      simp only [List.mem_cons, List.not_mem_nil, or_false, Prod.mk.injEq] at hm
      rcases hm with ⟨rfl, rfl⟩ | ⟨rfl, rfl⟩
      · exact .inl rfl
      · right
        rw [sk] at hi
        cases hi
        omega
    simp only [openMgr, hf, latest_ckptName]; rfl
  have h1 : stepCrash ⟨none, true⟩ key k p [(ckptName key j, .full q)] (some (ckptName key j)) 1 =
      [(ckptName key j, .full q), (ckptName key k, .full p)] := by
    simp [stepCrash, hops, runOps, Op.run, dset, hne]
  have h2 : stepCrash ⟨none, true⟩ key k p [(ckptName key j, .full q)] (some (ckptName key j)) 2 =
      [(ckptName key j, .broken), (ckptName key k, .full p)] := by
    simp [stepCrash, hops, runOps, Op.run, dset, hne]
  rw [h1, h2]
  refine ⟨?_, ?_, ?_, ?_⟩
  · rw [restored, hopen _ rfl]; simp [dget]
  · rw [restored, hopen _ rfl]; simp [dget]
  · simp [dget, hne]
  · simp [stepRun, hops, runOps, Op.run, dset, hne, ddel, Ne.symm hne]

/-- The hypotheses are met. -/
example : (999999999000 : Nat) < 10 ^ 12 ∧ 10 ^ 12 ≤ 1000000000500 ∧ 1000000000500 % 10 ^ 12 < 999999999000 := by omega
end HS
