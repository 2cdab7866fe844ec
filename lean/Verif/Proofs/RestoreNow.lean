import Verif.Proofs.Fits
/-!
# The file that a config is written to does not depend on the values of scheduled fields
-/
namespace HS

mutual
theorem restored_node (e : Ext) : ∀ (t : PyTy) (es : RegD) (path : String) (v v' : Val) (bs : List (String × Val)) (ev : List Ev),
    Restored e t (some (.node es)) path v v' bs ev →
    ∃ n fs kvs kvs', v = .inst n kvs ∧ RestoredFs e fs (some (.node es)) path kvs kvs' bs ev ∧ (∀ k, k ∉ fs.map Fld.name → dget es k = none) ∧
      ∀ kvs2, RestoredFs e fs (some (.node es)) path kvs2 kvs' bs ev → Restored e t (some (.node es)) path (.inst n kvs2) v' bs ev
  | .data n fs ver, es, path, v, v', bs, ev, h => by
    simp only [Restored] at h
    obtain ⟨h1, h2, h3, kvs, kvs', rfl, rfl, h4⟩ := h
    exact ⟨n, fs, kvs, kvs', rfl, h4, h3, fun kvs2 h => by simp only [Restored]; exact ⟨h1, h2, h3, kvs2, kvs', rfl, rfl, h⟩⟩
  | .union as, es, path, v, v', bs, ev, h => by
    simp only [Restored] at h
    rcases h with ⟨h, _⟩ | ⟨_, h, _⟩ | ⟨ho, h⟩
    · exact (nomatch h)
    · exact (nomatch h)
    · obtain ⟨n, fs, kvs, kvs', h1, h2, h3, h4⟩ := restored_nodeH e as es path v v' bs ev h
      exact ⟨n, fs, kvs, kvs', h1, h2, h3, fun kvs2 h => by simp only [Restored]; exact .inr (.inr ⟨ho, h4 kvs2 h⟩)⟩
  | .int, es, path, v, v', bs, ev, h => by simp [Restored] at h
  | .float, es, path, v, v', bs, ev, h => by simp [Restored] at h
  | .blob _, es, path, v, v', bs, ev, h => by simp [Restored] at h
  | .str, es, path, v, v', bs, ev, h => by simp [Restored] at h
  | .bool, es, path, v, v', bs, ev, h => by simp [Restored] at h
  | .noneT, es, path, v, v', bs, ev, h => by simp [Restored] at h
  | .list _, es, path, v, v', bs, ev, h => by simp [Restored] at h
  | .tuple _, es, path, v, v', bs, ev, h => by simp [Restored] at h
  | .dict _ _, es, path, v, v', bs, ev, h => by simp [Restored] at h
  | .enum _ _, es, path, v, v', bs, ev, h => by simp [Restored] at h
  | .literal _, es, path, v, v', bs, ev, h => by simp [Restored] at h
theorem restored_nodeH (e : Ext) : ∀ (ts : List PyTy) (es : RegD) (path : String) (v v' : Val) (bs : List (String × Val)) (ev : List Ev),
    RestoredHead e ts (some (.node es)) path v v' bs ev →
    ∃ n fs kvs kvs', v = .inst n kvs ∧ RestoredFs e fs (some (.node es)) path kvs kvs' bs ev ∧ (∀ k, k ∉ fs.map Fld.name → dget es k = none) ∧
      ∀ kvs2, RestoredFs e fs (some (.node es)) path kvs2 kvs' bs ev → RestoredHead e ts (some (.node es)) path (.inst n kvs2) v' bs ev
  | [], es, path, v, v', bs, ev, h => by simp [RestoredHead] at h
  | t :: ts, es, path, v, v', bs, ev, h => by
    simp only [RestoredHead] at h ⊢
    exact restored_node e t es path v v' bs ev h
end

mutual
theorem restored_sched (e : Ext) (sv : String → Except Err Flt) : ∀ (t : PyTy) (txt : String) (i : Bool) (a : String) (path : String) (v v' x : Val)
    (bs : List (String × Val)) (ev : List Ev), Restored e t (some (.sched txt i a)) path v v' bs ev → schedVal sv txt i = .ok x →
    Restored e t (some (.sched txt i a)) path x v' bs ev
  | .int, txt, i, a, path, v, v', x, bs, ev, h, hx => by
    simp only [Restored] at h ⊢
    obtain ⟨_, hb, ⟨h, _⟩ | ⟨txt', a', f, j, h1, h2⟩⟩ := h
    · exact (nomatch h)
    · refine ⟨?_, hb, .inr ⟨txt', a', f, j, h1, h2⟩⟩
      cases h1
      obtain ⟨_, _, ⟨h, _⟩ | ⟨_, n, _, rfl⟩⟩ := schedVal_iff.1 hx
      · exact (nomatch h)
      · exact ⟨.inl ⟨_, rfl⟩, trivial, rfl⟩
  | .float, txt, i, a, path, v, v', x, bs, ev, h, hx => by
    simp only [Restored] at h ⊢
    obtain ⟨_, hb, ⟨h, _⟩ | ⟨txt', a', f, h1, h2⟩⟩ := h
    · exact (nomatch h)
    · refine ⟨?_, hb, .inr ⟨txt', a', f, h1, h2⟩⟩
      cases h1
      obtain ⟨_, _, ⟨_, rfl⟩ | ⟨h, _⟩⟩ := schedVal_iff.1 hx
      · exact ⟨⟨_, rfl⟩, trivial, rfl⟩
      · exact (nomatch h)
  | .data _ _ _, txt, i, a, path, v, v', x, bs, ev, h, hx => by simp [Restored, Reg.isSched] at h
  | .union as, txt, i, a, path, v, v', x, bs, ev, h, hx => by
    simp only [Restored] at h ⊢
    rcases h with ⟨h, _⟩ | ⟨_, h, _⟩ | ⟨ho, h⟩
    · exact (nomatch h)
    · exact (nomatch h)
    · exact .inr (.inr ⟨ho, restored_schedH e sv as txt i a path v v' x bs ev h hx⟩)
  | .blob _, txt, i, a, path, v, v', x, bs, ev, h, hx => by simp [Restored] at h
  | .str, txt, i, a, path, v, v', x, bs, ev, h, hx => by simp [Restored] at h
  | .bool, txt, i, a, path, v, v', x, bs, ev, h, hx => by simp [Restored] at h
  | .noneT, txt, i, a, path, v, v', x, bs, ev, h, hx => by simp [Restored] at h
  | .list _, txt, i, a, path, v, v', x, bs, ev, h, hx => by simp [Restored] at h
  | .tuple _, txt, i, a, path, v, v', x, bs, ev, h, hx => by simp [Restored] at h
  | .dict _ _, txt, i, a, path, v, v', x, bs, ev, h, hx => by simp [Restored] at h
  | .enum _ _, txt, i, a, path, v, v', x, bs, ev, h, hx => by simp [Restored] at h
  | .literal _, txt, i, a, path, v, v', x, bs, ev, h, hx => by simp [Restored] at h
theorem restored_schedH (e : Ext) (sv : String → Except Err Flt) : ∀ (ts : List PyTy) (txt : String) (i : Bool) (a : String) (path : String)
    (v v' x : Val) (bs : List (String × Val)) (ev : List Ev), RestoredHead e ts (some (.sched txt i a)) path v v' bs ev →
    schedVal sv txt i = .ok x → RestoredHead e ts (some (.sched txt i a)) path x v' bs ev
  | [], txt, i, a, path, v, v', x, bs, ev, h, hx => by simp [RestoredHead] at h
  | t :: ts, txt, i, a, path, v, v', x, bs, ev, h, hx => by
    simp only [RestoredHead] at h ⊢
    exact restored_sched e sv t txt i a path v v' x bs ev h hx
end

/-- setting a field of the config that was saved -/
theorem restoredFs_set (e : Ext) (r : Option Reg) (path : String) (k : String) : ∀ (fs : List Fld) (kvs kvs' : List (String × Val))
    (bs : List (String × Val)) (ev : List Ev), RestoredFs e fs r path kvs kvs' bs ev → k ∈ fs.map Fld.name →
    ∃ t y y' p b2 e2, dget kvs k = some y ∧ Restored e t (Reg.child r k) p y y' b2 e2 ∧
      ∀ x, Restored e t (Reg.child r k) p x y' b2 e2 → RestoredFs e fs r path (dset kvs k x) kvs' bs ev := by
  intro fs
  induction fs with
  | nil => intro kvs kvs' bs ev _ h; simp at h
  | cons f fs ih =>
    intro kvs kvs' bs ev h hk
    obtain ⟨n, t, d⟩ := f
    simp only [RestoredFs, RestoredF] at h
    obtain ⟨v, v', bs1, es1, rest, rest', bs2, es2, h1, h2, rfl, rfl, rfl, rfl⟩ := h
    by_cases hn : n = k
    · subst hn
      refine ⟨t, v, v', _, bs1, es1, by simp [dget, Fld.name], h1, fun x hx => ?_⟩
      simp only [dset, Fld.name, if_true, RestoredFs, RestoredF]
      exact ⟨x, v', bs1, es1, rest, rest', bs2, es2, hx, h2, rfl, rfl, rfl, rfl⟩
    · obtain ⟨t', y, y', p, b3, e3, g1, g2, g3⟩ := ih rest rest' bs2 es2 h2 (by
        simp only [List.map_cons, List.mem_cons, Fld.name] at hk
        exact hk.resolve_left (Ne.symm hn))
      refine ⟨t', y, y', p, b3, e3, by simpa [dget, Fld.name, hn] using g1, g2, fun x hx => ?_⟩
      simp only [RestoredFs, RestoredF]
      exact ⟨v, v', bs1, es1, _, rest', bs2, es2, h1, g3 x hx, by simp [dset, Fld.name, hn], rfl, rfl, rfl⟩

mutual
theorem restored_applyX (e : Ext) (sv : String → Except Err Flt) : ∀ (r : Reg) (k : String) (t : PyTy) (es : RegD) (path : String) (v v' : Val)
    (bs : List (String × Val)) (ev : List Ev), dget es k = some r → r.WF0 k → Restored e t (some (.node es)) path v v' bs ev →
    Restored e t (some (.node es)) path (applyRegX sv r k v).2 v' bs ev
  | .sched txt i a, k, t, es, path, v, v', bs, ev, hd, hwf, h => by
    simp only [Reg.WF0] at hwf
    subst hwf
    obtain ⟨n, fs, kvs, kvs', rfl, h1, h2, h3⟩ := restored_node e t es path v v' bs ev h
    obtain ⟨t', y, y', p, b2, e2, _, g2, g3⟩ := restoredFs_set e _ path a fs kvs kvs' bs ev h1 (by
      by_cases hm : a ∈ fs.map Fld.name
      · exact hm
      · rw [h2 a hm] at hd; exact (nomatch hd))
    simp only [applyRegX]
    cases hx : schedVal sv txt i with
    | error _ => exact h
    | ok x =>
      simp only [setAttr]
      refine h3 _ (g3 x ?_)
      simp only [Reg.child, hd] at g2 ⊢
      exact restored_sched e sv t' txt i a p y y' x b2 e2 g2 hx
  | .node es', k, t, es, path, v, v', bs, ev, hd, hwf, h => by
    simp only [Reg.WF0] at hwf
    obtain ⟨n, fs, kvs, kvs', rfl, h1, h2, h3⟩ := restored_node e t es path v v' bs ev h
    obtain ⟨t', y, y', p, b2, e2, g1, g2, g3⟩ := restoredFs_set e _ path k fs kvs kvs' bs ev h1 (by
      by_cases hm : k ∈ fs.map Fld.name
      · exact hm
      · rw [h2 k hm] at hd; exact (nomatch hd))
    simp only [applyRegX, getAttr, g1, setAttr]
    refine h3 _ (g3 _ ?_)
    simp only [Reg.child, hd] at g2 ⊢
    exact restored_applyDX e sv es' t' es' p y y' b2 e2 (fun k r hm => dget_of_mem hwf.1 hm) hwf.2 g2
theorem restored_applyDX (e : Ext) (sv : String → Except Err Flt) : ∀ (es : List (String × Reg)) (t : PyTy) (es0 : RegD) (path : String) (v v' : Val)
    (bs : List (String × Val)) (ev : List Ev), (∀ k r, (k, r) ∈ es → dget es0 k = some r) → RegWF0D es →
    Restored e t (some (.node es0)) path v v' bs ev → Restored e t (some (.node es0)) path (applyRegDX sv es v).2 v' bs ev
  | [], t, es0, path, v, v', bs, ev, _, _, h => h
  | a :: es, t, es0, path, v, v', bs, ev, hm, hwf, h => by
    simp only [RegWF0D] at hwf
    have h1 := restored_applyEX e sv a t es0 path v v' bs ev (hm a.1 a.2 (by simp)) hwf.1 h
    simp only [applyRegDX]
    split
    · exact h1
    · exact restored_applyDX e sv es t es0 path _ v' bs ev (fun k r h => hm k r (List.mem_cons_of_mem _ h)) hwf.2 h1
theorem restored_applyEX (e : Ext) (sv : String → Except Err Flt) : ∀ (a : String × Reg) (t : PyTy) (es : RegD) (path : String) (v v' : Val)
    (bs : List (String × Val)) (ev : List Ev), dget es a.1 = some a.2 → RegWF0E a → Restored e t (some (.node es)) path v v' bs ev →
    Restored e t (some (.node es)) path (applyRegEX sv a v).2 v' bs ev
  | (k, r), t, es, path, v, v', bs, ev, hd, hwf, h => by
    simp only [RegWF0E] at hwf
    simp only [applyRegEX]
    exact restored_applyX e sv r k t es path v v' bs ev hd hwf h
end

/-- a config is saved, whatever its scheduled fields hold; what is loaded gets the values of the schedules at another state -/
theorem config_roundtrip_now (w : World) {n : String} {fs : List Fld} {ver : Option VerInfo} {reg : RegD} {v v2 : Val}
    (hfit : Fits w.ext false (.data n fs ver) (some (.node reg)) v) (henv : EnvOK w.env (.data n fs ver))
    (hmat : (materialize (.data n fs ver)).isOk = true)
    (hdepth : ∀ segs x, Reg.at (some (.node reg)) segs = some x → segs.length ≤ 2) (htop : TopOK reg)
    (sv : String → Except Err Flt) (happ : applyRegD sv reg v = .ok v2) (ig : Bool) :
    ∃ doc v' reg', typedDump w.env (some reg) false v = .ok (doc, []) ∧
      smLoadConfig w (.data n fs ver) (some doc) [] ig = .ok ⟨v', reg', []⟩ ∧
      RegEqv (some (.node reg)) (some (.node reg')) ∧ Flat reg' ∧ applyRegD sv reg' v' = .ok v2 := by
  obtain ⟨doc, v', reg', es, h1, h2, h3, h4, h5⟩ := config_roundtrip_restored w hfit henv hmat hdepth ig
  have h6 := restored_applyDX w.ext sv reg _ reg "" v v' [] es (fun k r hm => dget_of_mem htop.1 hm) htop.2 h5
  have hv2 : (applyRegDX sv reg v).2 = v2 := by
    rw [applyRegD_agree] at happ
    cases hx : (applyRegDX sv reg v).1 with
    | error er => rw [hx] at happ; exact (nomatch happ)
    | ok u => rw [hx] at happ; cases happ; rfl
  rw [hv2] at h6
  exact ⟨doc, v', reg', h1, h2, h3, h4, apply_restored w.ext sv _ _ (some (.node reg')) "" v2 v' es h6
    (fun segs txt i hat => apply_current _ segs _ _ _ htop happ txt i hat) h3 ⟨h4.nodup, h4.wf⟩ (by
    intro es' _ h; simp [isData] at h)⟩

end HS
