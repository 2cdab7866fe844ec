import Verif.Proofs.ManagerExc
import Verif.Props.Registered
/-!
# Configs that round trip: what is loaded is one, and applying schedules keeps it one
-/
namespace HS

/-! ## applying schedules -/

mutual
theorem fits_node (e : Ext) (b : Bool) : ∀ (t : PyTy) (es : RegD) (v : Val), Fits e b t (some (.node es)) v →
    ∃ n fs kvs, v = .inst n kvs ∧ FitsFs e b fs (some (.node es)) kvs ∧ (∀ k, k ∉ fs.map Fld.name → dget es k = none) ∧
      ∀ kvs', FitsFs e b fs (some (.node es)) kvs' → Fits e b t (some (.node es)) (.inst n kvs')
  | .data n fs ver, es, v, h => by
    simp only [Fits] at h
    obtain ⟨h1, h2, h3, kvs, rfl, h4⟩ := h
    exact ⟨n, fs, kvs, rfl, h4, h3, fun kvs' h => by simp only [Fits]; exact ⟨h1, h2, h3, kvs', rfl, h⟩⟩
  | .union as, es, v, h => by
    simp only [Fits] at h
    rcases h with ⟨h, _⟩ | ⟨_, h, _⟩ | ⟨ho, h⟩
    · exact (nomatch h)
    · exact (nomatch h)
    · obtain ⟨n, fs, kvs, h1, h2, h3, h4⟩ := fits_nodeH e b as es v h
      exact ⟨n, fs, kvs, h1, h2, h3, fun kvs' h => by simp only [Fits]; exact .inr (.inr ⟨ho, h4 kvs' h⟩)⟩
  | .int, es, v, h => by simp [Fits] at h
  | .float, es, v, h => by simp [Fits] at h
  | .blob _, es, v, h => by simp [Fits] at h
  | .str, es, v, h => by simp [Fits] at h
  | .bool, es, v, h => by simp [Fits] at h
  | .noneT, es, v, h => by simp [Fits] at h
  | .list _, es, v, h => by simp [Fits] at h
  | .tuple _, es, v, h => by simp [Fits] at h
  | .dict _ _, es, v, h => by simp [Fits] at h
  | .enum _ _, es, v, h => by simp [Fits] at h
  | .literal _, es, v, h => by simp [Fits] at h
theorem fits_nodeH (e : Ext) (b : Bool) : ∀ (ts : List PyTy) (es : RegD) (v : Val), FitsHead e b ts (some (.node es)) v →
    ∃ n fs kvs, v = .inst n kvs ∧ FitsFs e b fs (some (.node es)) kvs ∧ (∀ k, k ∉ fs.map Fld.name → dget es k = none) ∧
      ∀ kvs', FitsFs e b fs (some (.node es)) kvs' → FitsHead e b ts (some (.node es)) (.inst n kvs')
  | [], es, v, h => by simp [FitsHead] at h
  | t :: ts, es, v, h => by
    simp only [FitsHead] at h ⊢
    exact fits_node e b t es v h
end

mutual
theorem fits_sched (e : Ext) (b : Bool) (sv : String → Except Err Flt) : ∀ (t : PyTy) (txt : String) (i : Bool) (a : String) (v x : Val),
    Fits e b t (some (.sched txt i a)) v → schedVal sv txt i = .ok x → Fits e b t (some (.sched txt i a)) x
  | .int, txt, i, a, v, x, h, hx => by
    simp only [Fits] at h ⊢
    obtain ⟨_, h | ⟨txt', a', f, j, h1, h2⟩⟩ := h
    · exact (nomatch h)
    · refine ⟨?_, .inr ⟨txt', a', f, j, h1, h2⟩⟩
      cases h1
      obtain ⟨_, _, ⟨h, _⟩ | ⟨_, n, _, rfl⟩⟩ := schedVal_iff.1 hx
      · exact (nomatch h)
      · exact ⟨.inl ⟨_, rfl⟩, trivial, rfl⟩
  | .float, txt, i, a, v, x, h, hx => by
    simp only [Fits] at h ⊢
    obtain ⟨_, h | ⟨txt', a', f, h1, h2⟩⟩ := h
    · exact (nomatch h)
    · refine ⟨?_, .inr ⟨txt', a', f, h1, h2⟩⟩
      cases h1
      obtain ⟨_, _, ⟨_, rfl⟩ | ⟨h, _⟩⟩ := schedVal_iff.1 hx
      · exact ⟨⟨_, rfl⟩, trivial, rfl⟩
      · exact (nomatch h)
  | .data n fs ver, txt, i, a, v, x, h, hx => by simp [Fits, Reg.isSched] at h
  | .union as, txt, i, a, v, x, h, hx => by
    simp only [Fits] at h ⊢
    rcases h with ⟨h, _⟩ | ⟨_, h, _⟩ | ⟨ho, h⟩
    · exact (nomatch h)
    · exact (nomatch h)
    · exact .inr (.inr ⟨ho, fits_schedH e b sv as txt i a v x h hx⟩)
  | .blob _, txt, i, a, v, x, h, hx => by simp [Fits] at h
  | .str, txt, i, a, v, x, h, hx => by simp [Fits] at h
  | .bool, txt, i, a, v, x, h, hx => by simp [Fits] at h
  | .noneT, txt, i, a, v, x, h, hx => by simp [Fits] at h
  | .list _, txt, i, a, v, x, h, hx => by simp [Fits] at h
  | .tuple _, txt, i, a, v, x, h, hx => by simp [Fits] at h
  | .dict _ _, txt, i, a, v, x, h, hx => by simp [Fits] at h
  | .enum _ _, txt, i, a, v, x, h, hx => by simp [Fits] at h
  | .literal _, txt, i, a, v, x, h, hx => by simp [Fits] at h
theorem fits_schedH (e : Ext) (b : Bool) (sv : String → Except Err Flt) : ∀ (ts : List PyTy) (txt : String) (i : Bool) (a : String)
    (v x : Val), FitsHead e b ts (some (.sched txt i a)) v → schedVal sv txt i = .ok x → FitsHead e b ts (some (.sched txt i a)) x
  | [], txt, i, a, v, x, h, hx => by simp [FitsHead] at h
  | t :: ts, txt, i, a, v, x, h, hx => by
    simp only [FitsHead] at h ⊢
    exact fits_sched e b sv t txt i a v x h hx
end

/-- setting a field -/
theorem fitsFs_set (e : Ext) (b : Bool) (r : Option Reg) (k : String) : ∀ (fs : List Fld) (kvs : List (String × Val)),
    FitsFs e b fs r kvs → k ∈ fs.map Fld.name → ∃ t y, dget kvs k = some y ∧ Fits e b t (Reg.child r k) y ∧
      ∀ x, Fits e b t (Reg.child r k) x → FitsFs e b fs r (dset kvs k x) := by
  intro fs
  induction fs with
  | nil => intro kvs _ h; simp at h
  | cons f fs ih =>
    intro kvs h hk
    obtain ⟨n, t, d⟩ := f
    simp only [FitsFs, FitsF] at h
    obtain ⟨v, rest, rfl, h1, h2⟩ := h
    by_cases hn : n = k
    · subst hn
      refine ⟨t, v, by simp [dget, Fld.name], h1, fun x hx => ?_⟩
      simp only [dset, Fld.name, if_true, FitsFs, FitsF]
      exact ⟨x, rest, rfl, hx, h2⟩
    · obtain ⟨t', y, g1, g2, g3⟩ := ih rest h2 (by
        simp only [List.map_cons, List.mem_cons, Fld.name] at hk
        exact hk.resolve_left (Ne.symm hn))
      refine ⟨t', y, by simpa [dget, Fld.name, hn] using g1, g2, fun x hx => ?_⟩
      simp only [FitsFs, FitsF]
      exact ⟨v, _, by simp [dset, Fld.name, hn], h1, g3 x hx⟩

mutual
theorem fits_applyX (e : Ext) (b : Bool) (sv : String → Except Err Flt) : ∀ (r : Reg) (k : String) (t : PyTy) (es : RegD) (v : Val),
    dget es k = some r → r.WF0 k → Fits e b t (some (.node es)) v → Fits e b t (some (.node es)) (applyRegX sv r k v).2
  | .sched txt i a, k, t, es, v, hd, hwf, h => by
    simp only [Reg.WF0] at hwf
    subst hwf
    obtain ⟨n, fs, kvs, rfl, h1, h2, h3⟩ := fits_node e b t es v h
    obtain ⟨t', y, _, g2, g3⟩ := fitsFs_set e b _ a fs kvs h1 (by
      by_cases hm : a ∈ fs.map Fld.name
      · exact hm
      · rw [h2 a hm] at hd; exact (nomatch hd))
    simp only [applyRegX]
    cases hx : schedVal sv txt i with
    | error _ => exact h
    | ok x =>
      simp only [setAttr]
      refine h3 _ (g3 x ?_)
      simp only [Reg.child, hd] at g2 ⊢
      exact fits_sched e b sv t' txt i a y x g2 hx
  | .node es', k, t, es, v, hd, hwf, h => by
    simp only [Reg.WF0] at hwf
    obtain ⟨n, fs, kvs, rfl, h1, h2, h3⟩ := fits_node e b t es v h
    obtain ⟨t', y, g1, g2, g3⟩ := fitsFs_set e b _ k fs kvs h1 (by
      by_cases hm : k ∈ fs.map Fld.name
      · exact hm
      · rw [h2 k hm] at hd; exact (nomatch hd))
    simp only [applyRegX, getAttr, g1, setAttr]
    refine h3 _ (g3 _ ?_)
    simp only [Reg.child, hd] at g2 ⊢
    exact fits_applyDX e b sv es' t' es' y (fun k r hm => dget_of_mem hwf.1 hm) hwf.2 g2
theorem fits_applyDX (e : Ext) (b : Bool) (sv : String → Except Err Flt) : ∀ (es : List (String × Reg)) (t : PyTy) (es0 : RegD) (v : Val),
    (∀ k r, (k, r) ∈ es → dget es0 k = some r) → RegWF0D es → Fits e b t (some (.node es0)) v →
    Fits e b t (some (.node es0)) (applyRegDX sv es v).2
  | [], t, es0, v, _, _, h => h
  | a :: es, t, es0, v, hm, hwf, h => by
    simp only [RegWF0D] at hwf
    have h1 := fits_applyEX e b sv a t es0 v (hm a.1 a.2 (by simp)) hwf.1 h
    simp only [applyRegDX]
    split
    · exact h1
    · exact fits_applyDX e b sv es t es0 _ (fun k r h => hm k r (List.mem_cons_of_mem _ h)) hwf.2 h1
theorem fits_applyEX (e : Ext) (b : Bool) (sv : String → Except Err Flt) : ∀ (a : String × Reg) (t : PyTy) (es : RegD) (v : Val),
    dget es a.1 = some a.2 → RegWF0E a → Fits e b t (some (.node es)) v → Fits e b t (some (.node es)) (applyRegEX sv a v).2
  | (k, r), t, es, v, hd, hwf, h => by
    simp only [RegWF0E] at hwf
    simp only [applyRegEX]
    exact fits_applyX e b sv r k t es v hd hwf h
end

/-! ## what is restored round trips again -/

/-- a registry without schedules -/
theorem reg_none {r : Option Reg} (h : RegEqv none r) (hw : WF? r) (hne : ∀ es, r = some (.node es) → es ≠ []) : r = none := by
  match r, h, hw, hne with
  | none, _, _, _ => rfl
  | some (.sched t i a), h, _, _ => exact absurd (h []) (by simp [Reg.at])
  | some (.node es), h, hw, hne =>
    obtain ⟨segs, x, hx⟩ := Reg.WF.nonempty (.node es) "" (by simp only [Reg.WF]; exact ⟨hne es rfl, hw⟩)
    have := h segs
    rw [hx, Reg.at_none] at this
    cases this

theorem reg_sched {r : Option Reg} {t : String} {i : Bool} {a : String} (h : RegEqv (some (.sched t i a)) r) : ∃ a', r = some (.sched t i a') := by
  have h0 := h []
  match r, h0 with
  | some (.sched t' i' a'), h0 =>
    simp [Reg.at] at h0
    obtain ⟨rfl, rfl⟩ := h0
    exact ⟨a', rfl⟩
  | some (.node _), h0 => simp [Reg.at] at h0
  | none, h0 => simp [Reg.at] at h0

mutual
/-- what is read back fits again, with every equivalent registry -/
theorem restored_fits (e : Ext) : ∀ (t : PyTy) (r r' : Option Reg) (path : String) (v v' : Val) (es : List Ev),
    Restored e t r path v v' [] es → RegEqv r r' → WF? r' → (∀ es, r' = some (.node es) → isData t = false → es ≠ []) →
    Fits e false t r' v ∧ Fits e false t r' v'
  | .int, r, r', path, v, v', es, h, heq, hw, hne => by
    simp only [Restored] at h
    obtain ⟨hv, _, ⟨rfl, rfl, rfl⟩ | ⟨txt, a, f, i, rfl, htxt, hf, hi, rfl, rfl⟩⟩ := h
    · have := reg_none heq hw (fun es h => hne es h rfl)
      subst this
      simp only [Fits]
      exact ⟨⟨hv, .inl trivial⟩, hv, .inl trivial⟩
    · obtain ⟨a', rfl⟩ := reg_sched heq
      simp only [Fits]
      exact ⟨⟨hv, .inr ⟨txt, a', f, i, rfl, htxt, hf, hi⟩⟩, ⟨.inl ⟨_, rfl⟩, trivial, rfl⟩, .inr ⟨txt, a', f, i, rfl, htxt, hf, hi⟩⟩
  | .float, r, r', path, v, v', es, h, heq, hw, hne => by
    simp only [Restored] at h
    obtain ⟨hv, _, ⟨rfl, rfl, rfl⟩ | ⟨txt, a, f, rfl, htxt, hf, rfl, rfl⟩⟩ := h
    · have := reg_none heq hw (fun es h => hne es h rfl)
      subst this
      simp only [Fits]
      exact ⟨⟨hv, .inl trivial⟩, hv, .inl trivial⟩
    · obtain ⟨a', rfl⟩ := reg_sched heq
      simp only [Fits]
      exact ⟨⟨hv, .inr ⟨txt, a', f, rfl, htxt, hf⟩⟩, ⟨⟨_, rfl⟩, trivial, rfl⟩, .inr ⟨txt, a', f, rfl, htxt, hf⟩⟩
  | .blob n, r, r', path, v, v', es, h, _, _, _ => by
    simp only [Restored] at h
    obtain ⟨_, x, _, _, h, _⟩ := h
    exact (nomatch h)
  | .data n fs ver, r, r', path, v, v', es, h, heq, hw, hne => by
    simp only [Restored] at h
    obtain ⟨hcl, hr, hch, kvs, kvs', rfl, rfl, hfs⟩ := h
    have hr' : Reg.isSched r' = false := by
      match r', heq [] with
      | none, _ => rfl
      | some (.node _), _ => rfl
      | some (.sched t i a), h0 =>
        match r, hr, h0 with
        | none, _, h0 => simp [Reg.at] at h0
        | some (.node _), _, h0 => simp [Reg.at] at h0
    have hcne : ∀ k es, Reg.child r' k = some (.node es) → es ≠ [] := by
      intro k es h
      match r', hw, h with
      | some (.node es0), hw, h =>
        have := hw.2.mem (dget_mem h)
        simp only [Reg.WF] at this
        exact this.1
    have hch' : ∀ k, k ∉ fs.map Fld.name → Reg.child r' k = none := by
      intro k hk
      have := heq.child k
      rw [hch k hk] at this
      exact reg_none this (hw.child k) (hcne k)
    obtain ⟨g1, g2⟩ := restored_fitsF e fs r r' path kvs kvs' es hfs heq hw hcne
    simp only [Fits]
    exact ⟨⟨hcl, hr', hch', kvs, rfl, g1⟩, hcl, hr', hch', kvs', rfl, g2⟩
  | .union as, r, r', path, v, v', es, h, heq, hw, hne => by
    simp only [Restored] at h
    rcases h with ⟨rfl, h1, h2, rfl, _, rfl⟩ | ⟨ho, rfl, rfl, rfl, _, rfl⟩ | ⟨hopt, h⟩
    · have := reg_none heq hw (fun es h => hne es h rfl)
      subst this
      simp only [Fits]
      exact ⟨.inl ⟨trivial, h1, h2⟩, .inl ⟨trivial, h1, h2⟩⟩
    · have := reg_none heq hw (fun es h => hne es h rfl)
      subst this
      simp only [Fits]
      exact ⟨.inr (.inl ⟨ho, trivial, trivial⟩), .inr (.inl ⟨ho, trivial, trivial⟩)⟩
    · obtain ⟨g1, g2⟩ := restored_fitsH e as r r' path v v' es h heq hw (fun es h => hne es h rfl)
      simp only [Fits]
      exact ⟨.inr (.inr ⟨hopt, g1⟩), .inr (.inr ⟨hopt, g2⟩)⟩
  | .str, r, r', path, v, v', es, h, heq, hw, hne => by
    simp only [Restored] at h
    obtain ⟨rfl, h1, h2, rfl, _, rfl⟩ := h
    have := reg_none heq hw (fun es h => hne es h rfl)
    subst this
    simp only [Fits]
    exact ⟨⟨trivial, h1, h2⟩, trivial, h1, h2⟩
  | .bool, r, r', path, v, v', es, h, heq, hw, hne => by
    simp only [Restored] at h
    obtain ⟨rfl, h1, h2, rfl, _, rfl⟩ := h
    have := reg_none heq hw (fun es h => hne es h rfl)
    subst this
    simp only [Fits]
    exact ⟨⟨trivial, h1, h2⟩, trivial, h1, h2⟩
  | .noneT, r, r', path, v, v', es, h, heq, hw, hne => by
    simp only [Restored] at h
    obtain ⟨rfl, h1, h2, rfl, _, rfl⟩ := h
    have := reg_none heq hw (fun es h => hne es h rfl)
    subst this
    simp only [Fits]
    exact ⟨⟨trivial, h1, h2⟩, trivial, h1, h2⟩
  | .list _, r, r', path, v, v', es, h, heq, hw, hne => by
    simp only [Restored] at h
    obtain ⟨rfl, h1, h2, rfl, _, rfl⟩ := h
    have := reg_none heq hw (fun es h => hne es h rfl)
    subst this
    simp only [Fits]
    exact ⟨⟨trivial, h1, h2⟩, trivial, h1, h2⟩
  | .tuple _, r, r', path, v, v', es, h, heq, hw, hne => by
    simp only [Restored] at h
    obtain ⟨rfl, h1, h2, rfl, _, rfl⟩ := h
    have := reg_none heq hw (fun es h => hne es h rfl)
    subst this
    simp only [Fits]
    exact ⟨⟨trivial, h1, h2⟩, trivial, h1, h2⟩
  | .dict _ _, r, r', path, v, v', es, h, heq, hw, hne => by
    simp only [Restored] at h
    obtain ⟨rfl, h1, h2, rfl, _, rfl⟩ := h
    have := reg_none heq hw (fun es h => hne es h rfl)
    subst this
    simp only [Fits]
    exact ⟨⟨trivial, h1, h2⟩, trivial, h1, h2⟩
  | .enum _ _, r, r', path, v, v', es, h, heq, hw, hne => by
    simp only [Restored] at h
    obtain ⟨rfl, h1, h2, rfl, _, rfl⟩ := h
    have := reg_none heq hw (fun es h => hne es h rfl)
    subst this
    simp only [Fits]
    exact ⟨⟨trivial, h1, h2⟩, trivial, h1, h2⟩
  | .literal _, r, r', path, v, v', es, h, heq, hw, hne => by
    simp only [Restored] at h
    obtain ⟨rfl, h1, h2, rfl, _, rfl⟩ := h
    have := reg_none heq hw (fun es h => hne es h rfl)
    subst this
    simp only [Fits]
    exact ⟨⟨trivial, h1, h2⟩, trivial, h1, h2⟩
theorem restored_fitsH (e : Ext) : ∀ (ts : List PyTy) (r r' : Option Reg) (path : String) (v v' : Val) (es : List Ev),
    RestoredHead e ts r path v v' [] es → RegEqv r r' → WF? r' → (∀ es, r' = some (.node es) → es ≠ []) →
    FitsHead e false ts r' v ∧ FitsHead e false ts r' v'
  | [], r, r', path, v, v', es, h, _, _, _ => by simp [RestoredHead] at h
  | t :: ts, r, r', path, v, v', es, h, heq, hw, hne => by
    simp only [RestoredHead] at h
    simp only [FitsHead]
    exact restored_fits e t r r' path v v' es h heq hw (fun es h _ => hne es h)
theorem restored_fitsF (e : Ext) : ∀ (fs : List Fld) (r r' : Option Reg) (path : String) (kvs kvs' : List (String × Val)) (es : List Ev),
    RestoredFs e fs r path kvs kvs' [] es → RegEqv r r' → WF? r' → (∀ k es, Reg.child r' k = some (.node es) → es ≠ []) →
    FitsFs e false fs r' kvs ∧ FitsFs e false fs r' kvs'
  | [], r, r', path, kvs, kvs', es, h, _, _, _ => by
    simp only [RestoredFs] at h
    simp only [FitsFs]
    exact ⟨h.1, h.2.1⟩
  | .mk n t d :: fs, r, r', path, kvs, kvs', es, h, heq, hw, hne => by
    simp only [RestoredFs, RestoredF] at h
    obtain ⟨v, v', bs1, es1, rest, rest', bs2, es2, h1, h2, rfl, rfl, hb, rfl⟩ := h
    obtain ⟨rfl, rfl⟩ := List.append_eq_nil_iff.1 hb.symm
    obtain ⟨g1, g2⟩ := restored_fits e t _ (Reg.child r' n) _ v v' es1 h1 (heq.child n) (hw.child n) (fun es h _ => hne n es h)
    obtain ⟨g3, g4⟩ := restored_fitsF e fs r r' path rest rest' es2 h2 heq hw hne
    simp only [FitsFs, FitsF]
    exact ⟨⟨v, rest, rfl, g1, g3⟩, v', rest', rfl, g2, g4⟩
end

/-! ## what is loaded round trips -/

/-- a loaded config, in a class that round trips, with schedules at most two fields deep -/
theorem load_fits (w : World) {am file ig : Bool} {ron : RonParse} {n : String} {fs : List Fld} {ver : Option VerInfo} {doc : Val} {l : Loaded}
    (hty : TyOK w.ext (.data n fs ver)) (hid : IdsOK (.data n fs ver)) (hd : DeclOK (.data n fs ver)) (hf : FirmDecl (.data n fs ver))
    (hp : Plain doc) (hsh : Shallow am (.data n fs ver) 2 doc)
    (h : typedLoad (w.dcfg am file) ron .none ig (.data n fs ver) doc = .ok l) :
    Fits w.ext false (.data n fs ver) (some (.node l.schedules)) l.value ∧ Flat l.schedules ∧
      ∀ segs x, Reg.at (some (.node l.schedules)) segs = some x → segs.length ≤ 2 := by
  have hv := typedLoad_storable hd hf hp (by simp) rfl h
  simp only [typedLoad, bind, Except.bind, pure, Except.pure] at h
  cases hf : fromDict (w.dcfg am file) (.data n fs ver) ig "" doc with
  | error e => rw [hf] at h; exact (nomatch h)
  | ok q =>
    rw [hf] at h
    dsimp only at h
    obtain ⟨reg, h1, h2, h3⟩ := registry_of_load (v := q.1) (es := q.2) hid hsh hf
    rw [h1] at h
    cases h
    dsimp only at *
    obtain ⟨es', hres⟩ := restored_load (w.dcfg am file) (.data n fs ver) 2 ig "" (some (.node reg)) doc q.1 q.2 hty hid hsh hv hf
      (.inr ⟨rfl, fun k r' hc => h2.wf.mem (dget_mem hc)⟩) (fun segs x => h3 segs x.1 x.2)
    refine ⟨(restored_fits _ _ _ (some (.node reg)) _ _ _ _ hres (fun _ => rfl) ⟨h2.nodup, h2.wf⟩ (by simp [isData])).1, h2, ?_⟩
    intro segs x hx
    have hi := (h3 segs x.1 x.2).1 hx
    have hev := evs_load (w.dcfg am file) _ 2 ig "" doc q.1 q.2 hid hsh hf
    obtain ⟨segs', p1, p2, _⟩ := hev.sound _ (hev.complete segs x.1 x.2 hi)
    simp only [segsOf, if_true, List.nil_append] at p1
    rw [p1]; omega

/-- and what is read from a checkpoint -/
theorem reload_fits (w : World) {n : String} {fs : List Fld} {ver : Option VerInfo} {reg : RegD} {v : Val}
    (hfit : Fits w.ext false (.data n fs ver) (some (.node reg)) v) (henv : EnvOK w.env (.data n fs ver))
    (hmat : (materialize (.data n fs ver)).isOk = true)
    (hdepth : ∀ segs x, Reg.at (some (.node reg)) segs = some x → segs.length ≤ 2) (ig : Bool)
    {doc : Val} {bs : List (String × Val)} (hd : typedDump w.env (some reg) false v = .ok (doc, bs)) {l : Loaded}
    (hl : smLoadConfig w (.data n fs ver) (some doc) [] ig = .ok l) :
    Fits w.ext false (.data n fs ver) (some (.node l.schedules)) l.value ∧
      ∀ segs x, Reg.at (some (.node l.schedules)) segs = some x → segs.length ≤ 2 := by
  obtain ⟨doc', v', reg', es, h1, h2, h3, h4, h5⟩ := config_roundtrip_restored w hfit henv hmat hdepth ig
  rw [hd] at h1
  cases h1
  rw [hl] at h2
  cases h2
  refine ⟨(restored_fits _ _ _ (some (.node reg')) _ _ _ _ h5 h3 ⟨h4.nodup, h4.wf⟩ (by simp [isData])).2, ?_⟩
  intro segs x hx
  exact hdepth segs x (by rw [h3 segs]; exact hx)

/-- a config that round trips -/
def CfgFits (E : MgrEnv) (l : Loaded) (c : Val) : Prop :=
  Fits E.w.ext false E.cfgTy (some (.node l.schedules)) c ∧
    ∀ segs x, Reg.at (some (.node l.schedules)) segs = some x → segs.length ≤ 2

/-- stays one -/
theorem cfgFits_kept (E : MgrEnv) : KeptX E (CfgFits E) := by
  intro l c attrs htop h
  exact ⟨fits_applyDX _ _ _ _ _ _ _ (fun k r hm => dget_of_mem htop.1 hm) htop.2 h.1, h.2⟩

end HS
