import Verif.Spec.StateClass
import Verif.Proofs.Restore
import Verif.Proofs.Settled
import Verif.Proofs.ManagerExc
import Verif.Props.Restore
/-!
# the state of a manager fits its class at any time
-/
namespace HS

mutual
theorem storable_fits (e : Ext) (b : Bool) : ∀ (t : PyTy) (v : Val), TyOK e t → IdsOK t → Storable t v → Fits e b t none v
  | .int, v, _, _, h => by simp only [Fits]; exact ⟨h, .inl trivial⟩
  | .float, v, _, _, h => by simp only [Fits]; exact ⟨h, .inl trivial⟩
  | .blob n, v, ht, _, h => by simp [TyOK] at ht
  | .union as, v, ht, _, h => by simp only [Fits]; exact .inl ⟨trivial, ht, h⟩
  | .str, v, ht, _, h => by simp only [Fits]; exact ⟨trivial, ht, h⟩
  | .bool, v, ht, _, h => by simp only [Fits]; exact ⟨trivial, ht, h⟩
  | .noneT, v, ht, _, h => by simp only [Fits]; exact ⟨trivial, ht, h⟩
  | .list a, v, ht, _, h => by simp only [Fits]; exact ⟨trivial, ht, h⟩
  | .tuple as, v, ht, _, h => by simp only [Fits]; exact ⟨trivial, ht, h⟩
  | .dict k a, v, ht, _, h => by simp only [Fits]; exact ⟨trivial, ht, h⟩
  | .enum c ms, v, ht, _, h => by simp only [Fits]; exact ⟨trivial, ht, h⟩
  | .literal vs, v, ht, _, h => by simp only [Fits]; exact ⟨trivial, ht, h⟩
  | .data n fs ver, v, ht, hi, h => by
    simp only [TyOK] at ht
    simp only [IdsOK] at hi
    obtain ⟨h1, h2, _⟩ := h
    simp only [HasType] at h1
    obtain ⟨kvs, rfl, h1⟩ := h1
    simp only [Firm] at h2
    simp only [Fits]
    refine ⟨⟨ht.1, hi.2.1, ht.2.2.1, ht.2.2.2.1⟩, rfl, fun _ _ => rfl, kvs, rfl, ?_⟩
    exact storable_fitsF e b fs kvs ht.2.2.2.2 hi.2.2 h1 h2.1 h2.2
termination_by structural x => x
theorem storable_fitsF (e : Ext) (b : Bool) : ∀ (fs : List Fld) (kvs : List (String × Val)), FldsOK e fs → IdsOKf fs →
    HasFields true fs kvs → (∀ kv ∈ kvs, kv.2.isWeak = false) → FirmD kvs → FitsFs e b fs none kvs
  | [], kvs, _, _, h, _, _ => by simpa only [FitsFs, HasFields] using h
  | f :: fs, kvs, ht, hi, h, hw, hf => by
    simp only [FldsOK] at ht
    simp only [IdsOKf] at hi
    simp only [HasFields] at h
    obtain ⟨kv, rest, rfl, h1, h2⟩ := h
    obtain ⟨k, x⟩ := kv
    simp only [FirmD] at hf
    simp only [FitsFs]
    obtain ⟨g1, g2⟩ := storable_fits1 e b f k x ht.1 hi.1 h1 hf.1 (hw _ List.mem_cons_self)
    exact ⟨x, rest, by rw [g1], g2, storable_fitsF e b fs rest ht.2 hi.2 h2 (fun kv h => hw kv (List.mem_cons_of_mem _ h)) hf.2⟩
termination_by structural x => x
theorem storable_fits1 (e : Ext) (b : Bool) : ∀ (f : Fld) (k : String) (x : Val), FldOK e f → IdsOK1 f → HasField true f (k, x) →
    FirmP (k, x) → x.isWeak = false → k = f.name ∧ FitsF e b f none x
  | .mk n t d, k, x, ht, hi, h, hf, hw => by
    simp only [FldOK] at ht
    simp only [IdsOK1] at hi
    simp only [HasField] at h
    simp only [FirmP] at hf
    refine ⟨h.1, ?_⟩
    simp only [FitsF]
    exact storable_fits e b t x ht hi ⟨h.2, hf, hw⟩
termination_by structural x => x
end

/-! ## values of fields -/

theorem SerTy.not_tyOK {e : Ext} {t : PyTy} {c : String} (h : SerTy t c) : ¬ TyOK e t := by
  cases h with
  | ser => simp [TyOK]
  | opt _ => simp [TyOK, TyOKs]

theorem StVal.not_ser {e : Ext} {pay : String → Val → Prop} {t : PyTy} {v : Val} (h : StVal e pay t v) (ht : ∀ c, ¬ SerTy t c) :
    ∀ c y, v ≠ .ser c y := by
  cases h with
  | ser h _ => exact absurd h (ht _)
  | none h => exact absurd (.opt h) (ht _)
  | plain h _ hv =>
    intro c y he
    exact noSer e _ _ h hv.1 [] c y (by simp [valAt, he])

theorem StVal.of_ser {e : Ext} {pay : String → Val → Prop} {t : PyTy} {c : String} {y : Val} (h : StVal e pay t (.ser c y)) :
    SerTy t c ∧ pay c y := by
  cases h with
  | ser h1 h2 => exact ⟨h1, h2⟩
  | plain h _ hv => exact absurd (by simp [valAt]) (noSer e _ _ h hv.1 [] c y)

theorem StVal.direct {e : Ext} {pay : String → Val → Prop} {t : PyTy} {v : Val} (h : StVal e pay t v) (segs : List String) (c : String)
    (y : Val) (hv : valAt v segs = some (.ser c y)) : segs = [] := by
  cases segs with
  | nil => rfl
  | cons s segs =>
    cases h with
    | ser h _ => simp [valAt] at hv
    | none h => simp [valAt] at hv
    | plain h _ hv' => exact absurd hv (noSer e _ _ h hv'.1 _ c y)

theorem StVal.fits {e : Ext} {pay : String → Val → Prop} {t : PyTy} {v : Val} (h : StVal e pay t v) : Fits e true t Option.none v := by
  cases h with
  | ser h _ =>
    cases h with
    | ser c => simp [Fits]
    | opt h => simp [Fits, FitsHead, h]
  | none h => simp [Fits, h]
  | plain h hi hv => exact storable_fits e true _ _ h hi hv

/-! ## reads keep the values -/

theorem lazyGet_linv {L : LEnv} {saved : List (String × Val)}
    (hd : ∀ k c y, dget saved k = some (.ser c y) → ∀ vs, L.deser c y vs = .ok (.ser c y)) :
    ∀ (fuel : Nat) (o : LObj) (n : String), LInv L.disk saved o → LInv L.disk saved (lazyGet L fuel o n).obj := by
  intro fuel
  induction fuel with
  | zero => intro o n h; exact h
  | succ fuel ih =>
    have hall : ∀ (ns : List String) (o : LObj), LInv L.disk saved o → LInv L.disk saved (readAll (lazyGet L fuel) o ns).obj := by
      intro ns
      induction ns with
      | nil => intro o h; exact h
      | cons n ns ihn =>
        intro o h
        simp only [readAll]
        split
        · exact ih o n h
        · exact ihn _ (ih o n h)
    intro o n h
    simp only [lazyGet]
    split
    · rename_i e hl he
      split
      · exact h
      · rename_i payload hp
        split
        · exact h
        · have hds := hall (L.deps e.cls) o h
          split
          · exact hds
          · split
            · exact hds
            · rename_i _ vs _ _ v hv
              have hx : ∀ x, dget saved n = some x → v = x := by
                intro x hx
                rcases h n x hx with ⟨h1, _⟩ | ⟨c, y, f, rfl, h1, h2⟩
                · rw [he] at h1; exact (nomatch h1)
                · rw [he] at h1
                  cases h1
                  rw [hp] at h2
                  cases h2
                  rw [hd n c _ hx vs] at hv
                  cases hv
                  rfl
              split
              · intro k x hk
                simp only
                by_cases hkn : n = k
                · subst hkn
                  exact .inl ⟨by simp, by simp [hx x hk]⟩
                · rw [dget_ddel_ne _ hkn, dget_dset_ne _ _ hkn]
                  exact hds k x hk
              · intro k x hk
                simp only
                by_cases hkn : n = k
                · subst hkn
                  rename_i hno
                  simp only [dhas, Bool.not_eq_true] at hno
                  exact .inl ⟨by simpa using hno, by simp [hx x hk]⟩
                · rw [dget_dset_ne _ _ hkn]
                  exact hds k x hk
    · simp only [plainGet]
      split <;> exact h

theorem readAll_linv {L : LEnv} {saved : List (String × Val)}
    (hd : ∀ k c y, dget saved k = some (.ser c y) → ∀ vs, L.deser c y vs = .ok (.ser c y)) (fuel : Nat) :
    ∀ (ns : List String) (o : LObj), LInv L.disk saved o → LInv L.disk saved (readAll (lazyGet L fuel) o ns).obj := by
  intro ns
  induction ns with
  | nil => intro o h; exact h
  | cons n ns ihn =>
    intro o h
    simp only [readAll]
    split
    · exact lazyGet_linv hd fuel o n h
    · exact ihn _ (lazyGet_linv hd fuel o n h)

section
variable {E : MgrEnv} {pay : String → Val → Prop} {sn : String} {fs : List Fld} {ver : Option VerInfo}

theorem Vals.get {e : Ext} {saved : List (String × Val)} (h : Vals e pay fs saved) {k : String} {x : Val} (hk : dget saved k = some x) :
    ∃ f ∈ fs, f.name = k ∧ StVal e pay f.ty x := by
  have hm : k ∈ fs.map Fld.name := by
    rw [← h.names]
    exact List.mem_map.2 ⟨_, dget_mem hk, rfl⟩
  obtain ⟨f, hf, rfl⟩ := List.mem_map.1 hm
  exact ⟨f, hf, rfl, h.vals f hf x hk⟩

theorem Vals.deser (hC : StClass E pay sn fs ver) {saved : List (String × Val)} (h : Vals E.w.ext pay fs saved) :
    ∀ k c y, dget saved k = some (.ser c y) → ∀ vs, E.deser c y vs = .ok (.ser c y) := by
  intro k c y hk vs
  obtain ⟨f, hf, _, hv⟩ := h.get hk
  obtain ⟨h1, h2⟩ := hv.of_ser
  exact hC.deser f hf c h1 y vs h2

theorem ObjOK.reads (hC : StClass E pay sn fs ver) {m : Mgr} {o o' : LObj} (h : ObjOK E.w.ext pay sn fs (dget (m.blobs E)) o)
    (hr : FromReads (m.lenv E) E.depth o o') : ObjOK E.w.ext pay sn fs (dget (m.blobs E)) o' := by
  obtain ⟨ks, rfl⟩ := hr
  obtain ⟨h1, saved, h2, h3⟩ := h
  refine ⟨?_, saved, h2, readAll_linv (L := m.lenv E) (h2.deser hC) E.depth ks o h3⟩
  rw [(readAll_ext (lazyGet_ext (m.lenv E) E.depth) ks o).cls]
  exact h1

theorem ObjOK.set (hC : StClass E pay sn fs ver) {disk : String → Option Val} {o : LObj} (h : ObjOK E.w.ext pay sn fs disk o)
    {k : String} {v : Val} (hv : MOp.Typed E.w.ext pay fs (.setState k v)) : ObjOK E.w.ext pay sn fs disk (lazySet o k v) := by
  obtain ⟨h1, saved, h2, h3⟩ := h
  cases hs : dget saved k with
  | none =>
    refine ⟨h1, saved, h2, ?_⟩
    intro j x hj
    have hne : k ≠ j := by rintro rfl; rw [hs] at hj; exact (nomatch hj)
    simp only [lazySet, dget_dset_ne _ _ hne]
    exact h3 j x hj
  | some y =>
    cases hu : dget o.unloaded k with
    | none =>
      refine ⟨h1, dset saved k v, ⟨?_, ?_⟩, ?_⟩
      · rw [← h2.names]
        exact dkeys_dset_of_mem _ hs
      · intro f hf x hx
        by_cases hk : k = f.name
        · subst hk
          rw [dget_dset_self] at hx
          cases hx
          exact hv f hf rfl
        · rw [dget_dset_ne _ _ hk] at hx
          exact h2.vals f hf x hx
      · intro j x hj
        by_cases hk : k = j
        · subst hk
          rw [dget_dset_self] at hj
          cases hj
          exact .inl ⟨hu, by simp [lazySet]⟩
        · rw [dget_dset_ne _ _ hk] at hj
          simp only [lazySet, dget_dset_ne _ _ hk]
          exact h3 j x hj
    | some e =>
      refine ⟨h1, saved, h2, ?_⟩
      intro j x hj
      by_cases hk : k = j
      · subst hk
        rcases h3 k x hj with ⟨h4, _⟩ | h4
        · rw [hu] at h4; exact (nomatch h4)
        · exact .inr h4
      · simp only [lazySet, dget_dset_ne _ _ hk]
        exact h3 j x hj

/-- the state of the manager, or what it will be loaded from, is fine -/
def StInv (E : MgrEnv) (pay : String → Val → Prop) (sn : String) (fs : List Fld) (m : Mgr) : Prop :=
  (∀ o, m.state = some o → ObjOK E.w.ext pay sn fs (dget (m.blobs E)) o) ∧
  (m.state = none → match m.last with
    | some n => ∀ f, dget m.disk n = some (.full f) → FilesOK E pay sn fs f
    | none => InitOK E pay sn fs)

theorem StInv.config {m : Mgr} (h : StInv E pay sn fs m) (v : Option Val) (s : RegD) :
    StInv E pay sn fs { m with config := v, schedules := s } := h

theorem configX_st : Trip (StInv E pay sn fs) (configX E) (fun c m => StInv E pay sn fs m ∧ m.config = some c) (StInv E pay sn fs) :=
  configX_keeps fun _ _ _ h _ => h

/-- the config is read, nothing else changes -/
theorem configX_frame (E : MgrEnv) (m : Mgr) : (configX E m).2.state = m.state ∧ (configX E m).2.last = m.last ∧
    (configX E m).2.disk = m.disk ∧ (configX E m).2.src = m.src := by
  simp only [configX]
  split
  · exact ⟨rfl, rfl, rfl, rfl⟩
  · split <;> exact ⟨rfl, rfl, rfl, rfl⟩

theorem loadStateX_st (hC : StClass E pay sn fs ver) :
    Trip (fun m => StInv E pay sn fs m ∧ m.state = none) (loadStateX E)
      (fun q m => ObjOK E.w.ext pay sn fs (dget (Mgr.blobs E { m with state := some q.1, src := q.2 })) q.1)
      (StInv E pay sn fs) := by
  rintro m ⟨h, hn⟩
  have h2 := h.2 hn
  have hcfg := configX_frame E m
  have hcst := configX_st (E := E) m h
  simp only [loadStateX, Call.bind_eq, Call.self_eq]
  cases hl : m.last with
  | some n =>
    rw [hl] at h2
    simp only [Call.bind_eq, Call.lift_eq, Call.pure_eq]
    split at hcst
    · rename_i c m' hx
      rw [hx] at hcfg
      simp only [ckptFiles] at hcfg ⊢
      cases hd : dget m.disk n with
      | none => exact hcst.1
      | some ent =>
        cases ent with
        | broken => exact hcst.1
        | file => exact hcst.1
        | full f =>
          simp only
          cases ho : loadStateObj E f.state with
          | error e => exact hcst.1
          | ok o =>
            simp only [Mgr.blobs, hcfg.2.2.1, hd]
            exact h2 f hd o ho
    · rename_i e m' hx
      exact hcst
  | none =>
    rw [hl] at h2
    cases hi : E.init with
    | dir f =>
      simp only [Call.bind_eq, Call.lift_eq, Call.pure_eq]
      split at hcst
      · rename_i c m' hx
        cases ho : loadStateObj E f.state with
        | error e => exact hcst.1
        | ok o =>
          simp only [Mgr.blobs, hi]
          exact h2.1 f hi o ho
      · rename_i e m' hx
        exact hcst
    | _ =>
      simp only [Call.bind_eq, Call.lift_eq, Call.pure_eq]
      split at hcst
      · rename_i c m' hx
        cases ho : E.initial c with
        | error e => exact hcst.1
        | ok q =>
          obtain ⟨cls, kvs⟩ := q
          obtain ⟨g1, saved, g2, g3⟩ := h2.2 (by simp [hi]) c cls kvs ho
          exact ⟨g1, saved, g2, fun k x hk => .inl ⟨rfl, g3 k x hk⟩⟩
      · rename_i e m' hx
        exact hcst

theorem stateX_st (hC : StClass E pay sn fs ver) :
    Trip (StInv E pay sn fs) (stateX E) (fun o m => StInv E pay sn fs m ∧ m.state = some o) (StInv E pay sn fs) := by
  refine Trip.self.bind fun m => ?_
  split
  · rename_i o ho
    refine Trip.pure ?_
    rintro m' ⟨rfl, h⟩
    exact ⟨h, ho⟩
  · rename_i hn
    refine ((loadStateX_st hC).weaken (by rintro m' ⟨rfl, h⟩; exact ⟨h, hn⟩) (fun _ m h => h) (fun m h => h)).bind fun q => ?_
    refine (Trip.modify (Q := fun _ m => StInv E pay sn fs m ∧ m.state = some q.1) fun m h => ⟨⟨?_, ?_⟩, rfl⟩).bind fun _ => ?_
    · intro o ho
      cases ho
      exact h
    · intro h; exact (nomatch h)
    · refine ((applyX_keeps (P := fun m => StInv E pay sn fs m ∧ m.state = some q.1) (configX_keeps fun m v s hm hc => hm)
        (fun m c hm hs => hm) q.1).weaken (fun m h => h) (fun _ m h => h) (fun m h => h.1)).bind fun _ => Trip.pure fun m h => h

theorem StInv.reads (hC : StClass E pay sn fs ver) : ∀ m o o' (r : List String), StInv E pay sn fs m → m.state = some o → LExt o o' r →
    FromReads (m.lenv E) E.depth o o' → StInv E pay sn fs { m with state := some o' } := by
  intro m o o' r h hst _ hr
  refine ⟨?_, fun h => (nomatch h)⟩
  intro o2 ho
  cases ho
  exact (h.1 o hst).reads hC hr

/-- operations other than `step`, whatever their outcome -/
theorem execX_st (hC : StClass E pay sn fs ver) {m : Mgr} (h : StInv E pay sn fs m) (op : MOp) (hop : ∀ mv, op ≠ .step mv)
    (ht : op.Typed E.w.ext pay fs) : StInv E pay sn fs (m.execX E op).2 := by
  have hs := stateX_st hC
  have hc := configX_st (E := E) (pay := pay) (sn := sn) (fs := fs)
  have ho := StInv.reads hC
  cases op with
  | readConfig => exact (hc.bind fun _ => Trip.pure (Q := fun _ => StInv E pay sn fs) fun m h => h.1).both (fun _ _ h => h) h
  | getState k => exact ((getStateX_keeps hs ho k).bind fun _ => Trip.pure (Q := fun _ => StInv E pay sn fs) fun m h => h).both (fun _ _ h => h) h
  | setState k v =>
    refine (hs.bind fun o => Trip.modify (Q := fun _ => StInv E pay sn fs) ?_).both (fun _ _ h => h) h
    rintro m ⟨h, hst⟩
    refine ⟨?_, fun h => (nomatch h)⟩
    intro o2 ho2
    cases ho2
    exact (h.1 o hst).set hC ht
  | step mv => exact absurd rfl (hop mv)
  | configDict => exact ((configDictX_keeps hc).bind fun _ => Trip.pure (Q := fun _ => StInv E pay sn fs) fun m h => h).both (fun _ _ h => h) h
  | checkpoint => exact ((checkpointX_keeps hc hs ho).bind fun _ => Trip.pure (Q := fun _ => StInv E pay sn fs) fun m h => h).both (fun _ _ h => h) h

/-- a step that raises -/
theorem stepX_st (hC : StClass E pay sn fs ver) {m : Mgr} (h : StInv E pay sn fs m) (mv : Move) {e : Err}
    (he : (m.execX E (.step mv)).1 = .error e) (hd : (m.execX E (.step mv)).2.disk = m.disk) :
    StInv E pay sn fs (m.execX E (.step mv)).2 := by
  have hc : Trip (fun m' => StInv E pay sn fs m' ∧ m'.disk = m.disk ∧ m'.last = m.last) (configX E)
      (fun c m' => (StInv E pay sn fs m' ∧ m'.disk = m.disk ∧ m'.last = m.last) ∧ m'.config = some c)
      (fun m' => StInv E pay sn fs m' ∧ m'.disk = m.disk ∧ m'.last = m.last) := configX_keeps fun _ _ _ h _ => h
  have hs : Trip (fun m' => StInv E pay sn fs m' ∧ m'.disk = m.disk ∧ m'.last = m.last) (stateX E)
      (fun o m' => (StInv E pay sn fs m' ∧ m'.disk = m.disk ∧ m'.last = m.last) ∧ m'.state = some o)
      (fun m' => StInv E pay sn fs m' ∧ m'.disk = m.disk ∧ m'.last = m.last) := by
    intro m1 hm1
    have h1 := stateX_st hC m1 hm1.1
    have h2 := stateX_keeps (E := E) (P := fun m' => m'.disk = m.disk ∧ m'.last = m.last) (fun _ _ _ h _ => h) (fun _ _ h _ => h)
      (fun _ _ _ h => h) m1 hm1.2
    split at h1
    · rename_i hx; rw [hx] at h2; exact ⟨⟨h1.1, h2.1⟩, h1.2⟩
    · rename_i hx; rw [hx] at h2; exact ⟨h1, h2⟩
  have := stepX_keeps (E := E) (P := fun m' => StInv E pay sn fs m' ∧ m'.disk = m.disk ∧ m'.last = m.last) (S := fun _ => True)
    (R := fun m' => m'.disk = m.disk → StInv E pay sn fs m') (fun _ _ _ => trivial) (fun m' h _ => h.1) hc hs
    (fun _ _ h _ => h) (fun m1 o o' r h1 h2 h3 h4 => ⟨StInv.reads hC m1 o o' r h1.1 h2 h3 h4, h1.2⟩) mv (fun m h => h.2)
    (fun _ _ _ _ _ _ _ => trivial) (by
      intro m' val files ops h1 _ h2
      simp only at h2
      rw [h2, ← h1.2.1]
      exact h1.1) m ⟨h, rfl, rfl⟩
  simp only [Mgr.execX] at he hd ⊢
  split at this
  · rename_i hx; rw [hx] at he; exact (nomatch he)
  · rename_i hx; rw [hx] at hd ⊢; exact this hd

/-- after a step that wrote a checkpoint, nothing is left to be read from a file -/
theorem step_st (hC : StClass E pay sn fs ver) (hck : E.ckpt = true) {m m' : Mgr} (hI : MInv m) (h : StInv E pay sn fs m) {mv : Move} (hstep : m.step E mv = .ok m')
    {key : Int} (hkey : ∃ m'', m'.getState E E.key = .ok (.int key, m'')) (hfresh : dhas m.disk (ckptName E.key key) = false) :
    ∃ o, m'.state = some o ∧ o.cls = sn ∧ ∃ saved, Vals E.w.ext pay fs saved ∧ ∀ k x, dget saved k = some x →
      dget o.unloaded k = none ∧ dget o.attrs k = some x := by
  obtain ⟨o, m0, m1, hr, ha, j1, ⟨c1, hc1, hcur⟩, hst, hlast, hdisk, hfin⟩ := step_inv hI hstep
  rcases hfin with ⟨hno, _⟩ | ⟨_, c', kv, val', files, o', d', l', hc', hkv, hval', hor, hrun, rfl⟩
  · rw [hck] at hno; exact (nomatch hno)
  -- the state before it is written
  have h0 := stateX_st hC m h
  rw [((hr ▸ stateX_agree E m : Agrees (.ok (o, m0)) (stateX E m))).ok rfl] at h0
  have h1 := applyX_keeps (E := E) (P := StInv E pay sn fs) configX_st (fun _ _ h _ => h) o m0 h0.1
  have ha1 := applyX_agree E m0 o
  rw [ha] at ha1
  rw [ha1.ok rfl] at h1
  have hk1 := StInv.reads hC m1 o _ _ h1 hst (lazyGet_ext _ _ _ _) (fromReads_get _ _ o E.key)
  have hdp : E.depth ≠ 0 := by
    intro hd
    simp [hd, lazyGet] at hkv
  have hkset := lazyGet_settled _ _ _ _ _ hkv
  have hkv' : kv = .int key := by
    obtain ⟨m'', hm⟩ := hkey
    have : Settled E.stLazy o' E.key kv := by
      rcases hor with ⟨_, rfl⟩ | ⟨_, hdump⟩
      · exact hkset
      · obtain ⟨_, _, vs, _, _, _, hvs, _, _, rfl⟩ := dump_inv hdump
        exact (readAll_settled _ _ _ _ _ hvs).2.1 _ _ hkset
    rw [getState_settled rfl this hdp] at hm
    cases hm
    rfl
  subst hkv'
  simp only [ckptVal, Except.ok.injEq] at hval'
  subst hval'
  rcases hor with ⟨hdh, _⟩ | ⟨_, hdump⟩
  · rw [hfresh] at hdh; exact (nomatch hdh)
  obtain ⟨_, _, vs, _, _, _, hvs, _, _, ho'⟩ := dump_inv hdump
  have hk2 := (hk1.1 _ rfl).reads hC (o' := o') ⟨_, ho'⟩
  obtain ⟨g1, saved, g2, g3⟩ := hk2
  refine ⟨o', rfl, g1, saved, g2, ?_⟩
  intro k x hk
  rcases g3 k x hk with h | ⟨c, y, f, rfl, hu, _⟩
  · exact h
  · exfalso
    obtain ⟨fld, hf, hn, hv⟩ := g2.get hk
    have hl := hC.lazy fld hf c hv.of_ser.1
    obtain ⟨hlen, _, hset⟩ := readAll_settled _ _ _ _ _ hvs
    have hm : k ∈ E.stTy.fieldNames := by
      rw [hC.ty]
      exact List.mem_map.2 ⟨fld, hf, hn⟩
    obtain ⟨i, hi, rfl⟩ := List.mem_iff_getElem.1 hm
    have hiv : i < vs.length := by omega
    have := hset E.stTy.fieldNames[i] vs[i] (List.mem_iff_getElem.2 ⟨i, by simp only [List.length_zip]; omega, List.getElem_zip⟩)
    rw [← ho'] at this
    rw [this.2 hl] at hu
    exact (nomatch hu)

theorem Vals.fitsFs {e : Ext} : ∀ (fs : List Fld) (saved : List (String × Val)), (fs.map Fld.name).Nodup → Vals e pay fs saved →
    FitsFs e true fs none saved
  | [], saved, _, h => by
    have := h.names
    cases saved with
    | nil => rfl
    | cons => simp [dkeys] at this
  | f :: fs, saved, hn, h => by
    obtain ⟨n1, v1⟩ := h
    cases saved with
    | nil => simp [dkeys] at n1
    | cons kv rest =>
      obtain ⟨k, x⟩ := kv
      simp only [dkeys, List.map_cons, List.cons.injEq] at n1
      obtain ⟨rfl, n1⟩ := n1
      simp only [List.map_cons, List.nodup_cons] at hn
      refine ⟨x, rest, rfl, ?_, Vals.fitsFs fs rest hn.2 ⟨n1, ?_⟩⟩
      · have := (v1 f List.mem_cons_self x (by simp [dget])).fits
        cases f
        exact this
      · intro g hg y hy
        refine v1 g (List.mem_cons_of_mem _ hg) y ?_
        have : f.name ≠ g.name := fun he => hn.1 (he ▸ List.mem_map.2 ⟨g, hg, rfl⟩)
        simp [dget, this, hy]

theorem Vals.fits (hC : StClass E pay sn fs ver) {saved : List (String × Val)} (h : Vals E.w.ext pay fs saved) :
    Fits E.w.ext true E.stTy none (.inst sn saved) := by
  rw [hC.ty]
  simp only [Fits]
  exact ⟨hC.ok, rfl, fun _ _ => rfl, saved, rfl, Vals.fitsFs fs saved hC.ok.1 h⟩

end

end HS
