import Verif.Proofs.Apply
import Verif.Proofs.Lazy
/-!
# Lemmas about checkpoints: schedules and blobs together
-/
namespace HS

/-! ## values without blobs -/

mutual
theorem noSer (e : Ext) : ∀ (t : PyTy) (v : Val), TyOK e t → HasType true t v → ∀ segs c y, valAt v segs ≠ some (.ser c y)
  | .int, v, _, hv, segs, c, y => by
    simp only [HasType] at hv
    rcases hv with ⟨i, rfl⟩ | ⟨b, rfl⟩ <;> cases segs <;> simp [valAt]
  | .float, v, _, hv, segs, c, y => by
    simp only [HasType] at hv; obtain ⟨f, rfl⟩ := hv; cases segs <;> simp [valAt]
  | .str, v, _, hv, segs, c, y => by
    simp only [HasType] at hv; obtain ⟨f, rfl⟩ := hv; cases segs <;> simp [valAt]
  | .bool, v, _, hv, segs, c, y => by
    simp only [HasType] at hv; obtain ⟨f, rfl⟩ := hv; cases segs <;> simp [valAt]
  | .noneT, v, _, hv, segs, c, y => by
    simp only [HasType] at hv; subst hv; cases segs <;> simp [valAt]
  | .list a, v, _, hv, segs, c, y => by
    simp only [HasType] at hv; obtain ⟨f, rfl, _⟩ := hv; cases segs <;> simp [valAt]
  | .tuple as, v, _, hv, segs, c, y => by
    simp only [HasType] at hv; obtain ⟨f, rfl, _⟩ := hv; cases segs <;> simp [valAt]
  | .dict a b, v, _, hv, segs, c, y => by
    simp only [HasType] at hv; obtain ⟨f, rfl, _⟩ := hv; cases segs <;> simp [valAt]
  | .enum n ms, v, _, hv, segs, c, y => by
    simp only [HasType] at hv; obtain ⟨f, w, _, rfl⟩ := hv; cases segs <;> simp [valAt]
  | .literal vs, v, ht, hv, segs, c, y => by
    simp only [HasType] at hv
    simp only [TyOK] at ht
    have hl : LitOK v ∨ ∃ f, v = .flt f := by
      rcases hv with hv | ⟨_, x, hx, h⟩
      · exact .inl (ht v hv).2
      · exact pyEq_lit v x (ht x hx).2 h
    rcases hl with hl | ⟨f, rfl⟩
    · cases v <;> simp only [LitOK] at hl <;> cases segs <;> simp [valAt]
    · cases segs <;> simp [valAt]
  | .blob n, v, ht, _, _, _, _ => by simp [TyOK] at ht
  | .union as, v, ht, hv, segs, c, y => by
    simp only [HasType] at hv
    simp only [TyOK] at ht
    exact noSerA e as v ht.1 hv segs c y
  | .data n fs ver, v, ht, hv, segs, c, y => by
    simp only [HasType] at hv
    simp only [TyOK] at ht
    obtain ⟨kvs, rfl, hf⟩ := hv
    cases segs with
    | nil => simp [valAt]
    | cons s segs =>
      simp only [valAt]
      cases hd : dget kvs s with
      | none => simp
      | some x => exact noSerF e fs kvs ht.2.2.2.2 hf s x hd segs c y
theorem noSerA (e : Ext) : ∀ (ts : List PyTy) (v : Val), TyOKs e ts → HasTypeAny true ts v →
    ∀ segs c y, valAt v segs ≠ some (.ser c y)
  | [], v, _, hv => by simp [HasTypeAny] at hv
  | t :: ts, v, ht, hv => by
    simp only [TyOKs] at ht
    simp only [HasTypeAny] at hv
    rcases hv with hv | hv
    · exact noSer e t v ht.1 hv
    · exact noSerA e ts v ht.2 hv
theorem noSerF (e : Ext) : ∀ (fs : List Fld) (kvs : List (String × Val)), FldsOK e fs → HasFields true fs kvs →
    ∀ k x, dget kvs k = some x → ∀ segs c y, valAt x segs ≠ some (.ser c y)
  | [], kvs, _, hv, k, x, hd => by simp only [HasFields] at hv; subst hv; simp [dget] at hd
  | .mk n t d :: fs, kvs, ht, hv, k, x, hd => by
    simp only [FldsOK, FldOK] at ht
    simp only [HasFields, HasField] at hv
    obtain ⟨⟨k', v⟩, rest, rfl, ⟨rfl, hv1⟩, hv2⟩ := hv
    simp only [dget] at hd
    split at hd
    · cases hd; exact noSer e t _ ht.1 hv1
    · exact noSerF e fs rest ht.2 hv2 k x hd
end

/-! ## values that fit a registry are restored -/

mutual
theorem fits_restored (e : Ext) (b : Bool) : ∀ (t : PyTy) (r : Option Reg) (path : String) (v : Val), Fits e b t r v →
    ∃ v' bs es, Restored e t r path v v' bs es ∧ (b = false → bs = [])
  | .int, r, path, v, h => by
    simp only [Fits] at h
    obtain ⟨hv, rfl | ⟨txt, a, f, i, rfl, h1, h2, h3⟩⟩ := h
    · exact ⟨v, [], [], by unfold Restored; exact ⟨hv, rfl, .inl ⟨rfl, rfl, rfl⟩⟩, fun _ => rfl⟩
    · exact ⟨.int i, [], [.sched path txt true], by
        unfold Restored; exact ⟨hv, rfl, .inr ⟨txt, a, f, i, rfl, h1, h2, h3, rfl, rfl⟩⟩, fun _ => rfl⟩
  | .float, r, path, v, h => by
    simp only [Fits] at h
    obtain ⟨hv, rfl | ⟨txt, a, f, rfl, h1, h2⟩⟩ := h
    · exact ⟨v, [], [], by unfold Restored; exact ⟨hv, rfl, .inl ⟨rfl, rfl, rfl⟩⟩, fun _ => rfl⟩
    · exact ⟨.flt f, [], [.sched path txt false], by
        unfold Restored; exact ⟨hv, rfl, .inr ⟨txt, a, f, rfl, h1, h2, rfl, rfl⟩⟩, fun _ => rfl⟩
  | .blob n, r, path, v, h => by
    simp only [Fits] at h
    obtain ⟨hb, rfl, x, rfl⟩ := h
    exact ⟨.none, [(blobFile path, x)], [.lazy path n (blobFile path) false], by
      unfold Restored; exact ⟨rfl, x, rfl, rfl, rfl, rfl⟩, fun h => by simp [hb] at h⟩
  | .data n fs ver, r, path, v, h => by
    simp only [Fits] at h
    obtain ⟨hcl, hr, hch, kvs, rfl, hf⟩ := h
    obtain ⟨kvs', bs, es, h1, h2⟩ := fits_restoredF e b fs r path kvs hf
    exact ⟨.inst n kvs', bs, es, by unfold Restored; exact ⟨hcl, hr, hch, kvs, kvs', rfl, rfl, h1⟩, h2⟩
  | .union as, r, path, v, h => by
    simp only [Fits] at h
    rcases h with ⟨rfl, ht, hv⟩ | ⟨ho, rfl, rfl⟩ | ⟨ho, h⟩
    · exact ⟨v, [], [], by unfold Restored; exact .inl ⟨rfl, ht, hv, rfl, rfl, rfl⟩, fun _ => rfl⟩
    · exact ⟨.none, [], [], by unfold Restored; exact .inr (.inl ⟨ho, rfl, rfl, rfl, rfl, rfl⟩), fun _ => rfl⟩
    · obtain ⟨v', bs, es, h1, h2⟩ := fits_restoredH e b as r path v h
      exact ⟨v', bs, es, by unfold Restored; exact .inr (.inr ⟨ho, h1⟩), h2⟩
  | .str, r, path, v, h => by
    simp only [Fits] at h
    exact ⟨v, [], [], by unfold Restored; exact ⟨h.1, h.2.1, h.2.2, rfl, rfl, rfl⟩, fun _ => rfl⟩
  | .bool, r, path, v, h => by
    simp only [Fits] at h
    exact ⟨v, [], [], by unfold Restored; exact ⟨h.1, h.2.1, h.2.2, rfl, rfl, rfl⟩, fun _ => rfl⟩
  | .noneT, r, path, v, h => by
    simp only [Fits] at h
    exact ⟨v, [], [], by unfold Restored; exact ⟨h.1, h.2.1, h.2.2, rfl, rfl, rfl⟩, fun _ => rfl⟩
  | .list _, r, path, v, h => by
    simp only [Fits] at h
    exact ⟨v, [], [], by unfold Restored; exact ⟨h.1, h.2.1, h.2.2, rfl, rfl, rfl⟩, fun _ => rfl⟩
  | .tuple _, r, path, v, h => by
    simp only [Fits] at h
    exact ⟨v, [], [], by unfold Restored; exact ⟨h.1, h.2.1, h.2.2, rfl, rfl, rfl⟩, fun _ => rfl⟩
  | .dict _ _, r, path, v, h => by
    simp only [Fits] at h
    exact ⟨v, [], [], by unfold Restored; exact ⟨h.1, h.2.1, h.2.2, rfl, rfl, rfl⟩, fun _ => rfl⟩
  | .enum _ _, r, path, v, h => by
    simp only [Fits] at h
    exact ⟨v, [], [], by unfold Restored; exact ⟨h.1, h.2.1, h.2.2, rfl, rfl, rfl⟩, fun _ => rfl⟩
  | .literal _, r, path, v, h => by
    simp only [Fits] at h
    exact ⟨v, [], [], by unfold Restored; exact ⟨h.1, h.2.1, h.2.2, rfl, rfl, rfl⟩, fun _ => rfl⟩
theorem fits_restoredH (e : Ext) (b : Bool) : ∀ (ts : List PyTy) (r : Option Reg) (path : String) (v : Val), FitsHead e b ts r v →
    ∃ v' bs es, RestoredHead e ts r path v v' bs es ∧ (b = false → bs = [])
  | [], r, path, v, h => by simp [FitsHead] at h
  | t :: ts, r, path, v, h => by
    simp only [FitsHead] at h
    simp only [RestoredHead]
    exact fits_restored e b t r path v h
theorem fits_restoredF (e : Ext) (b : Bool) : ∀ (fs : List Fld) (r : Option Reg) (path : String) (kvs : List (String × Val)),
    FitsFs e b fs r kvs → ∃ kvs' bs es, RestoredFs e fs r path kvs kvs' bs es ∧ (b = false → bs = [])
  | [], r, path, kvs, h => by
    simp only [FitsFs] at h
    subst h
    exact ⟨[], [], [], by simp [RestoredFs], fun _ => rfl⟩
  | .mk n t d :: fs, r, path, kvs, h => by
    simp only [FitsFs, FitsF] at h
    obtain ⟨v, rest, rfl, h1, h2⟩ := h
    obtain ⟨v', bs1, es1, h3, h4⟩ := fits_restored e b t _ (joinPath path n) v h1
    obtain ⟨rest', bs2, es2, h5, h6⟩ := fits_restoredF e b fs r path rest h2
    refine ⟨(n, v') :: rest', bs1 ++ bs2, es1 ++ es2, ?_, fun hb => by rw [h4 hb, h6 hb]; rfl⟩
    unfold RestoredFs; unfold RestoredF
    exact ⟨v, v', bs1, es1, rest, rest', bs2, es2, h3, h5, rfl, rfl, rfl, rfl⟩
end

/-! ## without schedules and blobs nothing changes -/

mutual
theorem restored_plain (e : Ext) : ∀ (t : PyTy) (path : String) (v v' : Val) (es : List Ev),
    Restored e t none path v v' [] es → v' = v ∧ es = []
  | .int, path, v, v', es, h => by
    simp only [Restored] at h
    obtain ⟨hv, _, ⟨_, rfl, rfl⟩ | ⟨txt, a, f, i, h, _⟩⟩ := h
    · exact ⟨rfl, rfl⟩
    · exact (nomatch h)
  | .float, path, v, v', es, h => by
    simp only [Restored] at h
    obtain ⟨hv, _, ⟨_, rfl, rfl⟩ | ⟨txt, a, f, h, _⟩⟩ := h
    · exact ⟨rfl, rfl⟩
    · exact (nomatch h)
  | .blob n, path, v, v', es, h => by
    simp only [Restored] at h
    obtain ⟨_, x, _, _, h, _⟩ := h
    exact (nomatch h)
  | .data n fs ver, path, v, v', es, h => by
    simp only [Restored] at h
    obtain ⟨_, _, _, kvs, kvs', rfl, rfl, hf⟩ := h
    obtain ⟨rfl, rfl⟩ := restored_plainF e fs path kvs kvs' es hf
    exact ⟨rfl, rfl⟩
  | .union as, path, v, v', es, h => by
    simp only [Restored] at h
    rcases h with ⟨_, _, _, rfl, _, rfl⟩ | ⟨_, _, rfl, rfl, _, rfl⟩ | ⟨_, h⟩
    · exact ⟨rfl, rfl⟩
    · exact ⟨rfl, rfl⟩
    · exact restored_plainH e as path v v' es h
  | .str, path, v, v', es, h => by simp only [Restored] at h; exact ⟨h.2.2.2.1, h.2.2.2.2.2⟩
  | .bool, path, v, v', es, h => by simp only [Restored] at h; exact ⟨h.2.2.2.1, h.2.2.2.2.2⟩
  | .noneT, path, v, v', es, h => by simp only [Restored] at h; exact ⟨h.2.2.2.1, h.2.2.2.2.2⟩
  | .list _, path, v, v', es, h => by simp only [Restored] at h; exact ⟨h.2.2.2.1, h.2.2.2.2.2⟩
  | .tuple _, path, v, v', es, h => by simp only [Restored] at h; exact ⟨h.2.2.2.1, h.2.2.2.2.2⟩
  | .dict _ _, path, v, v', es, h => by simp only [Restored] at h; exact ⟨h.2.2.2.1, h.2.2.2.2.2⟩
  | .enum _ _, path, v, v', es, h => by simp only [Restored] at h; exact ⟨h.2.2.2.1, h.2.2.2.2.2⟩
  | .literal _, path, v, v', es, h => by simp only [Restored] at h; exact ⟨h.2.2.2.1, h.2.2.2.2.2⟩
theorem restored_plainH (e : Ext) : ∀ (ts : List PyTy) (path : String) (v v' : Val) (es : List Ev),
    RestoredHead e ts none path v v' [] es → v' = v ∧ es = []
  | [], _, _, _, _, h => by simp [RestoredHead] at h
  | t :: ts, path, v, v', es, h => by simp only [RestoredHead] at h; exact restored_plain e t path v v' es h
theorem restored_plainF (e : Ext) : ∀ (fs : List Fld) (path : String) (kvs kvs' : List (String × Val)) (es : List Ev),
    RestoredFs e fs none path kvs kvs' [] es → kvs' = kvs ∧ es = []
  | [], path, kvs, kvs', es, h => by
    simp only [RestoredFs] at h
    obtain ⟨rfl, rfl, _, rfl⟩ := h
    exact ⟨rfl, rfl⟩
  | .mk n t d :: fs, path, kvs, kvs', es, h => by
    simp only [RestoredFs, RestoredF, Reg.child] at h
    obtain ⟨v, v', bs1, es1, rest, rest', bs2, es2, h1, h2, rfl, rfl, hb, rfl⟩ := h
    obtain ⟨rfl, rfl⟩ : bs1 = [] ∧ bs2 = [] := by
      have := hb.symm
      simpa using this
    obtain ⟨rfl, rfl⟩ := restored_plain e t _ v v' es1 h1
    obtain ⟨rfl, rfl⟩ := restored_plainF e fs path rest rest' es2 h2
    exact ⟨rfl, rfl⟩
end

/-! ## blobs -/

def Ev.lazy? : Ev → Option String
  | .lazy p _ _ _ => some p
  | _ => none

def lazyPaths (es : List Ev) : List String := es.filterMap Ev.lazy?

theorem lazyPaths_append (a b : List Ev) : lazyPaths (a ++ b) = lazyPaths a ++ lazyPaths b := List.filterMap_append ..

def noBr (p : String) : Prop := '[' ∉ p.toList ∧ ']' ∉ p.toList

theorem noBr_join {p n : String} (hp : noBr p) (hn : IdOK n) : noBr (joinPath p n) := by
  simp only [joinPath]
  split
  · exact hn.2.2
  · simp only [noBr, String.toList_append, List.mem_append, not_or] at hp ⊢
    exact ⟨⟨⟨hp.1, by decide⟩, hn.2.2.1⟩, ⟨hp.2, by decide⟩, hn.2.2.2⟩

theorem blobName_noBr {p : String} (h : noBr p) : blobName p = p := by
  obtain ⟨h1, h2⟩ := h
  have e1 : p.toList.map (fun c => if c = '[' then '_' else c) = p.toList := by
    conv => rhs; rw [← List.map_id p.toList]
    refine List.map_congr_left ?_
    intro c hc
    have : c ≠ '[' := fun e => h1 (e ▸ hc)
    simp [this]
  have e2 : p.toList.filter (fun c => decide (c ≠ ']')) = p.toList := by
    rw [List.filter_eq_self]
    intro c hc
    have : c ≠ ']' := fun e => h2 (e ▸ hc)
    simp [this]
  simp only [blobName, e1]
  rw [e2]; simp

theorem blobFile_inj {p q : String} (hp : noBr p) (hq : noBr q) (h : blobFile p = blobFile q) : p = q := by
  simp only [blobFile, blobName_noBr hp, blobName_noBr hq] at h
  have := congrArg String.toList h
  simp only [String.toList_append, List.append_assoc, List.append_cancel_left_eq, List.append_cancel_right_eq] at this
  exact String.toList_injective this

/-- the blob files written and the blobs found -/
structure BlobsOK (path : String) (v : Val) (bs : List (String × Val)) (es : List Ev) : Prop where
  files : bs.map Prod.fst = (lazyPaths es).map blobFile
  sound : ∀ p c f k, Ev.lazy p c f k ∈ es → f = blobFile p ∧ k = false ∧
    ∃ segs y, segsOf p = segsOf path ++ segs ∧ valAt v segs = some (.ser c y) ∧ (blobFile p, y) ∈ bs
  complete : ∀ segs c y, valAt v segs = some (.ser c y) →
    ∃ p, segsOf p = segsOf path ++ segs ∧ Ev.lazy p c (blobFile p) false ∈ es
  clean : noBr path → ∀ p ∈ lazyPaths es, noBr p
  nodup : ((lazyPaths es).map segsOf).Nodup

theorem BlobsOK.empty (path : String) {v : Val} (h : ∀ segs c y, valAt v segs ≠ some (.ser c y)) {es : List Ev}
    (he : ∀ p c f k, Ev.lazy p c f k ∉ es) : BlobsOK path v [] es where
  files := by
    have : lazyPaths es = [] := by
      simp only [lazyPaths, List.filterMap_eq_nil_iff]
      intro ev hev
      cases ev with
      | sched => rfl
      | «lazy» p c f k => exact absurd hev (he p c f k)
    simp [this]
  sound := fun p c f k h => absurd h (he p c f k)
  complete := fun segs c y hv => absurd hv (h segs c y)
  clean := by
    intro _ p hp
    simp only [lazyPaths, List.mem_filterMap] at hp
    obtain ⟨ev, hev, hp⟩ := hp
    cases ev with
    | sched => simp [Ev.lazy?] at hp
    | «lazy» p c f k => exact absurd hev (he p c f k)
  nodup := by
    have : lazyPaths es = [] := by
      simp only [lazyPaths, List.filterMap_eq_nil_iff]
      intro ev hev
      cases ev with
      | sched => rfl
      | «lazy» p c f k => exact absurd hev (he p c f k)
    simp [this]

structure BlobsOKf (names : List String) (path : String) (kvs bs : List (String × Val)) (es : List Ev) : Prop where
  files : bs.map Prod.fst = (lazyPaths es).map blobFile
  sound : ∀ p c f k, Ev.lazy p c f k ∈ es → f = blobFile p ∧ k = false ∧
    ∃ n ∈ names, ∃ segs y x, segsOf p = segsOf path ++ n :: segs ∧ dget kvs n = some x ∧ valAt x segs = some (.ser c y) ∧
      (blobFile p, y) ∈ bs
  complete : ∀ n x, dget kvs n = some x → ∀ segs c y, valAt x segs = some (.ser c y) →
    ∃ p, segsOf p = segsOf path ++ n :: segs ∧ Ev.lazy p c (blobFile p) false ∈ es
  clean : noBr path → ∀ p ∈ lazyPaths es, noBr p
  nodup : ((lazyPaths es).map segsOf).Nodup

theorem mem_lazyPaths {es : List Ev} {p : String} (h : p ∈ lazyPaths es) : ∃ c f k, Ev.lazy p c f k ∈ es := by
  simp only [lazyPaths, List.mem_filterMap] at h
  obtain ⟨ev, hev, hp⟩ := h
  cases ev with
  | sched => simp [Ev.lazy?] at hp
  | «lazy» q c f k => simp [Ev.lazy?] at hp; subst hp; exact ⟨c, f, k, hev⟩

theorem lazyPaths_mem {es : List Ev} {p c f : String} {k : Bool} (h : Ev.lazy p c f k ∈ es) : p ∈ lazyPaths es := by
  simp only [lazyPaths, List.mem_filterMap]
  exact ⟨_, h, rfl⟩

mutual
theorem blobs_restored (e : Ext) : ∀ (t : PyTy) (r : Option Reg) (path : String)
    (v v' : Val) (bs : List (String × Val)) (es : List Ev), Restored e t r path v v' bs es → BlobsOK path v bs es
  | .int, r, path, v, v', bs, es, h => by
    simp only [Restored] at h
    obtain ⟨hv, rfl, h⟩ := h
    refine .empty path (noSer e .int v (by simp [TyOK]) hv.1) ?_
    rcases h with ⟨rfl, rfl, rfl⟩ | ⟨txt, a, f, i, rfl, htxt, hf, hi, rfl, rfl⟩ <;> simp
  | .float, r, path, v, v', bs, es, h => by
    simp only [Restored] at h
    obtain ⟨hv, rfl, h⟩ := h
    refine .empty path (noSer e .float v (by simp [TyOK]) hv.1) ?_
    rcases h with ⟨rfl, rfl, rfl⟩ | ⟨txt, a, f, rfl, htxt, hf, rfl, rfl⟩ <;> simp
  | .str, r, path, v, v', bs, es, h => by
    simp only [Restored] at h
    obtain ⟨rfl, ht, hv, rfl, rfl, rfl⟩ := h; exact .empty path (noSer e _ _ ht hv.1) (by simp)
  | .bool, r, path, v, v', bs, es, h => by
    simp only [Restored] at h
    obtain ⟨rfl, ht, hv, rfl, rfl, rfl⟩ := h; exact .empty path (noSer e _ _ ht hv.1) (by simp)
  | .noneT, r, path, v, v', bs, es, h => by
    simp only [Restored] at h
    obtain ⟨rfl, ht, hv, rfl, rfl, rfl⟩ := h; exact .empty path (noSer e _ _ ht hv.1) (by simp)
  | .list _, r, path, v, v', bs, es, h => by
    simp only [Restored] at h
    obtain ⟨rfl, ht, hv, rfl, rfl, rfl⟩ := h; exact .empty path (noSer e _ _ ht hv.1) (by simp)
  | .tuple _, r, path, v, v', bs, es, h => by
    simp only [Restored] at h
    obtain ⟨rfl, ht, hv, rfl, rfl, rfl⟩ := h; exact .empty path (noSer e _ _ ht hv.1) (by simp)
  | .dict _ _, r, path, v, v', bs, es, h => by
    simp only [Restored] at h
    obtain ⟨rfl, ht, hv, rfl, rfl, rfl⟩ := h; exact .empty path (noSer e _ _ ht hv.1) (by simp)
  | .enum _ _, r, path, v, v', bs, es, h => by
    simp only [Restored] at h
    obtain ⟨rfl, ht, hv, rfl, rfl, rfl⟩ := h; exact .empty path (noSer e _ _ ht hv.1) (by simp)
  | .literal _, r, path, v, v', bs, es, h => by
    simp only [Restored] at h
    obtain ⟨rfl, ht, hv, rfl, rfl, rfl⟩ := h; exact .empty path (noSer e _ _ ht hv.1) (by simp)
  | .blob n, r, path, v, v', bs, es, h => by
    simp only [Restored] at h
    obtain ⟨rfl, x, rfl, rfl, rfl, rfl⟩ := h
    refine ⟨rfl, ?_, ?_, ?_, by simp [lazyPaths, Ev.lazy?]⟩
    · intro p c f k h
      simp only [List.mem_singleton, Ev.lazy.injEq] at h
      obtain ⟨rfl, rfl, rfl, rfl⟩ := h
      exact ⟨rfl, rfl, [], x, by simp, by simp [valAt], by simp⟩
    · intro segs c y h
      cases segs with
      | nil => simp [valAt] at h; obtain ⟨rfl, rfl⟩ := h; exact ⟨path, by simp, by simp⟩
      | cons => simp [valAt] at h
    · intro hp p h
      simp [lazyPaths, Ev.lazy?] at h
      exact h ▸ hp
  | .union as, r, path, v, v', bs, es, h => by
    simp only [Restored] at h
    rcases h with ⟨rfl, ht, hv, rfl, rfl, rfl⟩ | ⟨_, rfl, rfl, _, rfl, rfl⟩ | ⟨hopt, h⟩
    · exact .empty path (noSer e _ _ ht hv.1) (by simp)
    · exact .empty path (by intro segs c y; cases segs <;> simp [valAt]) (by simp)
    · exact blobs_restoredH e as r path v v' bs es h
  | .data n fs ver, r, path, v, v', bs, es, h => by
    simp only [Restored] at h
    obtain ⟨hcl, hr, hch, kvs, kvs', rfl, rfl, hfs⟩ := h
    have := blobs_restoredF e fs r path kvs kvs' bs es hfs hcl.1 (fun f h => (hcl.2.1 f h).2)
    refine ⟨this.files, ?_, ?_, this.clean, this.nodup⟩
    · intro p c f k h
      obtain ⟨h1, h2, n, hn, segs, y, x, h3, h4, h5, h6⟩ := this.sound p c f k h
      exact ⟨h1, h2, n :: segs, y, h3, by simp [valAt, h4, h5], h6⟩
    · intro segs c y h
      cases segs with
      | nil => simp [valAt] at h
      | cons s segs =>
        simp only [valAt] at h
        cases hd : dget kvs s with
        | none => simp [hd] at h
        | some x => rw [hd] at h; exact this.complete s x hd segs c y h
theorem blobs_restoredH (e : Ext) : ∀ (ts : List PyTy) (r : Option Reg) (path : String)
    (v v' : Val) (bs : List (String × Val)) (es : List Ev), RestoredHead e ts r path v v' bs es → BlobsOK path v bs es
  | [], _, _, _, _, _, _, h => by simp [RestoredHead] at h
  | t :: ts, r, path, v, v', bs, es, h => by
    simp only [RestoredHead] at h
    exact blobs_restored e t r path v v' bs es h
theorem blobs_restoredF (e : Ext) : ∀ (fs : List Fld) (r : Option Reg) (path : String)
    (kvs kvs' bs : List (String × Val)) (es : List Ev), RestoredFs e fs r path kvs kvs' bs es →
    (fs.map Fld.name).Nodup → (∀ f ∈ fs, IdOK f.name) → BlobsOKf (fs.map Fld.name) path kvs bs es
  | [], r, path, kvs, kvs', bs, es, h, _, _ => by
    simp only [RestoredFs] at h
    obtain ⟨rfl, rfl, rfl, rfl⟩ := h
    exact ⟨by simp [lazyPaths], by simp, by simp, by simp [lazyPaths], by simp [lazyPaths]⟩
  | .mk n t d :: fs, r, path, kvs, kvs', bs, es, h, hn, hid => by
    simp only [RestoredFs, RestoredF] at h
    obtain ⟨v, v', bs1, es1, rest, rest', bs2, es2, h1, h2, rfl, rfl, rfl, rfl⟩ := h
    simp only [List.map_cons, List.nodup_cons, Fld.name] at hn
    have hidn : IdOK n := hid (.mk n t d) (by simp)
    have e1 := blobs_restored e t _ _ v v' bs1 es1 h1
    have e2 := blobs_restoredF e fs r path rest rest' bs2 es2 h2 hn.2 (fun f h => hid f (List.mem_cons_of_mem _ h))
    have hk := (dkeys_restored e fs r path rest rest' bs2 es2 h2).1
    have hs := segsOf_join (p := path) hidn
    have hnone : dget rest n = none := by
      rw [dget_eq_none_iff, hk]; exact hn.1
    refine ⟨?_, ?_, ?_, ?_, ?_⟩
    · rw [lazyPaths_append, List.map_append, List.map_append, e1.files, e2.files]
    · intro p c f k hx
      rcases List.mem_append.1 hx with hx | hx
      · obtain ⟨q1, q2, segs, y, q3, q4, q5⟩ := e1.sound p c f k hx
        refine ⟨q1, q2, n, by simp [Fld.name], segs, y, v, ?_, ?_, q4, List.mem_append_left _ q5⟩
        · rw [q3, hs]; simp
        · simp [dget, Fld.name]
      · obtain ⟨q1, q2, m, hm, segs, y, x, q3, q4, q5, q6⟩ := e2.sound p c f k hx
        refine ⟨q1, q2, m, List.mem_cons_of_mem _ hm, segs, y, x, q3, ?_, q5, List.mem_append_right _ q6⟩
        have hnm : n ≠ m := by intro e; subst e; exact hn.1 hm
        simp [dget, Fld.name, hnm, q4]
    · intro m x hd segs c y hv
      have hname : (Fld.mk n t d).name = n := rfl
      rw [hname] at hd
      simp only [dget] at hd
      split at hd
      · rename_i hnm
        cases hd
        obtain ⟨p, q1, q2⟩ := e1.complete segs c y hv
        exact ⟨p, by rw [q1, hs, ← hnm]; simp, List.mem_append_left _ q2⟩
      · obtain ⟨p, q1, q2⟩ := e2.complete m x hd segs c y hv
        exact ⟨p, q1, List.mem_append_right _ q2⟩
    · intro hp p hm
      rw [lazyPaths_append] at hm
      rcases List.mem_append.1 hm with hm | hm
      · exact e1.clean (noBr_join hp hidn) p hm
      · exact e2.clean hp p hm
    · rw [lazyPaths_append, List.map_append, List.nodup_append]
      refine ⟨e1.nodup, e2.nodup, ?_⟩
      intro a ha b hb hab
      obtain ⟨x, hx, rfl⟩ := List.mem_map.1 ha
      obtain ⟨y, hy, rfl⟩ := List.mem_map.1 hb
      obtain ⟨c1, f1, k1, hx⟩ := mem_lazyPaths hx
      obtain ⟨c2, f2, k2, hy⟩ := mem_lazyPaths hy
      obtain ⟨_, _, s1, _, q1, _⟩ := e1.sound _ _ _ _ hx
      obtain ⟨_, _, m, hm, s2, _, _, q2, _⟩ := e2.sound _ _ _ _ hy
      rw [q1, q2, hs, List.append_assoc, List.append_cancel_left_eq] at hab
      simp only [List.singleton_append, List.cons.injEq] at hab
      rw [← hab.1] at hm
      exact hn.1 hm
end

end HS
