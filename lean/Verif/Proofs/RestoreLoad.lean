import Verif.Proofs.Restore
import Verif.Model.Manager
import Verif.Proofs.Overrides
/-!
# Loading what was dumped
-/
namespace HS

theorem Reg.at_prefix : ∀ (a b : List String) (r : Option Reg) (x y : String × Bool), Reg.at r a = some x →
    Reg.at r (a ++ b) = some y → b = [] := by
  intro a
  induction a with
  | nil =>
    intro b r x y h1 h2
    match r, h1 with
    | some (.sched t i n), _ => cases b <;> simp [Reg.at] at h2 ⊢
    | some (.node _), h1 => simp [Reg.at] at h1
    | none, h1 => simp [Reg.at] at h1
  | cons s a ih =>
    intro b r x y h1 h2
    rw [List.cons_append, Reg.at_cons] at h2
    rw [Reg.at_cons] at h1
    exact ih b _ x y h1 h2

theorem pySplit_inj {p q : String} (h : pySplit '.' p = pySplit '.' q) : p = q := by
  have inj : ∀ (a b : List (List Char)), a.map String.ofList = b.map String.ofList → a = b := by
    intro a
    induction a with
    | nil => intro b h; cases b <;> simp_all
    | cons x a ih =>
      intro b h
      cases b with
      | nil => simp at h
      | cons y b =>
        simp only [List.map_cons, List.cons.injEq] at h
        have := congrArg String.toList h.1
        simp only [String.toList_ofList] at this
        rw [this, ih b h.2]
  have h1 := inj _ _ h
  have h2 := (splitC_spec '.' p.toList).2.2
  have h3 := (splitC_spec '.' q.toList).2.2
  rw [h1, h3] at h2
  exact String.toList_injective h2.symm

theorem pySplit_dot_ne_nil (p : String) : pySplit '.' p ≠ [] := by
  simp only [pySplit, ne_eq, List.map_eq_nil_iff]
  exact (splitC_spec '.' p.toList).1

theorem segsOf_inj {p q : String} (h : segsOf p = segsOf q) : p = q := by
  simp only [segsOf] at h
  split at h <;> split at h
  · rename_i h1 h2; rw [h1, h2]
  · exact absurd h.symm (pySplit_dot_ne_nil q)
  · exact absurd h (pySplit_dot_ne_nil p)
  · exact pySplit_inj h

theorem foldl_dset : ∀ (bs acc : List (String × Val)), (dkeys bs).Nodup →
    (∀ k v, (k, v) ∈ bs → dget (bs.foldl (fun a kv => dset a kv.1 kv.2) acc) k = some v) ∧
    ∀ k, k ∉ dkeys bs → dget (bs.foldl (fun a kv => dset a kv.1 kv.2) acc) k = dget acc k := by
  intro bs
  induction bs with
  | nil => intro acc _; simp
  | cons b bs ih =>
    intro acc hn
    simp only [dkeys, List.map_cons, List.nodup_cons] at hn
    obtain ⟨h1, h2⟩ := ih (dset acc b.1 b.2) hn.2
    simp only [List.foldl_cons]
    refine ⟨?_, ?_⟩
    · intro k v hm
      rcases List.mem_cons.1 hm with rfl | hm
      · rw [h2 k hn.1]; simp
      · exact h1 k v hm
    · intro k hk
      simp only [dkeys, List.map_cons, List.mem_cons, not_or] at hk
      rw [h2 k hk.2]
      exact dget_dset_ne _ _ (Ne.symm hk.1)

theorem regAll_lazy : ∀ (es : List Ev) (top : RegD), schedsOf es = [] → regAll top es = .ok top := by
  intro es
  induction es with
  | nil => intro top _; rfl
  | cons ev es ih =>
    intro top h
    cases ev with
    | sched p t i => simp [schedsOf, Ev.sched?] at h
    | «lazy» p c f k =>
      simp only [regAll]
      exact ih top (by simpa [schedsOf, Ev.sched?] using h)

theorem lazyInto_spec : ∀ (es : List Ev) (d : List (String × LazyEntry)), (lazyPaths es).Nodup →
    (∀ p c f k, Ev.lazy p c f k ∈ es → dget (lazyInto d es) p = some ⟨c, f, k⟩) ∧
    ∀ p, p ∉ lazyPaths es → dget (lazyInto d es) p = dget d p := by
  intro es
  induction es with
  | nil => intro d _; simp [lazyInto]
  | cons ev es ih =>
    intro d hn
    cases ev with
    | sched q t i =>
      have hl : lazyPaths (.sched q t i :: es) = lazyPaths es := rfl
      rw [hl] at hn ⊢
      obtain ⟨h1, h2⟩ := ih d hn
      simp only [lazyInto]
      refine ⟨?_, h2⟩
      intro p c f k hm
      rcases List.mem_cons.1 hm with hm | hm
      · exact (nomatch hm)
      · exact h1 p c f k hm
    | «lazy» q c' f' k' =>
      have hl : lazyPaths (.lazy q c' f' k' :: es) = q :: lazyPaths es := by simp [lazyPaths, Ev.lazy?]
      rw [hl] at hn ⊢
      simp only [List.nodup_cons] at hn
      obtain ⟨h1, h2⟩ := ih (dset d q ⟨c', f', k'⟩) hn.2
      simp only [lazyInto]
      refine ⟨?_, ?_⟩
      · intro p c f k hm
        rcases List.mem_cons.1 hm with hm | hm
        · cases hm
          rw [h2 _ hn.1]; simp
        · exact h1 p c f k hm
      · intro p hp
        simp only [List.mem_cons, not_or] at hp
        rw [h2 p hp.2]
        exact dget_dset_ne _ _ (Ne.symm hp.1)

theorem applyOverrides_nil (ron : RonParse) {n : String} {fs : List Fld} {ver : Option VerInfo}
    (hm : (materialize (.data n fs ver)).isOk = true) (doc : Val) :
    applyOverrides ron (.data n fs ver) [] doc = .ok doc := by
  cases h : materialize (.data n fs ver) with
  | error e => rw [h] at hm; exact absurd hm (by simp [Except.isOk, Except.toBool])
  | ok s =>
    obtain ⟨sfs, hf, rfl⟩ := materialize_data h
    simp [applyOverrides, h, overridesLoop, bind, Except.bind, pure, Except.pure]

theorem dumpCfgS_ok (env : String → ClsInfo) (r : Option RegD) : DumpCfgS (dumpCfg env r false) := ⟨rfl, rfl, rfl, rfl⟩

/-- the registry at the root -/
theorem at_root (env : String → ClsInfo) {reg : RegD} (h : dget reg "" = none) :
    At (dumpCfg env (some reg) false) "" (some (.node reg)) := by
  simp only [At, dumpCfg, Option.map_some]
  exact .inl ⟨trivial, trivial, reg, rfl, h⟩

/-- the config in a checkpoint: what `_load_config` reads -/
theorem config_roundtrip_restored (w : World) {n : String} {fs : List Fld} {ver : Option VerInfo} {reg : RegD} {v : Val}
    (hfit : Fits w.ext false (.data n fs ver) (some (.node reg)) v) (henv : EnvOK w.env (.data n fs ver))
    (hmat : (materialize (.data n fs ver)).isOk = true)
    (hdepth : ∀ segs x, Reg.at (some (.node reg)) segs = some x → segs.length ≤ 2) (ig : Bool) :
    ∃ doc v' reg' es, typedDump w.env (some reg) false v = .ok (doc, []) ∧
      smLoadConfig w (.data n fs ver) (some doc) [] ig = .ok ⟨v', reg', []⟩ ∧
      RegEqv (some (.node reg)) (some (.node reg')) ∧ Flat reg' ∧
      Restored w.ext (.data n fs ver) (some (.node reg)) "" v v' [] es := by
  obtain ⟨v', bs, es, hres, hbs⟩ := fits_restored w.ext false _ _ "" v hfit
  have hbs := hbs rfl
  subst hbs
  have hroot : dget reg "" = none := by
    have h := hres
    simp only [Restored] at h
    refine h.2.2.1 "" ?_
    intro hm
    obtain ⟨f, hf, he⟩ := List.mem_map.1 hm
    exact (h.1.2.1 f hf).2.1 he
  obtain ⟨d, hd⟩ := rtS (c := dumpCfg w.env (some reg) false) (dc := w.dcfg true true) (dumpCfgS_ok _ _) rfl
    _ _ "" v v' [] es hres henv (at_root w.env hroot)
  have hev := evs_restored w.ext _ _ "" v v' [] es hres
  have hbl := blobs_restored w.ext _ _ "" v v' [] es hres
  have hpaths : PathsOK (schedsOf es) := by
    refine ⟨?_, ?_, hev.nodup⟩
    · intro x hx
      obtain ⟨segs, h1, h2⟩ := hev.sound x hx
      simp only [segsOf, if_true, List.nil_append] at h1
      rw [h1]
      refine ⟨hdepth segs _ h2, ?_⟩
      rintro rfl
      simp [Reg.at] at h2
    · intro x hx y hy hp
      obtain ⟨s1, h1, h2⟩ := hev.sound x hx
      obtain ⟨s2, h3, h4⟩ := hev.sound y hy
      simp only [segsOf, if_true, List.nil_append] at h1 h3
      obtain ⟨b, hb⟩ := hp
      rw [h1, h3] at hb
      rw [← hb] at h4
      have := Reg.at_prefix _ _ _ _ _ h2 h4
      subst this
      rw [h1, h3]; simpa using hb
  obtain ⟨reg', hreg, hflat, hat⟩ := regAll_spec es [] ⟨by simp [RegWFD], by simp [dkeys], by simp⟩ hpaths (by
    intro x hx segs' y hy
    have : Reg.at (some (.node [])) segs' = none := by cases segs' <;> simp [Reg.at, Reg.at_none]
    rw [this] at hy
    exact (nomatch hy))
  have heqv : RegEqv (some (.node reg)) (some (.node reg')) := by
    intro segs
    have hnil : ∀ segs', Reg.at (some (.node [])) segs' = none := by
      intro segs'; cases segs' <;> simp [Reg.at, Reg.at_none]
    cases h1 : Reg.at (some (.node reg')) segs with
    | none =>
      cases h2 : Reg.at (some (.node reg)) segs with
      | none => rfl
      | some x =>
        have := hev.complete segs x h2
        simp only [segsOf, if_true, List.nil_append] at this
        have := (hat segs x).2 (.inl this)
        rw [h1] at this; exact (nomatch this)
    | some x =>
      rcases (hat segs x).1 h1 with h | h
      · obtain ⟨s, h3, h4⟩ := hev.sound _ h
        simp only [segsOf, if_true, List.nil_append] at h3
        subst h3
        exact h4
      · rw [hnil] at h; exact (nomatch h)
  have hlazy : lazyAll es = [] := by
    have hl : lazyPaths es = [] := by
      have := hbl.files
      simpa using this.symm
    have : ∀ (es : List Ev) d, lazyPaths es = [] → lazyInto d es = d := by
      intro es
      induction es with
      | nil => intro d _; rfl
      | cons ev es ih =>
        intro d h
        cases ev with
        | sched => exact ih d (by simpa [lazyPaths, Ev.lazy?] using h)
        | «lazy» => simp [lazyPaths, Ev.lazy?] at h
    exact this es [] hl
  refine ⟨ronTrip d, v', reg', es, ?_, ?_, heqv, hflat, hres⟩
  · simp [typedDump, hd.dump, bind, Except.bind, pure, Except.pure]
  · simp [smLoadConfig, typedLoad, applyOverrides_nil w.ron hmat, hd.load ig, hreg, hlazy, bind, Except.bind, pure, Except.pure]

/-- the config in a checkpoint: what `_typed_dump` writes, `_load_config` reads as the same config and the same schedules,
once the schedules have been applied at the same state -/
theorem config_roundtrip (w : World) {n : String} {fs : List Fld} {ver : Option VerInfo} {reg : RegD} {v : Val}
    (hfit : Fits w.ext false (.data n fs ver) (some (.node reg)) v) (henv : EnvOK w.env (.data n fs ver))
    (hmat : (materialize (.data n fs ver)).isOk = true)
    (hdepth : ∀ segs x, Reg.at (some (.node reg)) segs = some x → segs.length ≤ 2)
    (sv : String → Except Err Flt) (hcur : Current sv (some (.node reg)) v) (ig : Bool) :
    ∃ doc v' reg', typedDump w.env (some reg) false v = .ok (doc, []) ∧
      smLoadConfig w (.data n fs ver) (some doc) [] ig = .ok ⟨v', reg', []⟩ ∧
      RegEqv (some (.node reg)) (some (.node reg')) ∧ Flat reg' ∧ applyRegD sv reg' v' = .ok v := by
  obtain ⟨doc, v', reg', es, h1, h2, h3, h4, h5⟩ := config_roundtrip_restored w hfit henv hmat hdepth ig
  exact ⟨doc, v', reg', h1, h2, h3, h4, apply_restored w.ext sv _ _ (some (.node reg')) "" v v' es h5 hcur h3 ⟨h4.nodup, h4.wf⟩ (by
    intro es' _ h; simp [isData] at h)⟩

/-- the state in a checkpoint, with `Serializable`s anywhere in nested dataclasses -/
theorem state_roundtrip (w : World) {n : String} {fs : List Fld} {ver : Option VerInfo} {kvs : List (String × Val)}
    (hfit : Fits w.ext true (.data n fs ver) none (.inst n kvs)) (henv : EnvOK w.env (.data n fs ver)) (ig : Bool) :
    ∃ doc bs kvs' es, typedDump w.env none false (.inst n kvs) = .ok (doc, bs) ∧
      smLoadState w (.data n fs ver) doc ig = .ok ⟨.inst n kvs', [], lazyAll es⟩ ∧
      Restored w.ext (.data n fs ver) none "" (.inst n kvs) (.inst n kvs') bs es ∧
      BlobsOK "" (.inst n kvs) bs es ∧ (dkeys bs).Nodup ∧ (lazyPaths es).Nodup := by
  obtain ⟨v', bs, es, hres, -⟩ := fits_restored w.ext true _ _ "" _ hfit
  obtain ⟨kvs', rfl⟩ : ∃ kvs', v' = .inst n kvs' := by
    have h := hres
    simp only [Restored] at h
    obtain ⟨_, _, _, _, kvs', _, rfl, _⟩ := h
    exact ⟨kvs', rfl⟩
  obtain ⟨d, hd⟩ := rtS (c := dumpCfg w.env none false) (dc := w.dcfg false true) (dumpCfgS_ok _ _) rfl
    _ _ "" _ _ bs es hres henv (by simp [At, dumpCfg])
  have hev := evs_restored w.ext _ _ "" _ _ bs es hres
  have hbl := blobs_restored w.ext _ _ "" _ _ bs es hres
  have hsched : schedsOf es = [] := by
    cases h : schedsOf es with
    | nil => rfl
    | cons x xs =>
      obtain ⟨segs, _, h2⟩ := hev.sound x (by rw [h]; simp)
      rw [Reg.at_none] at h2; exact (nomatch h2)
  have hndp : (lazyPaths es).Nodup := by
    have := hbl.nodup
    rw [List.nodup_iff_pairwise_ne, List.pairwise_map] at this
    rw [List.nodup_iff_pairwise_ne]
    exact this.imp (fun h e => h (by rw [e]))
  have hndb : (dkeys bs).Nodup := by
    simp only [dkeys]
    rw [hbl.files, List.nodup_iff_pairwise_ne, List.pairwise_map]
    rw [List.nodup_iff_pairwise_ne] at hndp
    have hcl := hbl.clean ⟨by simp, by simp⟩
    refine List.Pairwise.imp_of_mem ?_ hndp
    intro a b ha hb hne he
    exact hne (blobFile_inj (hcl a ha) (hcl b hb) he)
  have hfold : ∀ (bs acc : List (String × Val)), (dkeys bs).Nodup → (∀ k ∈ dkeys bs, k ∉ dkeys acc) →
      bs.foldl (fun a kv => dset a kv.1 kv.2) acc = acc ++ bs := by
    have dset_new : ∀ (d : List (String × Val)) k v, k ∉ dkeys d → dset d k v = d ++ [(k, v)] := by
      intro d k v h
      induction d with
      | nil => rfl
      | cons a d ih =>
        simp only [dkeys, List.map_cons, List.mem_cons, not_or] at h
        simp only [dset, if_neg (Ne.symm h.1), List.cons_append]
        rw [ih (by simpa [dkeys] using h.2)]
    intro attrs
    induction attrs with
    | nil => intro acc _ _; simp
    | cons kv attrs ih =>
      intro acc hn hd
      simp only [dkeys, List.map_cons, List.nodup_cons] at hn
      simp only [List.foldl_cons]
      rw [dset_new acc _ _ (hd _ (by simp [dkeys])), ih _ (by simpa [dkeys] using hn.2)]
      · simp
      · intro k hk
        simp only [dkeys, List.map_append, List.map_cons, List.map_nil, List.mem_append, List.mem_singleton, not_or]
        refine ⟨hd k (by simp only [dkeys, List.map_cons, List.mem_cons]; exact Or.inr (by simpa [dkeys] using hk)), ?_⟩
        rintro rfl
        exact hn.1 (by simpa [dkeys] using hk)
  refine ⟨ronTrip d, bs, kvs', es, ?_, ?_, hres, hbl, hndb, hndp⟩
  · have := hfold bs [] hndb (by simp [dkeys])
    simp only [List.nil_append] at this
    simp [typedDump, hd.dump, bind, Except.bind, pure, Except.pure, this]
  · simp [smLoadState, typedLoad, hd.load ig, regAll_lazy es [] hsched, bind, Except.bind, pure, Except.pure]

end HS
