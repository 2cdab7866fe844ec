import Verif.Props.Elide
import Verif.Props.Registered
/-!
# Leaving out defaults in a config with schedules

A scheduled field is written as the text of its schedule, which is never equal to a default of the declared type: it is always
written.
-/
namespace HS

structure DumpCfgE (c : SerCfg) : Prop where
  lazy : c.lazy = true
  versioned : c.versioned = true
  named : c.named = true
  elide : c.elide = true

theorem DumpCfgE.unsched {c : SerCfg} (h : DumpCfgE c) : DumpCfg c.unsched :=
  ⟨h.lazy, h.versioned, h.named, fun _ => rfl⟩

/-- dump without defaults and load at a path, where `v` holds the values of its schedules at 0 -/
structure ElS (c : SerCfg) (dc : DCfg) (t : PyTy) (path : String) (v w v' : Val) (es : List Ev) : Prop where
  dump : asdict c path v = .ok (w, [])
  load : ∀ ig, fromDict dc t ig path (ronTrip w) = .ok (v', es)
  eq : pyEq v v' = true
  weak : (ronTrip w).isWeak = false
  none : (ronTrip w).isNone = true → v = .none ∧ v' = .none ∧ es = []
  /-- a value that is left out has no schedules -/
  dflt : ∀ d, DfltShape t d → HasType true t d → pyEq w d = true → pyEq v d = true ∧ es = []
  again : asdict c path v' = .ok (w, [])
  dself : ∀ d, DfltShape t d → HasType true t d → pyEq w d = true → asdict c path d = .ok (d, []) ∧ pyEq d d = true

theorem elS_plain {c : SerCfg} {dc : DCfg} (hc : DumpCfgE c) {t : PyTy} (ht : TyOK dc.ext t) (he : EnvOK c.env t) (hd : DfltOK t)
    {path : String} (hat : At c path .none) {v : Val} (hv : Storable t v) (hs : Sound v) : ∃ w v', ElS c dc t path v w v' [] := by
  obtain ⟨w, v', hw⟩ := el (dc := dc) hc.unsched hc.elide t ht he hd v path hv.1 hs
  refine ⟨w, v', by rw [asdict_unsched c v path hat]; exact hw.dump, fun ig => hw.load ig path, hw.eq, hw.weak hv.2.2, ?_,
    fun d h1 _ h2 => ⟨hw.dflt d h1 h2, rfl⟩, by rw [asdict_unsched c v' path hat]; exact hw.again,
    fun d h1 _ h2 => ⟨by rw [asdict_unsched c d path hat]; exact (hw.dself d h1 h2).1 _, (hw.dself d h1 h2).2⟩⟩
  intro h
  have h0 := hw.none h
  subst h0
  have := hw.eq
  cases v' <;> simp [pyEq] at this
  exact ⟨rfl, rfl, rfl⟩

/-- a field with the events of its load -/
theorem elS_items (dc : DCfg) (fs0 : List Fld) (hn : (fs0.map Fld.name).Nodup) (path : String) (ig : Bool) :
    ∀ (qs : List (Quad × List Ev)), (∀ q ∈ qs, QuadOK q.1 ∧
      (∀ ig, fromDict dc q.1.f.ty ig (joinPath path q.1.f.name) (ronTrip q.1.a.2) = .ok (q.1.l.2, q.2)) ∧
      (q.1.kept = false → q.2 = []) ∧ q.1.f ∈ fs0 ∧ q.1.f.name ≠ NAME_KEY) →
    itemsLoop (fun k x => fdField dc fs0 k (fieldPath path k) x) ig (ronTripD (((qs.map Prod.fst).filter Quad.kept).map Quad.a))
      = .ok (((qs.map Prod.fst).filter Quad.kept).map Quad.l, (qs.map Prod.snd).flatten) := by
  intro qs
  induction qs with
  | nil => intro _; simp [ronTripD, itemsLoop]
  | cons q qs ih =>
    intro h
    have ihh := ih (fun q' hq' => h q' (List.mem_cons_of_mem _ hq'))
    obtain ⟨hq, hql, hnil, hf, hnk⟩ := h q (by simp)
    obtain ⟨q, es⟩ := q
    simp only at hq hql hnil hf hnk
    cases hk : q.kept with
    | false =>
      simp only [List.map_cons, List.filter_cons, hk, List.flatten_cons, hnil hk, List.nil_append]
      exact ihh
    | true =>
      simp only [List.map_cons, List.filter_cons, hk, if_true, List.flatten_cons]
      obtain ⟨f, ⟨k, w⟩, kv, l⟩ := q
      have ha : k = f.name := hq.ha
      have hw := hq.weak
      simp only at hw hql hf hnk
      subst ha
      simp only [ronTripD, ronTripP, itemsLoop]
      rw [if_neg hnk, if_neg (by simpa using hw), fdField_mem dc f.name _ _ fs0 f hn hf rfl]
      rw [joinPath_eq_fieldPath] at hql
      simp only [hql, ihh, bind, Except.bind, pure, Except.pure]
      have hl := hq.hl
      simp only at hl
      have : (f.name, l.2) = l := by rw [← hl]
      rw [this]

mutual
theorem elS {c : SerCfg} {dc : DCfg} (hc : DumpCfgE c) : ∀ (t : PyTy) (r : Option Reg) (path : String) (v : Val) (es : List Ev),
    Restored dc.ext t r path v v [] es → EnvOK c.env t → DfltOK t → DeclOK t → Sound v → At c path r → ∃ w v', ElS c dc t path v w v' es
  | .int, r, path, v, es, h, he, hd, _, hs, hat => by
    simp only [Restored] at h
    obtain ⟨hv, _, ⟨rfl, _, rfl⟩ | ⟨txt, a, f, i, rfl, htxt, hf, hi, rfl, rfl⟩⟩ := h
    · exact elS_plain hc (by simp [TyOK]) he hd hat hv hs
    · have hdump : asdict c path (.int i) = .ok (.str txt, []) := by
        simp [asdict, serHooks_sched hat, bind, Except.bind, pure, Except.pure]
      have hno : ∀ d, HasType true .int d → pyEq (.str txt) d = true → False := by
        intro d h1 h2
        simp only [HasType] at h1
        rcases h1 with ⟨j, rfl⟩ | ⟨b, rfl⟩ <;> simp [pyEq] at h2
      refine ⟨.str txt, .int i, hdump, ?_, by simp [pyEq, Val.num?, Flt.eqv], rfl, by simp [ronTrip, Val.isNone],
        fun d _ h1 h2 => (hno d h1 h2).elim, hdump, fun d _ h1 h2 => (hno d h1 h2).elim⟩
      intro ig
      simp [ronTrip, fromDict, schedHook, htxt, hf, hi, bind, Except.bind, pure, Except.pure]
  | .float, r, path, v, es, h, he, hd, _, hs, hat => by
    simp only [Restored] at h
    obtain ⟨hv, _, ⟨rfl, _, rfl⟩ | ⟨txt, a, f, rfl, htxt, hf, rfl, rfl⟩⟩ := h
    · exact elS_plain hc (by simp [TyOK]) he hd hat hv hs
    · have hdump : asdict c path (.flt f) = .ok (.str txt, []) := by
        simp [asdict, serHooks_sched hat, bind, Except.bind, pure, Except.pure]
      have hno : ∀ d, HasType true .float d → pyEq (.str txt) d = true → False := by
        intro d h1 h2
        simp only [HasType] at h1
        obtain ⟨j, rfl⟩ := h1
        simp [pyEq] at h2
      refine ⟨.str txt, .flt f, hdump, ?_, pyEq_refl_leaf _ (.inr ⟨f, rfl⟩) hs, rfl, by simp [ronTrip, Val.isNone],
        fun d _ h1 h2 => (hno d h1 h2).elim, hdump, fun d _ h1 h2 => (hno d h1 h2).elim⟩
      intro ig
      simp [ronTrip, fromDict, schedHook, htxt, hf, bind, Except.bind, pure, Except.pure]
  | .str, r, path, v, es, h, he, hd, _, hs, hat => by
    simp only [Restored] at h
    obtain ⟨rfl, ht, hv, _, _, rfl⟩ := h
    exact elS_plain hc ht he hd hat hv hs
  | .bool, r, path, v, es, h, he, hd, _, hs, hat => by
    simp only [Restored] at h
    obtain ⟨rfl, ht, hv, _, _, rfl⟩ := h
    exact elS_plain hc ht he hd hat hv hs
  | .noneT, r, path, v, es, h, he, hd, _, hs, hat => by
    simp only [Restored] at h
    obtain ⟨rfl, ht, hv, _, _, rfl⟩ := h
    exact elS_plain hc ht he hd hat hv hs
  | .list a, r, path, v, es, h, he, hd, _, hs, hat => by
    simp only [Restored] at h
    obtain ⟨rfl, ht, hv, _, _, rfl⟩ := h
    exact elS_plain hc ht he hd hat hv hs
  | .tuple as, r, path, v, es, h, he, hd, _, hs, hat => by
    simp only [Restored] at h
    obtain ⟨rfl, ht, hv, _, _, rfl⟩ := h
    exact elS_plain hc ht he hd hat hv hs
  | .dict _ _, r, path, v, es, h, he, hd, _, hs, hat => by
    simp only [Restored] at h
    obtain ⟨rfl, ht, hv, _, _, rfl⟩ := h
    exact elS_plain hc ht he hd hat hv hs
  | .enum _ _, r, path, v, es, h, he, hd, _, hs, hat => by
    simp only [Restored] at h
    obtain ⟨rfl, ht, hv, _, _, rfl⟩ := h
    exact elS_plain hc ht he hd hat hv hs
  | .literal _, r, path, v, es, h, he, hd, _, hs, hat => by
    simp only [Restored] at h
    obtain ⟨rfl, ht, hv, _, _, rfl⟩ := h
    exact elS_plain hc ht he hd hat hv hs
  | .blob n, r, path, v, es, h, _, _, _, _, _ => by
    simp only [Restored] at h
    obtain ⟨_, x, rfl, h, _⟩ := h
    exact nomatch h
  | .data n fs ver, r, path, v, es, h, he, hd, hdecl, hs, hat => by
    simp only [Restored] at h
    obtain ⟨hcl, hr, _, kvs, kvs', rfl, hkk, hfs⟩ := h
    cases hkk
    have henv := he
    simp only [EnvOK] at he
    simp only [DfltOK] at hd
    simp only [DeclOK] at hdecl
    simp only [Sound] at hs
    obtain ⟨qs, has, hfq, hkq, hes, hq⟩ := elSf hc fs r path kvs es hfs he.2 hd hdecl.2.2 hs.2 hr hat (fun f h => (hcl.2.1 f h).2)
    have hqf : ∀ q ∈ qs, q.1.f ∈ fs := by
      intro q hqm; rw [hfq]; exact List.mem_map.2 ⟨q.1, List.mem_map.2 ⟨q, hqm, rfl⟩, rfl⟩
    have hnames : ∀ f ∈ fs, NameOK f.name := fun f h => (hcl.2.1 f h).1
    obtain ⟨as, v', h1, h2, h3, h4, h5, h6⟩ := el_obj (dc := dc) hc.named hc.versioned hc.elide n fs ver hcl.1 hnames hcl.2.2.1 hcl.2.2.2
      henv path (fun kvs => serHooks_keep hat hr (.inst n kvs) (by intro _ _; simp)) kvs (qs.map Prod.fst) has hfq hkq
      (by intro q hm; obtain ⟨x, hx, rfl⟩ := List.mem_map.1 hm; exact (hq x hx).1)
      (by intro q hm; obtain ⟨x, hx, rfl⟩ := List.mem_map.1 hm; exact (hq x hx).2.2.2) (fun p => p = path) es
      (by
        rintro p rfl ig
        rw [hes]
        exact elS_items dc fs hcl.1 p ig qs (fun q hqm => ⟨(hq q hqm).1, (hq q hqm).2.1, (hq q hqm).2.2.1, hqf q hqm, (hnames _ (hqf q hqm)).1⟩))
    refine ⟨.ntup n as, v', h1, fun ig => h2 ig path rfl, h3, h4, by simp [ronTrip, Val.isNone], ?_, h6, ?_⟩
    · intro d hd _ he
      simp only [DfltShape] at hd
      cases d <;> simp_all [pyEq]
    · intro d hd _ he
      simp only [DfltShape] at hd
      cases d <;> simp_all [pyEq]
  | .union as, r, path, v, es, h, he, hd, hdecl, hs, hat => by
    simp only [Restored] at h
    rcases h with ⟨rfl, ht, hv, _, _, rfl⟩ | ⟨hopt, rfl, rfl, _, _, rfl⟩ | ⟨hopt, h⟩
    · exact elS_plain hc ht he hd hat hv hs
    · have hdump : asdict c path .none = .ok (.none, []) := by
        simp [asdict, serHooks_keep hat rfl, bind, Except.bind, pure, Except.pure]
      have hno : ∀ d, pyEq .none d = true → d = .none := by intro d h; cases d <;> simp [pyEq] at h; rfl
      refine ⟨.none, .none, hdump, ?_, by simp [pyEq], rfl, fun _ => ⟨rfl, rfl, rfl⟩, fun d _ _ h => ⟨h, rfl⟩, hdump, ?_⟩
      · intro ig
        simp [ronTrip, fromDict, hopt, Val.isNone]
      · intro d _ _ h
        rw [hno d h]
        exact ⟨hdump, by simp [pyEq]⟩
    · simp only [EnvOK] at he
      simp only [DfltOK] at hd
      simp only [DeclOK] at hdecl
      obtain ⟨t, rfl⟩ := isOptionalArgs_iff.1 hopt
      obtain ⟨w, v', hw, hl⟩ := elSh hc [t, .noneT] r path v es h he hd hdecl hs hat
      simp only [List.headD] at hw
      have hnone : ∀ d, HasType true (.union [t, .noneT]) d → pyEq w d = true → HasType true t d ∨ (d = .none ∧ w = .none) := by
        intro d h1 h2
        simp only [HasType, HasTypeAny] at h1
        rcases h1 with h1 | rfl | h1
        · exact .inl h1
        · cases w <;> simp [pyEq, Val.num?] at h2
          exact .inr ⟨rfl, rfl⟩
        · exact h1.elim
      refine ⟨w, v', hw.dump, ?_, hw.eq, hw.weak, hw.none, ?_, hw.again, ?_⟩
      · intro ig
        simp only [fromDict, if_pos hopt]
        split
        · rename_i hn
          obtain ⟨rfl, rfl, rfl⟩ := hw.none hn
          rfl
        · exact hl ig
      · intro d h1 h2 h3
        simp only [DfltShape, dfltShapeAll_iff] at h1
        rcases hnone d h2 h3 with h2 | ⟨rfl, rfl⟩
        · exact hw.dflt d (h1 t (by simp)) h2 h3
        · obtain ⟨rfl, _, rfl⟩ := hw.none (by simp [ronTrip, Val.isNone])
          exact ⟨by simp [pyEq], rfl⟩
      · intro d h1 h2 h3
        simp only [DfltShape, dfltShapeAll_iff] at h1
        rcases hnone d h2 h3 with h2 | ⟨rfl, rfl⟩
        · exact hw.dself d (h1 t (by simp)) h2 h3
        · obtain ⟨rfl, _, rfl⟩ := hw.none (by simp [ronTrip, Val.isNone])
          exact ⟨hw.dump, by simp [pyEq]⟩
theorem elSh {c : SerCfg} {dc : DCfg} (hc : DumpCfgE c) : ∀ (ts : List PyTy) (r : Option Reg) (path : String) (v : Val) (es : List Ev),
    RestoredHead dc.ext ts r path v v [] es → EnvOKs c.env ts → DfltOKs ts → DeclOKs ts → Sound v → At c path r →
    ∃ w v', ElS c dc (ts.headD .noneT) path v w v' es ∧ ∀ ig, fdHead dc ts ig path (ronTrip w) = .ok (v', es)
  | [], _, _, _, _, h, _, _, _, _, _ => by simp [RestoredHead] at h
  | t :: ts, r, path, v, es, h, he, hd, hdecl, hs, hat => by
    simp only [RestoredHead] at h
    simp only [EnvOKs] at he
    simp only [DfltOKs] at hd
    simp only [DeclOKs] at hdecl
    obtain ⟨w, v', hw⟩ := elS hc t r path v es h he.1 hd.1 hdecl.1 hs hat
    exact ⟨w, v', hw, fun ig => by simp only [fdHead]; exact hw.load ig⟩
theorem elSf {c : SerCfg} {dc : DCfg} (hc : DumpCfgE c) : ∀ (fs : List Fld) (r : Option Reg) (path : String)
    (kvs : List (String × Val)) (es : List Ev), RestoredFs dc.ext fs r path kvs kvs [] es → EnvOKf c.env fs → DfltOKf fs → DeclOKf fs →
    SoundD kvs → Reg.isSched r = false → At c path r → (∀ f ∈ fs, IdOK f.name) →
    ∃ qs : List (Quad × List Ev), asdictD c path kvs = .ok ((qs.map Prod.fst).map Quad.a, []) ∧ fs = (qs.map Prod.fst).map Quad.f ∧
      kvs = (qs.map Prod.fst).map Quad.kv ∧ es = (qs.map Prod.snd).flatten ∧
      ∀ q ∈ qs, QuadOK q.1 ∧
        (∀ ig, fromDict dc q.1.f.ty ig (joinPath path q.1.f.name) (ronTrip q.1.a.2) = .ok (q.1.l.2, q.2)) ∧
        (q.1.kept = false → q.2 = []) ∧ QuadAgain c path q.1
  | [], r, path, kvs, es, h, _, _, _, _, _, _, _ => by
    simp only [RestoredFs] at h
    obtain ⟨rfl, _, _, rfl⟩ := h
    exact ⟨[], by simp [asdictD], rfl, rfl, rfl, by simp⟩
  | .mk n t d :: fs, r, path, kvs, es, h, he, hd, hdecl, hs, hr, hat, hid => by
    simp only [RestoredFs, RestoredF] at h
    obtain ⟨v, v', bs1, es1, rest, rest', bs2, es2, h1, h2, rfl, hkk, hbs, rfl⟩ := h
    simp only [List.cons.injEq, Prod.mk.injEq] at hkk
    obtain ⟨⟨_, rfl⟩, rfl⟩ := hkk
    obtain ⟨rfl, rfl⟩ := List.append_eq_nil_iff.1 hbs.symm
    simp only [EnvOKf, EnvOKf1] at he
    simp only [DfltOKf, DfltOK1] at hd
    simp only [DeclOKf, DeclOK1] at hdecl
    simp only [SoundD, SoundP] at hs
    obtain ⟨w, v', hw⟩ := elS hc t _ _ v es1 h1 he.1 hd.1.1 hdecl.1.1 hs.1 (hat.child hr (hid (.mk n t d) (by simp)))
    obtain ⟨qs, has, hf, hkv, hes, hq⟩ := elSf hc fs r path rest es2 h2 he.2 hd.2 hdecl.2 hs.2 hr hat
      (fun f h => hid f (List.mem_cons_of_mem _ h))
    refine ⟨(⟨.mk n t d, (n, w), (n, v), (n, v')⟩, es1) :: qs, ?_, by simp [← hf], by simp [← hkv, Fld.name], by simp [hes], ?_⟩
    · simp [asdictD, asdictP, Fld.name, hw.dump, has, bind, Except.bind, pure, Except.pure]
    · intro q hqm
      rcases List.mem_cons.1 hqm with rfl | hqm
      · refine ⟨⟨rfl, rfl, rfl, hw.weak, hw.eq, fun d' hd' he' => (hw.dflt d' (hd.1.2 d' hd') (hdecl.1.2 d' hd') he').1⟩, hw.load, ?_,
          hw.again, fun d' hd' he' => hw.dself d' (hd.1.2 d' hd') (hdecl.1.2 d' hd') he'⟩
        intro hk
        simp only [Quad.kept, Fld.dflt] at hk
        cases hdd : d with
        | none => rw [hdd] at hk; simp at hk
        | some d' =>
          rw [hdd] at hk
          exact (hw.dflt d' (hd.1.2 d' hdd) (hdecl.1.2 d' hdd) (by simpa using hk)).2
      · exact hq q hqm
end

end HS
