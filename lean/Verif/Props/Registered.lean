import Verif.Proofs.SchedLoad
import Verif.Props.Manager
import Verif.Props.UpgradeConfig
/-!
# C39: every schedule in a document is registered for its field; C55 for documents with schedules
-/
namespace HS

/-! ## the registry built by a load -/

theorem SchedIn.prefix_free {am : Bool} {t : PyTy} {doc : Val} {a : List String} {s : String} {b : Bool}
    (h : SchedIn am t doc a s b) : IdsOK t → ∀ (doc' : Val) (c : List String) (s' : String) (b' : Bool),
    SchedIn am t doc' (a ++ c) s' b' → c = [] := by
  induction h with
  | int => intro _ doc' c s' b' h; cases c with | nil => rfl | cons x c => cases h
  | float => intro _ doc' c s' b' h; cases c with | nil => rfl | cons x c => cases h
  | opt _ _ ih =>
    intro hid doc' c s' b' h
    simp only [IdsOK, IdsOKHead] at hid
    cases h with
    | opt _ h => exact ih hid _ _ _ _ h
  | @field cls fs ver doc doc1 x n t d segs s b hu hm hw hf hi ih =>
    intro hid doc' c s' b' h
    simp only [IdsOK] at hid
    have hid' : IdsOK t := by
      have : ∀ (fs : List Fld), IdsOKf fs → Fld.mk n t d ∈ fs → IdsOK t := by
        intro fs
        induction fs with
        | nil => intro _ h; simp at h
        | cons g fs ih =>
          intro h hm
          simp only [IdsOKf] at h
          rcases List.mem_cons.1 hm with rfl | hm
          · simpa only [IdsOK1] using h.1
          · exact ih h.2 hm
      exact this fs hid.2.2 hf
    cases h with
    | field q1 q2 q3 q4 q5 =>
      have := fld_unique hid.1 hf q4 rfl
      cases this
      exact ih hid' _ _ _ _ q5

theorem events_paths {am : Bool} {n : String} {fs : List Fld} {ver : Option VerInfo} {doc : Val} {es : List Ev}
    (hid : IdsOK (.data n fs ver)) (h : EvsDoc am (.data n fs ver) doc "" 3 es) : PathsOK (schedsOf es) := by
  refine ⟨?_, ?_, h.nodup⟩
  · intro x hx
    obtain ⟨segs, h1, h2, h3⟩ := h.sound x hx
    simp only [segsOf, if_true, List.nil_append] at h1
    rw [h1]
    refine ⟨by omega, ?_⟩
    rintro rfl
    cases h3
  · intro x hx y hy hp
    obtain ⟨s1, h1, _, h2⟩ := h.sound x hx
    obtain ⟨s2, h3, _, h4⟩ := h.sound y hy
    simp only [segsOf, if_true, List.nil_append] at h1 h3
    obtain ⟨b, hb⟩ := hp
    rw [h1, h3] at hb
    rw [← hb] at h4
    have := h2.prefix_free hid _ _ _ _ h4
    subst this
    rw [h1, h3]; simpa using hb

theorem regAll_flat {es : List Ev} (hp : PathsOK (schedsOf es)) : ∃ reg, regAll [] es = .ok reg ∧ Flat reg ∧
    ∀ segs x, Reg.at (some (.node reg)) segs = some x ↔ (segs, x) ∈ schedsOf es := by
  have hnil : ∀ segs', Reg.at (some (.node [])) segs' = none := by
    intro segs'; cases segs' <;> simp [Reg.at, Reg.at_none]
  obtain ⟨reg', hreg, hflat, hat⟩ := regAll_spec es [] ⟨by simp [RegWFD], by simp [dkeys], by simp⟩ hp (by
    intro x hx segs' y hy
    rw [hnil] at hy
    exact (nomatch hy))
  refine ⟨reg', hreg, hflat, fun segs x => ?_⟩
  rw [hat]
  simp [hnil]

/-- what a load registers, given the events it finds -/
theorem registry_of_load {c : DCfg} {n : String} {fs : List Fld} {ver : Option VerInfo} {doc v : Val} {es : List Ev} {ig : Bool}
    (hid : IdsOK (.data n fs ver)) (hsh : Shallow c.allowMissing (.data n fs ver) 2 doc)
    (h : fromDict c (.data n fs ver) ig "" doc = .ok (v, es)) :
    ∃ reg, regAll [] es = .ok reg ∧ Flat reg ∧
      ∀ segs s b, Reg.at (some (.node reg)) segs = some (s, b) ↔ SchedIn c.allowMissing (.data n fs ver) doc segs s b := by
  have hev := evs_load c _ 2 ig "" doc v es hid hsh h
  obtain ⟨reg, h1, h2, h3⟩ := regAll_flat (events_paths hid hev)
  refine ⟨reg, h1, h2, fun segs s b => ?_⟩
  rw [h3]
  constructor
  · intro hm
    obtain ⟨segs', p1, _, p2⟩ := hev.sound _ hm
    simp only [segsOf, if_true, List.nil_append] at p1
    subst p1
    exact p2
  · intro hi
    have := hev.complete segs s b hi
    simpa [segsOf] using this

/-- C39 (partial): loading a document in which schedules are given for int and float fields of the config, or of (optional)
dataclasses directly in it, registers exactly the schedules of the document, each for the field it is given for; and
registering them never makes the load fail. The document may be of an older version.
Missing: deeper fields, elements of containers and unions, for which the claim is false. -/
theorem C39_registered_partial (w : World) (am file ig : Bool) (n : String) (fs : List Fld) (ver : Option VerInfo) (doc : Val)
    (hid : IdsOK (.data n fs ver)) (hsh : Shallow am (.data n fs ver) 2 doc) :
    (∀ v es, fromDict (w.dcfg am file) (.data n fs ver) ig "" doc = .ok (v, es) →
      ∃ l, typedLoad (w.dcfg am file) w.ron .none ig (.data n fs ver) doc = .ok l ∧ l.value = v) ∧
    ∀ l, typedLoad (w.dcfg am file) w.ron .none ig (.data n fs ver) doc = .ok l →
      ∀ segs s b, Reg.at (some (.node l.schedules)) segs = some (s, b) ↔ SchedIn am (.data n fs ver) doc segs s b := by
  constructor
  · intro v es h
    obtain ⟨reg, h1, _⟩ := registry_of_load hid hsh h
    exact ⟨⟨v, reg, lazyAll es⟩, by simp [typedLoad, h, h1, bind, Except.bind, pure, Except.pure], rfl⟩
  · intro l hl
    simp only [typedLoad, bind, Except.bind, pure, Except.pure] at hl
    cases h : fromDict (w.dcfg am file) (.data n fs ver) ig "" doc with
    | error e => rw [h] at hl; exact (nomatch hl)
    | ok q =>
      rw [h] at hl
      dsimp only at hl
      obtain ⟨reg, h1, _, h2⟩ := registry_of_load (v := q.1) (es := q.2) hid hsh h
      rw [h1] at hl
      cases hl
      exact h2

/-- C39 (partial), end to end: a schedule given for a field in the config file (or by an override) is followed by that field:
after the schedules have been applied, which happens in every step, the field holds the value of the schedule. -/
theorem C39_followed_partial (w : World) (n : String) (fs : List Fld) (ver : Option VerInfo) (doc doc1 : Val) (os : List String)
    (ig : Bool) (l : Loaded) (hid : IdsOK (.data n fs ver))
    (hos : applyOverrides w.ron (.data n fs ver) os doc = .ok doc1) (hsh : Shallow true (.data n fs ver) 2 doc1)
    (hl : smLoadConfig w (.data n fs ver) (some doc) os ig = .ok l) (sv : String → Except Err Flt) (c c' : Val)
    (h : applyRegD sv l.schedules c = .ok c') (segs : List String) (s : String) (b : Bool)
    (hs : SchedIn true (.data n fs ver) doc1 segs s b) :
    ∃ x, SchedIs sv s b x ∧ valAt c' segs = some x := by
  have hl1 : typedLoad (w.dcfg true true) w.ron .none ig (.data n fs ver) doc1 = .ok l := by
    simp only [smLoadConfig, typedLoad, hos, bind, Except.bind, pure, Except.pure] at hl ⊢
    exact hl
  exact (C39_applied w _ (some doc) os ig l hl sv c c' h).1 segs s b
    (((C39_registered_partial w true true ig n fs ver doc1 hid hsh).2 l hl1 segs s b).2 hs)

/-! ## dumping depends on what is registered only -/

theorem Reg.find_none : ∀ (ss : List String) (r : Reg), (∀ segs, Reg.at (some r) segs = none) → r.find ss = .ok none := by
  intro ss
  induction ss with
  | nil =>
    intro r h
    cases r with
    | sched t b a => have := h []; simp [Reg.at] at this
    | node es => rfl
  | cons s ss ih =>
    intro r h
    cases r with
    | sched t b a => have := h []; simp [Reg.at] at this
    | node es =>
      simp only [Reg.find]
      cases hd : dget es s with
      | none => rfl
      | some r' =>
        refine ih r' (fun segs => ?_)
        have := h (s :: segs)
        simpa [Reg.at, hd] using this

theorem Reg.find_congr : ∀ (ss : List String) (r r' : Reg), RegEqv (some r) (some r') → r.find ss = r'.find ss := by
  intro ss
  induction ss with
  | nil =>
    intro r r' h
    have := h []
    cases r <;> cases r' <;> simp [Reg.at] at this <;> simp [Reg.find, this]
  | cons s ss ih =>
    intro r r' h
    have h0 := h []
    cases r with
    | sched t b a => cases r' <;> simp [Reg.at] at h0; simp [Reg.find]
    | node es =>
      cases r' with
      | sched t b a => simp [Reg.at] at h0
      | node es' =>
        simp only [Reg.find]
        have hc : ∀ segs, Reg.at (dget es s) segs = Reg.at (dget es' s) segs := fun segs => by
          have := h (s :: segs)
          simpa [Reg.at] using this
        cases h1 : dget es s with
        | none =>
          cases h2 : dget es' s with
          | none => rfl
          | some r2 =>
            exact (Reg.find_none ss r2 (fun segs => by have := hc segs; rw [h1, h2, Reg.at_none] at this; exact this.symm)).symm
        | some r1 =>
          cases h2 : dget es' s with
          | none => exact Reg.find_none ss r1 (fun segs => by have := hc segs; rw [h1, h2, Reg.at_none] at this; exact this)
          | some r2 => exact ih r1 r2 (fun segs => by have := hc segs; rw [h1, h2] at this; exact this)

mutual
theorem asdict_congr {c c' : SerCfg} (hs : ∀ f v, serHooks c f v = serHooks c' f v) (hp : ∀ n as, packAttrs c n as = packAttrs c' n as) :
    ∀ (v : Val) (file : String), asdict c file v = asdict c' file v
  | .inst cls kvs, file => by simp only [asdict, hs, hp, asdictD_congr hs hp kvs file]
  | .dict kvs, file => by simp only [asdict, hs, asdictD_congr hs hp kvs file]
  | .list xs, file => by simp only [asdict, hs, asdictL_congr hs hp xs file 0]
  | .tup xs, file => by simp only [asdict, hs, asdictL_congr hs hp xs file 0]
  | .ntup _ kvs, file => by simp only [asdict, hs, asdictV_congr hs hp kvs file 0]
  | .none, file => by simp only [asdict, hs]
  | .bool _, file => by simp only [asdict, hs]
  | .int _, file => by simp only [asdict, hs]
  | .flt _, file => by simp only [asdict, hs]
  | .str _, file => by simp only [asdict, hs]
  | .enm _ _ _, file => by simp only [asdict, hs]
  | .ser _ _, file => by simp only [asdict, hs]
theorem asdictD_congr {c c' : SerCfg} (hs : ∀ f v, serHooks c f v = serHooks c' f v) (hp : ∀ n as, packAttrs c n as = packAttrs c' n as) :
    ∀ (kvs : List (String × Val)) (file : String), asdictD c file kvs = asdictD c' file kvs
  | [], file => by simp only [asdictD]
  | kv :: kvs, file => by simp only [asdictD, asdictP_congr hs hp kv file, asdictD_congr hs hp kvs file]
theorem asdictP_congr {c c' : SerCfg} (hs : ∀ f v, serHooks c f v = serHooks c' f v) (hp : ∀ n as, packAttrs c n as = packAttrs c' n as) :
    ∀ (kv : String × Val) (file : String), asdictP c file kv = asdictP c' file kv
  | (k, v), file => by simp only [asdictP, asdict_congr hs hp v]
theorem asdictL_congr {c c' : SerCfg} (hs : ∀ f v, serHooks c f v = serHooks c' f v) (hp : ∀ n as, packAttrs c n as = packAttrs c' n as) :
    ∀ (xs : List Val) (file : String) (i : Nat), asdictL c file i xs = asdictL c' file i xs
  | [], file, i => by simp only [asdictL]
  | x :: xs, file, i => by simp only [asdictL, asdict_congr hs hp x, asdictL_congr hs hp xs file]
theorem asdictV_congr {c c' : SerCfg} (hs : ∀ f v, serHooks c f v = serHooks c' f v) (hp : ∀ n as, packAttrs c n as = packAttrs c' n as) :
    ∀ (kvs : List (String × Val)) (file : String) (i : Nat), asdictV c file i kvs = asdictV c' file i kvs
  | [], file, i => by simp only [asdictV]
  | kv :: kvs, file, i => by simp only [asdictV, asdictE_congr hs hp kv file, asdictV_congr hs hp kvs file]
theorem asdictE_congr {c c' : SerCfg} (hs : ∀ f v, serHooks c f v = serHooks c' f v) (hp : ∀ n as, packAttrs c n as = packAttrs c' n as) :
    ∀ (kv : String × Val) (file : String) (i : Nat), asdictE c file i kv = asdictE c' file i kv
  | (k, v), file, i => by simp only [asdictE, asdict_congr hs hp v]
end

/-- two registries with the same schedules for the same fields give the same dump -/
theorem typedDump_congr (env : String → ClsInfo) {reg reg' : RegD} (h : RegEqv (some (.node reg)) (some (.node reg'))) (elide : Bool)
    (v : Val) : typedDump env (some reg) elide v = typedDump env (some reg') elide v := by
  have : asdict (dumpCfg env (some reg) elide) "" v = asdict (dumpCfg env (some reg') elide) "" v := by
    refine asdict_congr ?_ ?_ v ""
    · intro f v
      have : schedFind (dumpCfg env (some reg) elide) f = schedFind (dumpCfg env (some reg') elide) f := by
        simp only [schedFind, dumpCfg, Option.map_some]
        exact Reg.find_congr _ _ _ h
      simp only [serHooks, this]; rfl
    · intro n as; rfl
  simp only [typedDump, this]

/-! ## `upgrade-config` on documents with schedules -/

/-- the schedules found in the dump of a config are those it was dumped with -/
theorem reg_of_restored {e : Ext} {t : PyTy} {reg : RegD} {v : Val} {es : List Ev}
    (hres : Restored e t (some (.node reg)) "" v v [] es)
    (hdepth : ∀ segs x, Reg.at (some (.node reg)) segs = some x → segs.length ≤ 2) :
    ∃ reg', regAll [] es = .ok reg' ∧ lazyAll es = [] ∧ RegEqv (some (.node reg)) (some (.node reg')) := by
  have hev := evs_restored e _ _ "" v v [] es hres
  have hbl := blobs_restored e _ _ "" v v [] es hres
  have hpaths : PathsOK (schedsOf es) := by
    refine ⟨?_, ?_, hev.nodup⟩
    · intro x hx
      obtain ⟨segs, h1, h2⟩ := hev.sound x hx
      simp only [segsOf, if_true, List.nil_append] at h1
      rw [h1]
      refine ⟨hdepth segs _ h2, ?_⟩
      rintro rfl
      simp [Reg.at] at h2
    · intro x hx y hy hp
      obtain ⟨s1, h1, h2⟩ := hev.sound x hx
      obtain ⟨s2, h3, h4⟩ := hev.sound y hy
      simp only [segsOf, if_true, List.nil_append] at h1 h3
      obtain ⟨b, hb⟩ := hp
      rw [h1, h3] at hb
      rw [← hb] at h4
      have := Reg.at_prefix _ _ _ _ _ h2 h4
      subst this
      rw [h1, h3]; simpa using hb
  obtain ⟨reg', hreg, hflat, hat⟩ := regAll_flat hpaths
  have heqv : RegEqv (some (.node reg)) (some (.node reg')) := by
    intro segs
    cases h1 : Reg.at (some (.node reg')) segs with
    | none =>
      cases h2 : Reg.at (some (.node reg)) segs with
      | none => rfl
      | some x =>
        have := hev.complete segs x h2
        simp only [segsOf, if_true, List.nil_append] at this
        have := (hat segs x).2 this
        rw [h1] at this; exact (nomatch this)
    | some x =>
      obtain ⟨s, h3, h4⟩ := hev.sound _ ((hat segs x).1 h1)
      simp only [segsOf, if_true, List.nil_append] at h3
      subst h3
      exact h4
  have hlazy : lazyAll es = [] := by
    have hl : lazyPaths es = [] := by
      have := hbl.files
      simpa using this.symm
    have : ∀ (es : List Ev) d, lazyPaths es = [] → lazyInto d es = d := by
      intro es
      induction es with
      | nil => intro d _; rfl
      | cons ev es ih =>
        intro d h
        cases ev with
        | sched => exact ih d (by simpa [lazyPaths, Ev.lazy?] using h)
        | «lazy» => simp [lazyPaths, Ev.lazy?] at h
    exact this es [] hl
  exact ⟨reg', hreg, hlazy, heqv⟩

/-- a config that is what loading its dump gives back -/
theorem dump_restored (w : World) {n : String} {fs : List Fld} {ver : Option VerInfo} {reg : RegD} {v : Val} {es : List Ev}
    (hres : Restored w.ext (.data n fs ver) (some (.node reg)) "" v v [] es) (henv : EnvOK w.env (.data n fs ver))
    (hdepth : ∀ segs x, Reg.at (some (.node reg)) segs = some x → segs.length ≤ 2) :
    ∃ doc reg', typedDump w.env (some reg) false v = .ok (doc, []) ∧
      (∀ am ig ron, typedLoad (w.dcfg am true) ron .none ig (.data n fs ver) doc = .ok ⟨v, reg', []⟩) ∧
      RegEqv (some (.node reg)) (some (.node reg')) := by
  have hroot : dget reg "" = none := by
    have h := hres
    simp only [Restored] at h
    refine h.2.2.1 "" ?_
    intro hm
    obtain ⟨f, hf, he⟩ := List.mem_map.1 hm
    exact (h.1.2.1 f hf).2.1 he
  have hrt : ∀ am, ∃ d, RTS (dumpCfg w.env (some reg) false) (w.dcfg am true) (.data n fs ver) "" v v [] es d := fun am =>
    rtS (c := dumpCfg w.env (some reg) false) (dc := w.dcfg am true) (dumpCfgS_ok _ _) rfl
      _ _ "" v v [] es hres henv (at_root w.env hroot)
  obtain ⟨d, hd⟩ := hrt true
  obtain ⟨reg', hreg, hlazy, heqv⟩ := reg_of_restored hres hdepth
  refine ⟨ronTrip d, reg', ?_, ?_, heqv⟩
  · simp [typedDump, hd.dump, bind, Except.bind, pure, Except.pure]
  · intro am ig ron
    obtain ⟨d', hd'⟩ := hrt am
    have : d' = d := by
      have h1 := hd.dump
      rw [hd'.dump] at h1
      simpa using h1
    subst this
    simp [typedLoad, hd'.load ig, hreg, hlazy, bind, Except.bind, pure, Except.pure]

/-- C55 (partial) with schedules: for every document with schedules for fields of the config or of dataclasses directly in it,
of any version, that loads as a well-typed config: the command with `--include-defaults` succeeds, the file it writes loads as
the same config with the same schedules for the same fields, and running the command again changes nothing. -/
theorem C55_schedules_partial (w : World) (n : String) (fs : List Fld) (ver : Option VerInfo) (doc : Val) (l : Loaded)
    (hty : TyOK w.ext (.data n fs ver)) (hid : IdsOK (.data n fs ver)) (henv : EnvOK w.env (.data n fs ver))
    (hsh : Shallow false (.data n fs ver) 2 doc)
    (h : typedLoad (w.dcfg false true) w.ron .none false (.data n fs ver) doc = .ok l) (hv : Storable (.data n fs ver) l.value) :
    ∃ doc' l', upgradeConfig w (.data n fs ver) false false doc = (doc', .ok ()) ∧
      typedLoad (w.dcfg false true) w.ron .none false (.data n fs ver) doc' = .ok l' ∧ l'.value = l.value ∧
      RegEqv (some (.node l.schedules)) (some (.node l'.schedules)) ∧
      upgradeConfig w (.data n fs ver) false false doc' = (doc', .ok ()) := by
  have hload := h
  simp only [typedLoad, bind, Except.bind, pure, Except.pure] at h
  cases hf : fromDict (w.dcfg false true) (.data n fs ver) false "" doc with
  | error e => rw [hf] at h; exact (nomatch h)
  | ok q =>
    rw [hf] at h
    dsimp only at h
    obtain ⟨reg, h1, h2, h3⟩ := registry_of_load (v := q.1) (es := q.2) hid hsh hf
    rw [h1] at h
    cases h
    dsimp only at *
    obtain ⟨es', hres⟩ := restored_load (w.dcfg false true) (.data n fs ver) 2 false "" (some (.node reg)) doc q.1 q.2 hty hid hsh hv hf
      (.inr ⟨rfl, fun k r' hc => h2.wf.mem (dget_mem hc)⟩) (fun segs x => h3 segs x.1 x.2)
    have hdepth : ∀ segs x, Reg.at (some (.node reg)) segs = some x → segs.length ≤ 2 := by
      intro segs x hx
      have hi := (h3 segs x.1 x.2).1 hx
      have hev := evs_load (w.dcfg false true) _ 2 false "" doc q.1 q.2 hid hsh hf
      obtain ⟨segs', p1, p2, _⟩ := hev.sound _ (hev.complete segs x.1 x.2 hi)
      simp only [segsOf, if_true, List.nil_append] at p1
      rw [p1]; omega
    obtain ⟨doc', reg', g1, g2, g3⟩ := dump_restored w hres henv hdepth
    refine ⟨doc', ⟨q.1, reg', []⟩, ?_, g2 false false w.ron, rfl, g3, ?_⟩
    · simp only [upgradeConfig, hload, g1]; rfl
    · simp only [upgradeConfig, g2 false false w.ron, ← typedDump_congr w.env g3 false q.1, g1]; rfl


/-- C55 (partial) with schedules, without a condition on the loaded config. -/
theorem C55_every_schedules_partial (w : World) (n : String) (fs : List Fld) (ver : Option VerInfo) (doc : Val) (l : Loaded)
    (hty : TyOK w.ext (.data n fs ver)) (hid : IdsOK (.data n fs ver)) (henv : EnvOK w.env (.data n fs ver))
    (hd : DeclOK (.data n fs ver)) (hf : FirmDecl (.data n fs ver)) (hp : Plain doc)
    (hsh : Shallow false (.data n fs ver) 2 doc)
    (h : typedLoad (w.dcfg false true) w.ron .none false (.data n fs ver) doc = .ok l) :
    ∃ doc' l', upgradeConfig w (.data n fs ver) false false doc = (doc', .ok ()) ∧
      typedLoad (w.dcfg false true) w.ron .none false (.data n fs ver) doc' = .ok l' ∧ l'.value = l.value ∧
      RegEqv (some (.node l.schedules)) (some (.node l'.schedules)) ∧
      upgradeConfig w (.data n fs ver) false false doc' = (doc', .ok ()) :=
  C55_schedules_partial w n fs ver doc l hty hid henv hsh h (typedLoad_storable hd hf hp (by simp) rfl h)

/-! ## a case meeting the hypotheses -/

namespace ExS
def ver : VerInfo := ⟨2, [(1, [.rename ["learning_rate"] ["lr"]])]⟩
def opt : PyTy := .data "Opt" [.mk "eps" .float (some (.flt (.fin 1)))] .none
def fs : List Fld := [.mk "lr" .float .none, .mk "opt" opt .none, .mk "n" .int (some (.int 3))]
def ty : PyTy := .data "C" fs (some ver)
def w : World := { Ex.world with
  env := fun c => if c = "C" then ⟨some 2, [("lr", .none), ("opt", .none), ("n", some (.int 3))]⟩ else ⟨.none, [("eps", some (.flt (.fin 1)))]⟩
  ext := { Ex.ext with schedAt0 := fun _ => .ok (.fin 7) } }
def up : Val := .dict [("opt", .dict [("eps", .str "eps@1")]), ("lr", .str "lr@0")]
/-- an older version, with a schedule for a renamed field and one for a field of a nested dataclass -/
def doc : Val := .dict [("version", .int 1), ("learning_rate", .str "lr@0"), ("opt", .dict [("eps", .str "eps@1")])]
def cfg : Val := .inst "C" [("lr", .flt (.fin 7)), ("opt", .inst "Opt" [("eps", .flt (.fin 7))]), ("n", .int 3)]
def doc' : Val := .dict [("!__name__", .str "C"), ("version", .int 2), ("lr", .str "lr@0"),
  ("opt", .dict [("!__name__", .str "Opt"), ("eps", .str "eps@1")]), ("n", .int 3)]
end ExS

/-- The hypotheses of `C39_registered_partial` and `C55_schedules_partial` are met by a document of an older version with
two schedules, one under the old name of the field and one in a nested dataclass. -/
example : TyOK ExS.w.ext ExS.ty ∧ IdsOK ExS.ty ∧ EnvOK ExS.w.env ExS.ty ∧ Shallow false ExS.ty 2 ExS.doc ∧
    (∃ l, typedLoad (ExS.w.dcfg false true) ExS.w.ron .none false ExS.ty ExS.doc = .ok l ∧ l.value = ExS.cfg ∧
      Reg.at (some (.node l.schedules)) ["opt", "eps"] = some ("eps@1", false)) ∧
    Storable ExS.ty ExS.cfg ∧ DeclOK ExS.ty ∧ FirmDecl ExS.ty ∧ Plain ExS.doc ∧ SchedIn false ExS.ty ExS.doc ["opt", "eps"] "eps@1" false ∧
    upgradeConfig ExS.w ExS.ty false false ExS.doc = (ExS.doc', .ok ()) := by
  have hup : versionHook false ExS.ver ExS.doc = .ok ExS.up := rfl
  have hid : IdOK "lr" ∧ IdOK "opt" ∧ IdOK "n" ∧ IdOK "eps" := by
    refine ⟨?_, ?_, ?_, ?_⟩ <;> (simp [IdOK]; try decide)
  refine ⟨?_, ?_, ?_, ?_, ⟨_, rfl, rfl, rfl⟩, ?_, ?_, ?_, ?_, ?_, rfl⟩
  · simp only [ExS.ty, ExS.fs, ExS.opt, TyOK, FldsOK, FldOK, VerOK]
    refine ⟨by decide, ?_, ?_, ?_, ?_⟩
    · intro f hf; simp only [List.mem_cons, List.not_mem_nil, or_false] at hf
      rcases hf with rfl | rfl | rfl <;> simp [NameOK, Fld.name, NAME_KEY, WEAK_REF, List.isPrefixOf]
    · intro _ f hf; simp only [List.mem_cons, List.not_mem_nil, or_false] at hf
      rcases hf with rfl | rfl | rfl <;> simp [Fld.name]
    · intro vi h e he; cases h; simp [ExS.ver] at he; subst he; decide
    · simp [NameOK, Fld.name, NAME_KEY, WEAK_REF, List.isPrefixOf]
  · simp only [ExS.ty, ExS.fs, ExS.opt, IdsOK, IdsOKf, IdsOK1]
    refine ⟨by decide, ?_, trivial, ⟨by decide, ?_, trivial, trivial⟩, trivial, trivial⟩
    · intro f hf; simp only [List.mem_cons, List.not_mem_nil, or_false] at hf
      rcases hf with rfl | rfl | rfl <;> simp [NameOK, Fld.name, NAME_KEY, WEAK_REF, List.isPrefixOf, hid]
    · simp [NameOK, Fld.name, NAME_KEY, WEAK_REF, List.isPrefixOf, hid]
  · simp [ExS.ty, ExS.fs, ExS.opt, EnvOK, EnvOKf, EnvOKf1, ExS.w, ExS.ver, Fld.name, Fld.dflt]
  · simp only [ExS.ty, ExS.fs, ExS.opt, Shallow, ShallowFs, ShallowF, upgraded]
    intro v' hv'
    rw [hup] at hv'
    cases hv'
    refine ⟨rfl, by decide, ?_, ?_, ?_, trivial⟩
    · intro x _ _; exact .inr ⟨1, rfl, trivial⟩
    · intro x hx _
      refine .inr ⟨1, rfl, ?_⟩
      intro v' hv'
      cases hv'
      simp [docEntries, ExS.up] at hx
      subst hx
      refine ⟨rfl, by decide, ?_, trivial⟩
      intro x hx _
      exact .inr ⟨0, rfl, trivial⟩
    · intro x _ _; exact .inr ⟨1, rfl, trivial⟩
  · simp [ExS.ty, ExS.fs, ExS.opt, ExS.cfg, Storable, HasType, HasFields, HasField, Firm, FirmD, FirmP, Val.isWeak]
  · simp only [ExS.ty, ExS.fs, ExS.opt, DeclOK, DeclOKf, DeclOK1, VerPlain, ExS.ver]
    refine ⟨by decide, ?_, ?_⟩
    · intro vi h e he
      cases h
      simp at he
      subst he
      simp [RulePlain]
    · simp [HasType]
  · simp [ExS.ty, ExS.fs, ExS.opt, FirmDecl, FirmDeclf, FirmDecl1, Firm, Val.isWeak]
  · simp [ExS.doc, Plain, PlainD, PlainP, dkeys]
  · exact .field hup (x := .dict [("eps", .str "eps@1")]) (by simp [ExS.up, docEntries]) rfl (by simp [ExS.fs]; exact ⟨rfl, rfl⟩)
      (.field rfl (x := .str "eps@1") (by simp [docEntries]) rfl (List.mem_singleton.2 rfl) (.float (by decide)))

end HS
