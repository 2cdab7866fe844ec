import Verif.Proofs.ElideSched
import Verif.Props.UpgradeConfigs
/-!
# C55: `upgrade-config` without `--include-defaults` on documents with schedules
-/
namespace HS

/-- the registry at the root -/
theorem at_root_elide (env : String → ClsInfo) {reg : RegD} (h : dget reg "" = none) :
    At (dumpCfg env (some reg) true) "" (some (.node reg)) := by
  simp only [At, dumpCfg, Option.map_some]
  exact .inl ⟨trivial, trivial, reg, rfl, h⟩

/-- C55 (partial) with schedules, without `--include-defaults` (the default): for every document with schedules for fields of the
config or of dataclasses directly in it, of any version, that loads as a well-typed config without nan: the command succeeds,
the file it writes loads as an equal (Python `==`) config with the same schedules for the same fields (no schedule is lost
because the value it starts with happens to be the default), and running the command again changes nothing. -/
theorem C55_elided_schedules_partial (w : World) (n : String) (fs : List Fld) (ver : Option VerInfo) (doc : Val) (l : Loaded)
    (hty : TyOK w.ext (.data n fs ver)) (hid : IdsOK (.data n fs ver)) (henv : EnvOK w.env (.data n fs ver))
    (hdf : DfltOK (.data n fs ver)) (hdecl : DeclOK (.data n fs ver)) (hsh : Shallow false (.data n fs ver) 2 doc)
    (h : typedLoad (w.dcfg false true) w.ron .none false (.data n fs ver) doc = .ok l) (hv : Storable (.data n fs ver) l.value)
    (hn : NoNan l.value) :
    ∃ doc' l', upgradeConfig w (.data n fs ver) true false doc = (doc', .ok ()) ∧
      typedLoad (w.dcfg false true) w.ron .none false (.data n fs ver) doc' = .ok l' ∧ pyEq l.value l'.value = true ∧
      RegEqv (some (.node l.schedules)) (some (.node l'.schedules)) ∧
      upgradeConfig w (.data n fs ver) true false doc' = (doc', .ok ()) := by
  have hload := h
  simp only [typedLoad, bind, Except.bind, pure, Except.pure] at h
  cases hf : fromDict (w.dcfg false true) (.data n fs ver) false "" doc with
  | error e => rw [hf] at h; exact (nomatch h)
  | ok q =>
    rw [hf] at h
    dsimp only at h
    obtain ⟨reg, h1, h2, h3⟩ := registry_of_load (v := q.1) (es := q.2) hid hsh hf
    rw [h1] at h
    cases h
    dsimp only at *
    obtain ⟨es', hres⟩ := restored_load (w.dcfg false true) (.data n fs ver) 2 false "" (some (.node reg)) doc q.1 q.2 hty hid hsh hv hf
      (.inr ⟨rfl, fun k r' hc => h2.wf.mem (dget_mem hc)⟩) (fun segs x => h3 segs x.1 x.2)
    have hdepth : ∀ segs x, Reg.at (some (.node reg)) segs = some x → segs.length ≤ 2 := by
      intro segs x hx
      have hi := (h3 segs x.1 x.2).1 hx
      have hev := evs_load (w.dcfg false true) _ 2 false "" doc q.1 q.2 hid hsh hf
      obtain ⟨segs', p1, p2, _⟩ := hev.sound _ (hev.complete segs x.1 x.2 hi)
      simp only [segsOf, if_true, List.nil_append] at p1
      rw [p1]; omega
    have hroot : dget reg "" = none := by
      have h := hres
      simp only [Restored] at h
      refine h.2.2.1 "" ?_
      intro hm
      obtain ⟨f, hf, he⟩ := List.mem_map.1 hm
      exact (h.1.2.1 f hf).2.1 he
    obtain ⟨reg', hreg, hlazy, heqv⟩ := reg_of_restored hres hdepth
    obtain ⟨d, v', hd⟩ := elS (c := dumpCfg w.env (some reg) true) (dc := w.dcfg false true) ⟨rfl, rfl, rfl, rfl⟩ (.data n fs ver)
      (some (.node reg)) "" q.1 es' hres henv hdf hdecl (sound_of _ hv.2.1 hn) (at_root_elide w.env hroot)
    have hdump1 : typedDump w.env (some reg) true q.1 = .ok (ronTrip d, []) := by
      simp [typedDump, hd.dump, bind, Except.bind, pure, Except.pure]
    have hdump2 : typedDump w.env (some reg') true v' = .ok (ronTrip d, []) := by
      rw [← typedDump_congr w.env heqv]
      simp [typedDump, hd.again, bind, Except.bind, pure, Except.pure]
    have hload2 : typedLoad (w.dcfg false true) w.ron .none false (.data n fs ver) (ronTrip d) = .ok ⟨v', reg', []⟩ := by
      simp [typedLoad, hd.load false, hreg, hlazy, bind, Except.bind, pure, Except.pure]
    refine ⟨ronTrip d, ⟨v', reg', []⟩, ?_, hload2, hd.eq, heqv, ?_⟩
    · simp only [upgradeConfig, hload, hdump1]; rfl
    · simp only [upgradeConfig, hload2, hdump2]; rfl

/-- C55 (partial) with schedules, without `--include-defaults` and without a condition on the loaded config except that it
contains no nan. -/
theorem C55_elided_every_schedules_partial (w : World) (n : String) (fs : List Fld) (ver : Option VerInfo) (doc : Val) (l : Loaded)
    (hty : TyOK w.ext (.data n fs ver)) (hid : IdsOK (.data n fs ver)) (henv : EnvOK w.env (.data n fs ver))
    (hdf : DfltOK (.data n fs ver)) (hdecl : DeclOK (.data n fs ver)) (hf : FirmDecl (.data n fs ver)) (hp : Plain doc)
    (hsh : Shallow false (.data n fs ver) 2 doc)
    (h : typedLoad (w.dcfg false true) w.ron .none false (.data n fs ver) doc = .ok l) (hn : NoNan l.value) :
    ∃ doc' l', upgradeConfig w (.data n fs ver) true false doc = (doc', .ok ()) ∧
      typedLoad (w.dcfg false true) w.ron .none false (.data n fs ver) doc' = .ok l' ∧ pyEq l.value l'.value = true ∧
      RegEqv (some (.node l.schedules)) (some (.node l'.schedules)) ∧
      upgradeConfig w (.data n fs ver) true false doc' = (doc', .ok ()) :=
  C55_elided_schedules_partial w n fs ver doc l hty hid henv hdf hdecl hsh h (typedLoad_storable hdecl hf hp (by simp) rfl h) hn

/-- As `ExS.w`, but with schedules that start at 1. The document of `C55_schedules_partial` meets the remaining hypotheses of
`C55_elided_schedules_partial`. -/
def ExS.w1 : World := { ExS.w with ext := { Ex.ext with schedAt0 := fun _ => .ok (.fin 1) } }

/-- what the command writes: the schedule of `eps`, which starts at the default of the field, is kept, and `n`, which has its default,
is left out -/
def ExS.docE : Val := .dict [("!__name__", .str "C"), ("version", .int 2), ("lr", .str "lr@0"),
  ("opt", .dict [("!__name__", .str "Opt"), ("eps", .str "eps@1")])]

theorem ExS.upE : upgradeConfig ExS.w1 ExS.ty true false ExS.doc = (ExS.docE, .ok ()) := rfl
theorem ExS.upE2 : upgradeConfig ExS.w1 ExS.ty true false ExS.docE = (ExS.docE, .ok ()) := rfl

example : DfltOK ExS.ty ∧ NoNan ExS.cfg := by
  refine ⟨?_, ?_⟩
  · simp [ExS.ty, ExS.fs, ExS.opt, DfltOK, DfltOKf, DfltOK1, DfltShape]
  · simp [ExS.cfg, NoNan, NoNanD, NoNanP]

/-- A schedule is lost when the declared default of the number field is the text of the schedule: then the field is left out and
reads as that text. So the condition that defaults have the declared type is needed. -/
theorem C55_elided_schedules_false : ∃ (w : World) (ty : PyTy) (doc doc' : Val) (l l' : Loaded),
    TyOK w.ext ty ∧ EnvOK w.env ty ∧ DfltOK ty ∧ typedLoad (w.dcfg false true) w.ron .none false ty doc = .ok l ∧ Storable ty l.value ∧
    NoNan l.value ∧ upgradeConfig w ty true false doc = (doc', .ok ()) ∧
    typedLoad (w.dcfg false true) w.ron .none false ty doc' = .ok l' ∧ l.value = .inst "C" [("lr", .flt (.fin 7))] ∧
    l'.value = .inst "C" [("lr", .str "lr@0")] := by
  refine ⟨{ Ex.world with env := fun _ => ⟨.none, [("lr", some (.str "lr@0"))]⟩, ext := { Ex.ext with schedAt0 := fun _ => .ok (.fin 7) } },
    .data "C" [.mk "lr" .float (some (.str "lr@0"))] .none, .dict [("lr", .str "lr@0")], .dict [("!__name__", .str "C")],
    ⟨.inst "C" [("lr", .flt (.fin 7))], [("lr", .sched "lr@0" false "lr")], []⟩, ⟨.inst "C" [("lr", .str "lr@0")], [], []⟩,
    ?_, ?_, ?_, rfl, ?_, ?_, rfl, rfl, rfl, rfl⟩
  · simp [TyOK, FldsOK, FldOK, VerOK, NameOK, Fld.name, NAME_KEY, WEAK_REF, List.isPrefixOf]
  · simp [EnvOK, EnvOKf, EnvOKf1, Fld.name, Fld.dflt]
  · simp [DfltOK, DfltOKf, DfltOK1, DfltShape]
  · simp [Storable, HasType, HasFields, HasField, Firm, FirmD, FirmP, Val.isWeak]
  · simp [NoNan, NoNanD, NoNanP]

/-! ## several files (C63) -/

/-- If the command rewrites every named file to one on which it has no further effect, then with all of them, some perhaps named
twice, it succeeds, does to each what it does alone, leaves the others, and has no effect the second time. -/
theorem upgradeConfigs_each (w : World) (ty : PyTy) (elide : Bool) (fs : List String) (dir : List (String × Val))
    (h : ∀ f ∈ fs, ∃ doc doc', dget dir f = some doc ∧ upgradeConfig w ty elide false doc = (doc', .ok ()) ∧
      upgradeConfig w ty elide false doc' = (doc', .ok ())) :
    ∃ dir', upgradeConfigs w ty elide false fs dir = (dir', .ok ()) ∧
      (∀ f ∈ fs, ∀ doc, dget dir f = some doc → dget dir' f = some (upgradeConfig w ty elide false doc).1) ∧
      (∀ n, n ∉ fs → dget dir' n = dget dir n) ∧
      ∀ n, dget (upgradeConfigs w ty elide false fs dir').1 n = dget dir' n := by
  have key : ∀ (gs : List String) (d : List (String × Val)),
      (∀ f ∈ gs, ∃ doc doc', dget d f = some doc ∧ upgradeConfig w ty elide false doc = (doc', .ok ()) ∧
        upgradeConfig w ty elide false doc' = (doc', .ok ())) →
      ∃ d', upgradeConfigs w ty elide false gs d = (d', .ok ()) ∧
        (∀ f ∈ gs, ∀ doc, dget d f = some doc → dget d' f = some (upgradeConfig w ty elide false doc).1) ∧
        ∀ n, n ∉ gs → dget d' n = dget d n := by
    intro gs
    induction gs with
    | nil => intro d _; exact ⟨d, rfl, by simp, by simp⟩
    | cons f gs ih =>
      intro d hg
      obtain ⟨doc, doc1, h1, h2, h3⟩ := hg f (by simp)
      obtain ⟨d', h4, h5, h6⟩ := ih (dset d f doc1) (by
        intro g hgm
        by_cases hgf : g = f
        · subst hgf; exact ⟨doc1, doc1, by simp, h3, h3⟩
        · rw [dget_dset_ne _ _ (Ne.symm hgf)]; exact hg g (List.mem_cons_of_mem _ hgm))
      refine ⟨d', by simp only [upgradeConfigs, h1, h2, h4], ?_, ?_⟩
      · intro g hgm x hx
        by_cases hgf : g = f
        · subst hgf
          rw [h1] at hx
          cases hx
          rw [h2]
          by_cases hmem : g ∈ gs
          · rw [h5 g hmem doc1 (by simp), h3]
          · rw [h6 g hmem]; simp
        · exact h5 g ((List.mem_cons.1 hgm).resolve_left hgf) x (by rw [dget_dset_ne _ _ (Ne.symm hgf)]; exact hx)
      · intro n hn
        simp only [List.mem_cons, not_or] at hn
        rw [h6 n hn.2, dget_dset_ne _ _ (Ne.symm hn.1)]
  obtain ⟨d', h1, h2, h3⟩ := key fs dir h
  refine ⟨d', h1, h2, h3, ?_⟩
  have hfix : ∀ f ∈ fs, ∃ doc, dget d' f = some doc ∧ upgradeConfig w ty elide false doc = (doc, .ok ()) := by
    intro f hf
    obtain ⟨doc, doc', a, b, c⟩ := h f hf
    exact ⟨doc', by rw [h2 f hf doc a, b], c⟩
  obtain ⟨d'', k1, k2, k3⟩ := key fs d' (fun f hf => let ⟨doc, a, b⟩ := hfix f hf; ⟨doc, doc, a, b, b⟩)
  intro n
  rw [k1]
  dsimp only
  by_cases hn : n ∈ fs
  · obtain ⟨doc, a, b⟩ := hfix n hn
    rw [k2 n hn doc a, a, b]
  · exact k3 n hn

/-- C63 (partial), with schedules and without `--include-defaults`: if every named file is plain, loads, and has schedules only for
fields of the config or of dataclasses directly in it, then the command succeeds, every named file loads as an equal config with the
same schedules as before, every other file is untouched, and running it again changes nothing; files may be named twice. -/
theorem C63_elided_partial (w : World) (n : String) (fs : List Fld) (ver : Option VerInfo) (files : List String) (dir : List (String × Val))
    (hty : TyOK w.ext (.data n fs ver)) (hid : IdsOK (.data n fs ver)) (henv : EnvOK w.env (.data n fs ver))
    (hdf : DfltOK (.data n fs ver)) (hdecl : DeclOK (.data n fs ver)) (hf : FirmDecl (.data n fs ver))
    (h : ∀ f ∈ files, ∃ doc l, dget dir f = some doc ∧ Plain doc ∧ Shallow false (.data n fs ver) 2 doc ∧
      typedLoad (w.dcfg false true) w.ron .none false (.data n fs ver) doc = .ok l ∧ NoNan l.value) :
    ∃ dir', upgradeConfigs w (.data n fs ver) true false files dir = (dir', .ok ()) ∧
      (∀ f ∈ files, ∃ doc l doc' l', dget dir f = some doc ∧ dget dir' f = some doc' ∧
        typedLoad (w.dcfg false true) w.ron .none false (.data n fs ver) doc = .ok l ∧
        typedLoad (w.dcfg false true) w.ron .none false (.data n fs ver) doc' = .ok l' ∧
        pyEq l.value l'.value = true ∧ RegEqv (some (.node l.schedules)) (some (.node l'.schedules))) ∧
      (∀ f, f ∉ files → dget dir' f = dget dir f) ∧
      ∀ f, dget (upgradeConfigs w (.data n fs ver) true false files dir').1 f = dget dir' f := by
  obtain ⟨dir', h1, h2, h3, h4⟩ := upgradeConfigs_each w (.data n fs ver) true files dir (by
    intro f hfm
    obtain ⟨doc, l, a1, a2, a3, a4, a5⟩ := h f hfm
    obtain ⟨doc', l', b1, _, _, _, b5⟩ := C55_elided_every_schedules_partial w n fs ver doc l hty hid henv hdf hdecl hf a2 a3 a4 a5
    exact ⟨doc, doc', a1, b1, b5⟩)
  refine ⟨dir', h1, ?_, h3, h4⟩
  intro f hfm
  obtain ⟨doc, l, a1, a2, a3, a4, a5⟩ := h f hfm
  obtain ⟨doc', l', b1, b2, b3, b4, _⟩ := C55_elided_every_schedules_partial w n fs ver doc l hty hid henv hdf hdecl hf a2 a3 a4 a5
  exact ⟨doc, l, doc', l', a1, by rw [h2 f hfm doc a1, b1], a4, b2, b3, b4⟩

/-- C63 (partial), with schedules and with `--include-defaults`: the configs are identical. -/
theorem C63_schedules_partial (w : World) (n : String) (fs : List Fld) (ver : Option VerInfo) (files : List String) (dir : List (String × Val))
    (hty : TyOK w.ext (.data n fs ver)) (hid : IdsOK (.data n fs ver)) (henv : EnvOK w.env (.data n fs ver))
    (hdecl : DeclOK (.data n fs ver)) (hf : FirmDecl (.data n fs ver))
    (h : ∀ f ∈ files, ∃ doc l, dget dir f = some doc ∧ Plain doc ∧ Shallow false (.data n fs ver) 2 doc ∧
      typedLoad (w.dcfg false true) w.ron .none false (.data n fs ver) doc = .ok l) :
    ∃ dir', upgradeConfigs w (.data n fs ver) false false files dir = (dir', .ok ()) ∧
      (∀ f ∈ files, ∃ doc l doc' l', dget dir f = some doc ∧ dget dir' f = some doc' ∧
        typedLoad (w.dcfg false true) w.ron .none false (.data n fs ver) doc = .ok l ∧
        typedLoad (w.dcfg false true) w.ron .none false (.data n fs ver) doc' = .ok l' ∧
        l'.value = l.value ∧ RegEqv (some (.node l.schedules)) (some (.node l'.schedules))) ∧
      (∀ f, f ∉ files → dget dir' f = dget dir f) ∧
      ∀ f, dget (upgradeConfigs w (.data n fs ver) false false files dir').1 f = dget dir' f := by
  obtain ⟨dir', h1, h2, h3, h4⟩ := upgradeConfigs_each w (.data n fs ver) false files dir (by
    intro f hfm
    obtain ⟨doc, l, a1, a2, a3, a4⟩ := h f hfm
    obtain ⟨doc', l', b1, _, _, _, b5⟩ := C55_every_schedules_partial w n fs ver doc l hty hid henv hdecl hf a2 a3 a4
    exact ⟨doc, doc', a1, b1, b5⟩)
  refine ⟨dir', h1, ?_, h3, h4⟩
  intro f hfm
  obtain ⟨doc, l, a1, a2, a3, a4⟩ := h f hfm
  obtain ⟨doc', l', b1, b2, b3, b4, _⟩ := C55_every_schedules_partial w n fs ver doc l hty hid henv hdecl hf a2 a3 a4
  exact ⟨doc, l, doc', l', a1, by rw [h2 f hfm doc a1, b1], a4, b2, b3, b4⟩

/-- two files with schedules, of which one is named twice: both are rewritten, the third is left -/
example : upgradeConfigs ExS.w1 ExS.ty true false ["a", "b", "a"] [("a", ExS.doc), ("b", ExS.doc), ("c", .int 3)] =
    ([("a", ExS.docE), ("b", ExS.docE), ("c", .int 3)], .ok ()) := by
  simp [upgradeConfigs, dget, dset, ExS.upE, ExS.upE2]

end HS
