import Verif.Proofs.Fits
import Verif.Props.OverrideLoad
import Verif.Props.RoundTrip
import Verif.Proofs.Compat
/-!
# Setting a value that is already there

Replacing, in a dumped document, the value at a field by another one that reads the same does not change what is loaded.
-/
namespace HS

/-! ## the way to a field of a document -/

/-- what the version hook needs to do nothing but remove the version -/
def CurVer (ver : Option VerInfo) (d : List (String × Val)) : Prop :=
  ∀ vi, ver = some vi → dget d "version" = some (.int vi.version) ∧ ∀ e ∈ vi.rules, e.1 < vi.version

/-- `D` is a document for `t` in which the path `p` leads, through dicts with the current version, to the value `x0` of a field of
type `tp` -/
inductive WayTo : PyTy → List String → PyTy → Val → Val → Prop
  | nil (t D) : WayTo t [] t D D
  | cons {t n fs ver k f ks tp d x x0} : Strips t (.data n fs ver) → fs.find? (fun f => f.name == k) = some f → CurVer ver d → (dkeys d).Nodup →
      (ver.isSome = true → k ≠ "version") → k ≠ NAME_KEY → k ≠ WEAK_REF → dget d k = some x → x.isWeak = false →
      WayTo f.ty ks tp x x0 → WayTo t (k :: ks) tp (.dict d) x0

/-- the path of a field, as `from_dict` and `asdict` write it -/
def pathTo : String → List String → String
  | path, [] => path
  | path, k :: ks => pathTo (fieldPath path k) ks

theorem strips_fun {a b : PyTy} (h : Strips a b) : ∀ {b'}, Strips a b' → b = b' := by
  induction h with
  | refl n fs ver => intro b' h'; cases h' with | refl => rfl
  | opt _ ih => intro b' h'; cases h' with | opt h' => exact ih h'

theorem WayTo.at? {t tp : PyTy} {p : List String} {D x0 : Val} (h : WayTo t p tp D x0) : D.at? p = some x0 := by
  induction h with
  | nil => rfl
  | cons _ _ _ _ _ _ _ hd _ _ ih => simp only [at?_dict_cons, hd, Option.bind_some, ih]

theorem ddel_dset_comm {α : Type} : ∀ (d : List (String × α)) (k j : String) (x : α), k ≠ j → ddel (dset d k x) j = dset (ddel d j) k x := by
  intro d
  induction d with
  | nil => intro k j x h; simp [dset, ddel, h]
  | cons e d ih =>
    obtain ⟨a, y⟩ := e
    intro k j x h
    by_cases h1 : a = k
    · subst h1
      simp [dset, ddel, h]
    · by_cases h2 : a = j
      · subst h2
        simp [dset, ddel, h1, ih k a x h]
      · simp [dset, ddel, h1, h2, ih k j x h]

theorem itemsLoop_dset (f : String → Val → Option Res) (ig : Bool) : ∀ (d : List (String × Val)) (k : String) (x0 x : Val),
    dget d k = some x0 → x0.isWeak = false → x.isWeak = false → f k x = f k x0 →
    itemsLoop f ig (dset d k x) = itemsLoop f ig d := by
  intro d
  induction d with
  | nil => intro k x0 x h; simp [dget] at h
  | cons e d ih =>
    obtain ⟨a, y⟩ := e
    intro k x0 x h h1 h2 h3
    by_cases e : a = k
    · subst e
      simp only [dget, if_true, Option.some.injEq] at h
      subst h
      simp only [dset, if_true, itemsLoop, h1, h2, h3]
    · simp only [dget, if_neg e] at h
      simp only [dset, if_neg e, itemsLoop, ih k x0 x h h1 h2 h3]

/-- at the current version the version hook only removes the version -/
theorem fromDict_cur (c : DCfg) (n : String) (fs : List Fld) (ver : Option VerInfo) (ig : Bool) (path : String)
    (d : List (String × Val)) (h : CurVer ver d) :
    fromDict c (.data n fs ver) ig path (.dict d)
      = fromDict c (.data n fs .none) ig path (.dict (if ver.isSome then ddel d "version" else d)) := by
  cases ver with
  | none => rfl
  | some vi =>
    obtain ⟨h1, h2⟩ := h vi rfl
    have hall : (vi.rules.all fun e => decide (e.1 < vi.version)) = true := by simpa using h2
    simp only [fromDict, versionHook, h1, VerInfo.upgradeAny, hall, if_true, Val.asRangeInt, bind, Except.bind,
      applyUpgrades_self vi h2, asRawDict, Option.isSome, pure, Except.pure]

theorem fromDict_dset (c : DCfg) {n : String} {fs : List Fld} {ver : Option VerInfo} (ig : Bool) (path : String)
    {d : List (String × Val)} {k : String} {f : Fld} {x0 x : Val} (hcur : CurVer ver d) (hv : ver.isSome = true → k ≠ "version")
    (hf : fs.find? (fun f => f.name == k) = some f) (hd : dget d k = some x0) (h0 : x0.isWeak = false) (hx : x.isWeak = false)
    (hsame : fromDict c f.ty false (fieldPath path k) x = fromDict c f.ty false (fieldPath path k) x0) :
    fromDict c (.data n fs ver) ig path (.dict (dset d k x)) = fromDict c (.data n fs ver) ig path (.dict d) := by
  have hcur' : CurVer ver (dset d k x) := by
    intro vi hvi
    refine ⟨?_, (hcur vi hvi).2⟩
    rw [dget_dset_ne]
    · exact (hcur vi hvi).1
    · exact hv (by simp [hvi])
  rw [fromDict_cur c n fs ver ig path _ hcur', fromDict_cur c n fs ver ig path _ hcur, fromDict_data_dict, fromDict_data_dict]
  have hfd : fdField c fs k (fieldPath path k) x = fdField c fs k (fieldPath path k) x0 := by
    rw [fdField_find c _ _ hf, fdField_find c _ _ hf, hsame]
  cases hs : ver.isSome with
  | false =>
    simp only [Bool.false_eq_true, if_false]
    rw [itemsLoop_dset _ ig d k x0 x hd h0 hx hfd]
  | true =>
    simp only [if_true]
    rw [ddel_dset_comm _ _ _ _ (hv hs), itemsLoop_dset _ ig _ k x0 x _ h0 hx hfd]
    rw [dget_ddel_ne _ (Ne.symm (hv hs))]; exact hd

/-- setting a value that reads the same -/
theorem set_same (c : DCfg) {t tp : PyTy} {p : List String} {D x0 : Val} (hway : WayTo t p tp D x0) : p ≠ [] →
    ∀ (x : Val) (path : String), x.isWeak = false →
    fromDict c tp false (pathTo path p) x = fromDict c tp false (pathTo path p) x0 →
    ∃ D', setPath x D p = .ok D' ∧ D'.isWeak = D.isWeak ∧ D'.isDict = true ∧
      (∀ ig, fromDict c t ig path D' = fromDict c t ig path D) ∧
      ∀ q tq y, Unrelated p q → WayTo t q tq D y → WayTo t q tq D' y := by
  induction hway with
  | nil => intro h; exact absurd rfl h
  | @cons t n fs ver k f ks tp d x1 x0 hst hf hcur hnd hv hnk hwk hd hw hway ih =>
    intro _ x path hx hsame
    have step : ∀ c' : Val, c'.isWeak = false →
        fromDict c f.ty false (fieldPath path k) c' = fromDict c f.ty false (fieldPath path k) x1 →
        (∀ q tq y, Unrelated ks q → WayTo f.ty q tq x1 y → WayTo f.ty q tq c' y) →
        (Val.dict (dset d k c')).isWeak = (Val.dict d).isWeak ∧ (Val.dict (dset d k c')).isDict = true ∧
        (∀ ig, fromDict c t ig path (.dict (dset d k c')) = fromDict c t ig path (.dict d)) ∧
        ∀ q tq y, Unrelated (k :: ks) q → WayTo t q tq (.dict d) y → WayTo t q tq (.dict (dset d k c')) y := by
      intro c' hc' hs' hq'
      refine ⟨?_, rfl, ?_, ?_⟩
      · simp only [Val.isWeak, dhas, dget_dset_ne _ _ hwk]
      · intro ig
        rw [fromDict_strips c hst, fromDict_strips c hst]
        exact fromDict_dset c ig path hcur hv hf hd hw hc' hs'
      · intro q tq y hun hq
        cases hq with
        | nil => exact absurd (List.nil_prefix) hun.2
        | @cons _ n' fs' ver' j g js _ _ z _ hst' hg hcur' hnd' hv' hnk' hwk' hd' hw' hq =>
          have := strips_fun hst hst'
          cases this
          by_cases e : j = k
          · subst e
            rw [hf] at hg
            cases hg
            rw [hd] at hd'
            cases hd'
            refine .cons hst hf ?_ (nodup_dset _ _ _ hnd) hv hnk hwk (dget_dset_self _ _ _) hc' (hq' js tq y ?_ hq)
            · intro vi hvi
              exact ⟨by rw [dget_dset_ne _ _ (hv (by simp [hvi]))]; exact (hcur vi hvi).1, (hcur vi hvi).2⟩
            · refine ⟨fun h => hun.1 ?_, fun h => hun.2 ?_⟩
              · exact (List.cons_prefix_cons).2 ⟨rfl, h⟩
              · exact (List.cons_prefix_cons).2 ⟨rfl, h⟩
          · refine .cons hst hg ?_ (nodup_dset _ _ _ hnd) hv' hnk' hwk' (by rw [dget_dset_ne _ _ (Ne.symm e)]; exact hd') hw' hq
            intro vi hvi
            exact ⟨by rw [dget_dset_ne _ _ (hv (by simp [hvi]))]; exact (hcur vi hvi).1, (hcur vi hvi).2⟩
    cases hway with
    | nil =>
      refine ⟨.dict (dset d k x), by simp [setPath, pySetItem], step x hx hsame ?_⟩
      intro q tq y hun
      exact absurd (List.nil_prefix) hun.1
    | @cons _ n' fs' ver' k' f' ks' _ d' x' _ a1 a2 a3 a4 a5 a6 a7 a8 a9 a10 =>
      obtain ⟨c', g1, g2, g3, g4, g5⟩ := ih (by simp) x (fieldPath path k) hx hsame
      refine ⟨.dict (dset d k c'), ?_, step c' (by rw [g2]; exact hw) (g4 false) g5⟩
      rw [setPath_cons_dict, hd]
      simp [Val.isNone, g1]

/-! ## what a dump looks like on the way to a field -/

/-- from `t`, through (optional) dataclasses, to a field of type `tp` -/
inductive Under : PyTy → List String → PyTy → Prop
  | nil (t) : Under t [] t
  | cons {t n fs ver k f ks tp} : Strips t (.data n fs ver) → fs.find? (fun f => f.name == k) = some f → Under f.ty ks tp →
      Under t (k :: ks) tp

theorem fieldAt_under {fs : List Fld} {p : List String} {t : PyTy} (h : FieldAt fs p t) (n : String) (ver : Option VerInfo) :
    Under (.data n fs ver) p t := by
  have key : ∀ {u : PyTy}, Strips u (.data n fs ver) → Under u p t := by
    induction h generalizing n ver with
    | here hf => intro u hu; exact .cons hu hf (.nil _)
    | there hf hst _ ih => intro u hu; exact .cons hu hf (ih _ _ hst)
  exact key (.refl _ _ _)

/-- the conditions on the classes of a config -/
structure SoundTy (e : Ext) (env : String → ClsInfo) (t : PyTy) : Prop where
  ty : TyOK e t
  ids : IdsOK t
  env : EnvOK env t
  decl : DeclOK t
  firm : FirmDecl t

theorem SoundTy.strips {e : Ext} {env : String → ClsInfo} {t u : PyTy} (h : Strips t u) (hs : SoundTy e env t) : SoundTy e env u := by
  induction h with
  | refl => exact hs
  | opt _ ih =>
    apply ih
    obtain ⟨h1, h2, h3, h4, h5⟩ := hs
    simp only [PyTy.optional, TyOK, TyOKs] at h1
    simp only [PyTy.optional, IdsOK, IdsOKHead] at h2
    simp only [PyTy.optional, EnvOK, EnvOKs] at h3
    simp only [PyTy.optional, DeclOK, DeclOKs] at h4
    simp only [PyTy.optional, FirmDecl, FirmDecls] at h5
    exact ⟨h1.1.1, h2, h3.1, h4.1, h5.1⟩

theorem SoundTy.field {e : Ext} {env : String → ClsInfo} {n : String} {fs : List Fld} {ver : Option VerInfo}
    (hs : SoundTy e env (.data n fs ver)) {f : Fld} (hf : f ∈ fs) : SoundTy e env f.ty := by
  obtain ⟨h1, h2, h3, h4, h5⟩ := hs
  simp only [TyOK] at h1
  simp only [IdsOK] at h2
  simp only [EnvOK] at h3
  simp only [DeclOK] at h4
  simp only [FirmDecl] at h5
  have key : ∀ fs : List Fld, f ∈ fs → FldsOK e fs → IdsOKf fs → EnvOKf env fs → DeclOKf fs → FirmDeclf fs → SoundTy e env f.ty := by
    intro fs
    induction fs with
    | nil => intro h; simp at h
    | cons g fs ih =>
      intro hf g1 g2 g3 g4 g5
      simp only [FldsOK] at g1; simp only [IdsOKf] at g2; simp only [EnvOKf] at g3; simp only [DeclOKf] at g4; simp only [FirmDeclf] at g5
      rcases List.mem_cons.1 hf with rfl | hf
      · obtain ⟨k, t, d⟩ := f
        simp only [FldOK] at g1; simp only [IdsOK1] at g2; simp only [EnvOKf1] at g3; simp only [DeclOK1] at g4; simp only [FirmDecl1] at g5
        exact ⟨g1.1, g2.1, g3.1, g4.1.1, g5.1.1⟩
      · exact ih hf g1.2 g2.2 g3.2 g4.2 g5.2
  exact key fs hf h1.2.2.2.2 h2.2.2 h3.2 h4.2.2 h5

theorem SoundTy.under {e : Ext} {env : String → ClsInfo} {t tp : PyTy} {p : List String} (h : Under t p tp) (hs : SoundTy e env t) :
    SoundTy e env tp := by
  induction h with
  | nil => exact hs
  | cons hst hf _ ih => exact ih ((hs.strips hst).field (List.mem_of_find?_eq_some hf))

theorem SoundTy.classOK {e : Ext} {env : String → ClsInfo} {n : String} {fs : List Fld} {ver : Option VerInfo}
    (hs : SoundTy e env (.data n fs ver)) : ClassOK fs ver := by
  have h1 := hs.ty
  have h2 := hs.ids
  simp only [TyOK] at h1
  simp only [IdsOK] at h2
  exact ⟨h1.1, h2.2.1, h1.2.2.1, h1.2.2.2.1⟩

/-- a plain value round trips, with no schedules -/
theorem fits_storable {e : Ext} {t : PyTy} {v : Val} (h1 : TyOK e t) (h2 : IdsOK t) (h3 : Storable t v) : Fits e false t none v :=
  (restored_fits e t none none "" v v [] (restored_typed e t "" v h1 h2 h3) (fun _ => rfl) trivial (by simp)).1

theorem fits_strips {e : Ext} {env : String → ClsInfo} {t u : PyTy} (h : Strips t u) (hs : SoundTy e env t) {r : Option Reg} {n : String}
    {kvs : List (String × Val)} (hf : Fits e false t r (.inst n kvs)) : Fits e false u r (.inst n kvs) := by
  induction h with
  | refl => exact hf
  | @opt t u h ih =>
    have hs' : SoundTy e env t := by
      obtain ⟨h1, h2, h3, h4, h5⟩ := hs
      simp only [PyTy.optional, TyOK, TyOKs] at h1
      simp only [PyTy.optional, IdsOK, IdsOKHead] at h2
      simp only [PyTy.optional, EnvOK, EnvOKs] at h3
      simp only [PyTy.optional, DeclOK, DeclOKs] at h4
      simp only [PyTy.optional, FirmDecl, FirmDecls] at h5
      exact ⟨h1.1.1, h2, h3.1, h4.1, h5.1⟩
    apply ih hs'
    simp only [PyTy.optional, Fits, FitsHead] at hf
    rcases hf with ⟨rfl, _, h1⟩ | ⟨_, _, h1⟩ | ⟨_, h1⟩
    · refine fits_storable hs'.ty hs'.ids ⟨?_, h1.2⟩
      have := h1.1
      simp only [HasType, HasTypeAny, or_false] at this
      rcases this with h | h
      · exact h
      · exact (nomatch h)
    · exact (nomatch h1)
    · exact h1

theorem fitsFs_find {e : Ext} {b : Bool} {r : Option Reg} {k : String} {f : Fld} : ∀ {fs : List Fld} {kvs : List (String × Val)} {v : Val},
    FitsFs e b fs r kvs → fs.find? (fun f => f.name == k) = some f → dget kvs k = some v → Fits e b f.ty (Reg.child r k) v := by
  intro fs
  induction fs with
  | nil => intro kvs v _ h; simp at h
  | cons g fs ih =>
    intro kvs v h hf hv
    obtain ⟨n, t, d⟩ := g
    simp only [FitsFs, FitsF] at h
    obtain ⟨x, rest, rfl, h1, h2⟩ := h
    by_cases hn : n = k
    · subst hn
      simp [List.find?, Fld.name] at hf
      subst hf
      simp [dget, Fld.name] at hv
      subst hv
      exact h1
    · have : ((Fld.mk n t d).name == k) = false := by simp [hn, Fld.name]
      simp only [List.find?, this] at hf
      have hv : dget rest k = some v := by simpa [dget, Fld.name, hn] using hv
      exact ih h2 hf hv

theorem fitsFs_keys {e : Ext} {b : Bool} {r : Option Reg} : ∀ {fs : List Fld} {kvs : List (String × Val)},
    FitsFs e b fs r kvs → dkeys kvs = fs.map Fld.name := by
  intro fs
  induction fs with
  | nil => intro kvs h; simp only [FitsFs] at h; subst h; rfl
  | cons g fs ih =>
    intro kvs h
    simp only [FitsFs] at h
    obtain ⟨x, rest, rfl, _, h2⟩ := h
    have := ih h2
    simp only [dkeys] at this ⊢
    simp [this]

/-- the document of a dataclass -/
theorem pack_doc {c : SerCfg} (hc : DumpCfgS c) {n : String} {fs : List Fld} {ver : Option VerInfo} (hty : ClassOK fs ver)
    (henv : EnvOK c.env (.data n fs ver)) {as : List (String × Val)} (hka : dkeys as = fs.map Fld.name) {w : Val}
    (h : packAttrs c n as = .ok w) :
    ∃ d, ronTrip w = .dict d ∧ CurVer ver d ∧ (∀ f ∈ fs, dget d f.name = dget (ronTripD as) f.name) ∧
      (Val.dict d).isWeak = false ∧ (dkeys d).Nodup := by
  obtain ⟨hnd, hnames, hver, hvok⟩ := hty
  simp only [EnvOK] at henv
  have hnda : (dkeys as).Nodup := by rw [hka]; exact hnd
  have hwk : WEAK_REF ∉ dkeys as := by
    rw [hka]; intro h
    obtain ⟨f, hf, hfe⟩ := List.mem_map.1 h
    exact (hnames f hf).1.2.1 hfe
  cases ver with
  | none =>
    have e : modifyAttrs c n as = as := by simp [modifyAttrs, henv.1, hc.elide]
    simp only [packAttrs, e, hc.named, if_true] at h
    split at h
    · cases h
      have hnn : NAME_KEY ∉ dkeys (ronTripD as) := by
        rw [dkeys_ronTripD, hka]; intro h
        obtain ⟨f, hf, hfe⟩ := List.mem_map.1 h
        exact (hnames f hf).1.1 hfe
      refine ⟨_, rfl, by intro vi h; exact (nomatch h), ?_, ?_, ?_⟩
      · intro f hf
        simp only [dget, if_neg (Ne.symm (hnames f hf).1.1)]
      · simp only [Val.isWeak, dhas]
        have : dget ((NAME_KEY, Val.str n) :: ronTripD as) WEAK_REF = none := by
          apply dget_none_of_not_mem
          simp only [dkeys, List.map_cons, List.mem_cons, not_or]
          refine ⟨by decide, ?_⟩
          have := dkeys_ronTripD as
          simp only [dkeys] at this hwk
          rw [this]; exact hwk
        simp [this]
      · have := dkeys_ronTripD as
        simp only [dkeys, List.map_cons, List.nodup_cons] at this hnda hnn ⊢
        exact ⟨hnn, by rw [this]; exact hnda⟩
    · exact (nomatch h)
  | some vi =>
    have hnv : "version" ∉ dkeys as := by
      rw [hka]; intro h
      obtain ⟨f, hf, hfe⟩ := List.mem_map.1 h
      exact hver rfl f hf hfe
    simp only [packAttrs, modifyAttrs, henv.1, hc.elide, hc.named, hc.versioned, Option.map_some, foldl_dset_version _ _ hnda hnv] at h
    simp only [if_true, Bool.false_eq_true, if_false] at h
    split at h
    · cases h
      have hnn : NAME_KEY ∉ dkeys (ronTripD as) := by
        rw [dkeys_ronTripD, hka]; intro h
        obtain ⟨f, hf, hfe⟩ := List.mem_map.1 h
        exact (hnames f hf).1.1 hfe
      have hnv' : "version" ∉ dkeys (ronTripD as) := by rw [dkeys_ronTripD]; exact hnv
      refine ⟨_, rfl, ?_, ?_, ?_, ?_⟩
      · intro vi' h
        cases h
        exact ⟨by simp [ronTripD, ronTripP, ronTrip, dget, NAME_KEY], hvok vi rfl⟩
      · intro f hf
        have h1 : ¬ "version" = f.name := fun h => hver rfl f hf h.symm
        simp only [ronTripD, ronTripP, dget, if_neg (Ne.symm (hnames f hf).1.1), if_neg h1]
      · simp only [Val.isWeak, dhas, ronTripD, ronTripP]
        have : dget ((NAME_KEY, Val.str n) :: ("version", ronTrip (Val.int vi.version)) :: ronTripD as) WEAK_REF = none := by
          apply dget_none_of_not_mem
          simp only [dkeys, List.map_cons, List.mem_cons, not_or]
          refine ⟨by decide, by decide, ?_⟩
          have := dkeys_ronTripD as
          simp only [dkeys] at this hwk
          rw [this]; exact hwk
        simp [this]
      · have := dkeys_ronTripD as
        simp only [dkeys, List.map_cons, List.nodup_cons, ronTripD, ronTripP, List.mem_cons, not_or] at this hnda hnn hnv' ⊢
        exact ⟨⟨by decide, hnn⟩, hnv', by rw [this]; exact hnda⟩
    · exact (nomatch h)

/-- a dumped config on the way to a field -/
theorem way_dump {c : SerCfg} {e : Ext} (hc : DumpCfgS c) {t tp : PyTy} {p : List String} (hu : Under t p tp) :
    ∀ (r : Option Reg) (path : String) (v y w : Val) (bs : List (String × Val)), SoundTy e c.env t → Fits e false t r v → At c path r →
    asdict c path v = .ok (w, bs) → valAt v p = some y → (∀ k r', Reg.child r k = some r' → r'.WF k) →
    ∃ wp bp rp, ((ronTrip wp).isWeak = false → WayTo t p tp (ronTrip w) (ronTrip wp)) ∧ (p ≠ [] → (ronTrip w).isWeak = false) ∧
      asdict c (pathTo path p) y = .ok (wp, bp) ∧ At c (pathTo path p) rp ∧ (∀ q, Reg.at rp q = Reg.at r (p ++ q)) ∧
      Fits e false tp rp y ∧ ((p ≠ [] ∨ ∃ k, ∀ r', r = some r' → r'.WF k) → ∃ k, ∀ r', rp = some r' → r'.WF k) := by
  induction hu with
  | nil t =>
    intro r path v y w bs _ hf hat hd hv _
    simp only [valAt, Option.some.injEq] at hv
    subst hv
    exact ⟨w, bs, r, fun _ => .nil _ _, by simp, hd, hat, fun _ => rfl, hf, by simp⟩
  | @cons t n fs ver k f ks tp hst hfind hu ih =>
    intro r path v y w bs hs hf hat hd hv hwf
    cases v <;> try (simp [valAt] at hv; done)
    rename_i n' kvs
    have hs1 := hs.strips hst
    have hf1 := fits_strips hst hs hf
    simp only [Fits] at hf1
    obtain ⟨hcls, hr, _, kvs', he, hfs⟩ := hf1
    cases he
    have hname : f.name = k := by simpa using List.find?_some hfind
    have hmem := List.mem_of_find?_eq_some hfind
    have hids := hcls.2.1 f hmem
    rw [hname] at hids
    simp only [valAt] at hv
    cases hk : dget kvs k with
    | none => rw [hk] at hv; exact (nomatch hv)
    | some v1 =>
      rw [hk] at hv
      have hff := fitsFs_find hfs hfind hk
      simp only [asdict, serHooks_keep hat hr (.inst n kvs) (by intro _ _; simp), bind, Except.bind, pure, Except.pure] at hd
      cases hD : asdictD c path kvs with
      | error _ => rw [hD] at hd; exact (nomatch hd)
      | ok q =>
        obtain ⟨as, bs'⟩ := q
        rw [hD] at hd
        dsimp only at hd
        cases hP : packAttrs c n as with
        | error _ => rw [hP] at hd; exact (nomatch hd)
        | ok w' =>
          rw [hP] at hd
          simp only [Except.ok.injEq, Prod.mk.injEq] at hd
          obtain ⟨rfl, rfl⟩ := hd
          obtain ⟨g1, g2⟩ := asdictD_spec hD
          obtain ⟨w1, b1, g3, g4⟩ := g2 k v1 hk
          obtain ⟨d, k1, k2, k3, k4, k5⟩ := pack_doc hc hcls hs1.env (g1.trans (fitsFs_keys hfs)) hP
          obtain ⟨wp, bp, rp, i1, i2, i3, i4, i5, i6, i7⟩ := ih (Reg.child r k) (joinPath path k) v1 y w1 b1 (hs1.field hmem) hff
            (hat.child hr hids.2) g4 hv (by
              intro k' r' hc'
              cases hrk : Reg.child r k with
              | none => rw [hrk] at hc'; exact (nomatch hc')
              | some r1 =>
                have := hwf k r1 hrk
                rw [hrk] at hc'
                cases r1 with
                | sched => exact (nomatch hc')
                | node es =>
                  simp only [Reg.WF] at this
                  exact this.2.2.mem (dget_mem hc'))
          refine ⟨wp, bp, rp, ?_, ?_, i3, i4, ?_, i6, ?_⟩
          · intro hw
            rw [k1]
            refine .cons hst hfind k2 k5 ?_ hids.1.1 hids.1.2.1 (x := ronTrip w1) ?_ ?_ (i1 hw)
            · intro hv'
              rw [← hname]; exact hcls.2.2.1 hv' f hmem
            · rw [← hname, k3 f hmem, hname, dget_ronTripD, g3]; rfl
            · by_cases hks : ks = []
              · subst hks
                have hy : asdict c (joinPath path k) v1 = .ok (wp, bp) := by
                  have e1 : v1 = y := by simpa [valAt] using hv
                  rw [e1]; exact i3
                rw [g4] at hy
                cases hy
                exact hw
              · exact i2 hks
          · intro _; rw [k1]; exact k4
          · intro q
            rw [List.cons_append, Reg.at_cons]
            exact i5 q
          · intro _
            exact i7 (.inr ⟨k, fun r' => hwf k r'⟩)

/-! ## reading a document along a path -/

mutual
/-- whether the document comes from a file matters for blobs only -/
theorem fromDict_file (c : DCfg) (a b : Bool) (e : Ext) : ∀ (t : PyTy), TyOK e t → ∀ (ig : Bool) (path : String) (v : Val),
    fromDict { c with file := a } t ig path v = fromDict { c with file := b } t ig path v
  | .int, _, ig, path, v => by simp only [fromDict]
  | .float, _, ig, path, v => by simp only [fromDict]
  | .str, _, ig, path, v => by simp only [fromDict]
  | .bool, _, ig, path, v => by simp only [fromDict]
  | .noneT, _, ig, path, v => by simp only [fromDict]
  | .list t, h, ig, path, v => by
    simp only [TyOK] at h
    have ih := fromDict_file c a b e t h
    simp only [fromDict, ih]
  | .tuple ts, h, ig, path, v => by
    simp only [TyOK] at h
    have ih := fdNth_file c a b e ts h
    simp only [fromDict, ih]
  | .dict _ t, h, ig, path, v => by
    simp only [TyOK] at h
    have ih := fromDict_file c a b e t h.2
    simp only [fromDict, ih]
  | .union ts, h, ig, path, v => by
    simp only [TyOK] at h
    have ih1 := fdHead_file c a b e ts h.1
    have ih2 := fdNamed_file c a b e ts h.1
    simp only [fromDict, ih1, ih2]
  | .data n fs ver, h, ig, path, v => by
    simp only [TyOK] at h
    have ih := fdField_file c a b e fs h.2.2.2.2
    simp only [fromDict, ih, asRawDict]
  | .enum _ _, _, ig, path, v => by simp only [fromDict]
  | .literal _, _, ig, path, v => by simp only [fromDict]
  | .blob _, h, ig, path, v => by simp [TyOK] at h
termination_by structural x => x
theorem fdHead_file (c : DCfg) (a b : Bool) (e : Ext) : ∀ (ts : List PyTy), TyOKs e ts → ∀ (ig : Bool) (path : String) (v : Val),
    fdHead { c with file := a } ts ig path v = fdHead { c with file := b } ts ig path v
  | [], _, ig, path, v => by simp only [fdHead]
  | t :: ts, h, ig, path, v => by
    simp only [TyOKs] at h
    have ih := fromDict_file c a b e t h.1
    simp only [fdHead, ih]
termination_by structural x => x
theorem fdNth_file (c : DCfg) (a b : Bool) (e : Ext) : ∀ (ts : List PyTy), TyOKs e ts → ∀ (i : Nat) (path : String) (v : Val),
    fdNth { c with file := a } ts i path v = fdNth { c with file := b } ts i path v
  | [], _, i, path, v => by simp only [fdNth]
  | t :: ts, h, i, path, v => by
    simp only [TyOKs] at h
    have ih := fromDict_file c a b e t h.1
    have ih2 := fdNth_file c a b e ts h.2
    cases i <;> simp only [fdNth, ih, ih2]
termination_by structural x => x
theorem fdNamed_file (c : DCfg) (a b : Bool) (e : Ext) : ∀ (ts : List PyTy), TyOKs e ts → ∀ (n : Val) (ig : Bool) (path : String) (v : Val),
    fdNamed { c with file := a } ts n ig path v = fdNamed { c with file := b } ts n ig path v
  | [], _, n, ig, path, v => by simp only [fdNamed]
  | t :: ts, h, n, ig, path, v => by
    simp only [TyOKs] at h
    have ih := fromDict_file c a b e t h.1
    have ih2 := fdNamed_file c a b e ts h.2
    simp only [fdNamed, ih, ih2]
termination_by structural x => x
theorem fdField_file (c : DCfg) (a b : Bool) (e : Ext) : ∀ (fs : List Fld), FldsOK e fs → ∀ (k path : String) (v : Val),
    fdField { c with file := a } fs k path v = fdField { c with file := b } fs k path v
  | [], _, k, path, v => by simp only [fdField]
  | f :: fs, h, k, path, v => by
    simp only [FldsOK] at h
    have ih := fdFld_file c a b e f h.1
    have ih2 := fdField_file c a b e fs h.2
    simp only [fdField, ih, ih2]
termination_by structural x => x
theorem fdFld_file (c : DCfg) (a b : Bool) (e : Ext) : ∀ (f : Fld), FldOK e f → ∀ (k path : String) (v : Val),
    fdFld { c with file := a } f k path v = fdFld { c with file := b } f k path v
  | .mk n t d, h, k, path, v => by
    simp only [FldOK] at h
    have ih := fromDict_file c a b e t h
    simp only [fdFld, ih]
termination_by structural x => x
end

/-- after the version hooks of the classes on the way, the path `p` leads through dicts to the value `x0` of a field of type `tp` -/
inductive ReadsAt (am : Bool) : PyTy → List String → PyTy → Val → Val → Prop
  | nil (t D) : ReadsAt am t [] t D D
  | cons {t n fs ver k f ks tp d d' x x0} : Strips t (.data n fs ver) → fs.find? (fun f => f.name == k) = some f →
      upgraded am ver (.dict d) = .ok (.dict d') → (dkeys d').Nodup → k ≠ NAME_KEY → dget d' k = some x → x.isWeak = false →
      ReadsAt am f.ty ks tp x x0 → ReadsAt am t (k :: ks) tp (.dict d) x0

theorem fromDict_hook (c : DCfg) (n : String) (fs : List Fld) (ver : Option VerInfo) (ig : Bool) (path : String)
    (d d' : List (String × Val)) (h : upgraded c.allowMissing ver (.dict d) = .ok (.dict d')) :
    fromDict c (.data n fs ver) ig path (.dict d) = fromDict c (.data n fs .none) ig path (.dict d') := by
  cases ver with
  | none => simp only [upgraded, Except.ok.injEq, Val.dict.injEq] at h; rw [h]
  | some vi =>
    simp only [upgraded] at h
    simp only [fromDict, h, bind, Except.bind, pure, Except.pure]

theorem reads_load (c : DCfg) {t tp : PyTy} {p : List String} {D x0 : Val} (h : ReadsAt c.allowMissing t p tp D x0) : p ≠ [] →
    ∀ (ig : Bool) (path : String) (v : Val) (es : List Ev), fromDict c t ig path D = .ok (v, es) →
    ∃ y es', valAt v p = some y ∧ fromDict c tp false (pathTo path p) x0 = .ok (y, es') := by
  induction h with
  | nil => intro h; exact absurd rfl h
  | @cons t n fs ver k f ks tp d d' x x0 hst hf hup hnd hnk hd hw hr ih =>
    intro _ ig path v es h
    rw [fromDict_strips c hst, fromDict_hook c n fs ver ig path d d' hup, fromDict_data_dict] at h
    simp only [bind, Except.bind, pure, Except.pure] at h
    split at h
    · simp at h
    · rename_i kw hkw
      split at h
      · simp at h
      · rename_i kvs hkvs
        simp only [Except.ok.injEq, Prod.mk.injEq] at h
        obtain ⟨y, es', h1, h2⟩ := itemsLoop_dget (kw := kw.1) (es := kw.2) hkw hd hnk hw (by simp [fdField_find c _ _ hf])
        obtain ⟨y', h3, h4⟩ := fillFields_find hkvs hf
        have hname : f.name = k := by simpa using List.find?_some hf
        simp only [fieldValue, hname, h1, Except.ok.injEq] at h4
        subst h4
        rw [fdField_find c _ _ hf, Option.some.injEq] at h2
        by_cases hks : ks = []
        · subst hks
          cases hr
          exact ⟨y, es', by rw [← h.1]; simp [valAt, h3], h2⟩
        · obtain ⟨z, es'', h5, h6⟩ := ih hks false (fieldPath path k) y es' h2
          exact ⟨z, es'', by rw [← h.1]; simp [valAt, h3, h5], h6⟩

theorem schedIn_strips {am : Bool} {t u : PyTy} (h : Strips t u) {D : Val} {q : List String} {s : String} {b : Bool}
    (hs : SchedIn am t D q s b) : SchedIn am u D q s b := by
  induction h with
  | refl => exact hs
  | opt _ ih =>
    apply ih
    cases hs with
    | opt _ h => exact h

theorem strips_schedIn {am : Bool} {t u : PyTy} (h : Strips t u) {D : Val} {q : List String} {s : String} {b : Bool}
    (hs : SchedIn am u D q s b) : SchedIn am t D q s b := by
  induction h with
  | refl => exact hs
  | opt _ ih => exact .opt (by simp [isOptionalArgs, PyTy.isNoneT]) (ih hs)

/-- the schedules of a document at and below a path, and none above it -/
theorem reads_sched {e : Ext} {env : String → ClsInfo} {am : Bool} {t tp : PyTy} {p : List String} {D x0 : Val}
    (h : ReadsAt am t p tp D x0) : SoundTy e env t → ∀ (q : List String) (s : String) (b : Bool),
    SchedIn am t D q s b → (q <+: p ∨ p <+: q) → ∃ q', q = p ++ q' ∧ SchedIn am tp x0 q' s b := by
  induction h with
  | nil => intro _ q s b h _; exact ⟨q, rfl, h⟩
  | @cons t n fs ver k f ks tp d d' x x0 hst hf hup hnd hnk hd hw hr ih =>
    intro hs q s b h hrel
    have h1 := schedIn_strips hst h
    have hs1 := hs.strips hst
    have hname : f.name = k := by simpa using List.find?_some hf
    have hmem := List.mem_of_find?_eq_some hf
    cases h1 with
    | @field _ _ _ _ doc' x' n' t' dd segs _ _ hup' hx' hw' hfld hsub =>
      rw [hup] at hup'
      cases hup'
      have hk : n' = k := by
        rcases hrel with h | h
        · exact (List.cons_prefix_cons.1 h).1
        · exact ((List.cons_prefix_cons.1 h).1).symm
      subst hk
      have hxx : x' = x := by
        have := dget_of_mem hnd (k := n') (v := x') (by simpa [docEntries] using hx')
        rw [hd] at this
        cases this; rfl
      subst hxx
      have hff : f = .mk n' t' dd := by
        have hnd := hs1.classOK.1
        have hx := find_of_mem hnd hfld
        rw [Fld.name] at hx
        rw [hf] at hx
        cases hx; rfl
      subst hff
      obtain ⟨q', h2, h3⟩ := ih (hs1.field hmem) segs s b hsub (by
        rcases hrel with h | h
        · exact .inl (List.cons_prefix_cons.1 h).2
        · exact .inr (List.cons_prefix_cons.1 h).2)
      exact ⟨q', by rw [h2]; rfl, h3⟩

theorem sched_reads {am : Bool} {t tp : PyTy} {p : List String} {D x0 : Val}
    (h : ReadsAt am t p tp D x0) {q : List String} {s : String} {b : Bool} (hs : SchedIn am tp x0 q s b) :
    SchedIn am t D (p ++ q) s b := by
  induction h with
  | nil => exact hs
  | @cons t n fs ver k f ks tp d d' x x0 hst hf hup hnd hnk hd hw hr ih =>
    have hname : f.name = k := by simpa using List.find?_some hf
    have hmem := List.mem_of_find?_eq_some hf
    obtain ⟨k', t', dd⟩ := f
    simp only [Fld.name] at hname
    subst hname
    exact strips_schedIn hst (.field hup (by simpa [docEntries] using dget_mem hd) hw hmem (ih hs))

/-- a document in which nothing is to be upgraded on the way -/
theorem WayTo.reads {am : Bool} {t tp : PyTy} {p : List String} {D x0 : Val} (h : WayTo t p tp D x0) : ReadsAt am t p tp D x0 := by
  induction h with
  | nil => exact .nil _ _
  | @cons t n fs ver k f ks tp d x x0 hst hf hcur hnd hv hnk hwk hd hw hway ih =>
    have hup : upgraded am ver (.dict d) = .ok (.dict (if ver.isSome then ddel d "version" else d)) := by
      cases ver with
      | none => rfl
      | some vi =>
        obtain ⟨h1, h2⟩ := hcur vi rfl
        have hall : (vi.rules.all fun e => decide (e.1 < vi.version)) = true := by simpa using h2
        simp only [upgraded, versionHook, h1, VerInfo.upgradeAny, hall, if_true, Val.asRangeInt, bind, Except.bind,
          applyUpgrades_self vi h2, Option.isSome]
    refine .cons hst hf hup ?_ hnk (x := x) ?_ hw ih
    · split
      · exact nodup_ddel _ _ hnd
      · exact hnd
    · split
      · rename_i hs
        rw [dget_ddel_ne _ (Ne.symm (hv hs))]; exact hd
      · exact hd

end HS
