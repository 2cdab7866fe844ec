import Verif.Model.UpgradeConfig
import Verif.Props.Elide
import Verif.Props.Typed
import Verif.Proofs.Firm
/-!
# C55: `upgrade-config` preserves the meaning of config files
-/
namespace HS

/-- C55: a dry run, and a run that fails, leave the file alone. -/
theorem C55_untouched (w : World) (ty : PyTy) (elide dryRun : Bool) (doc : Val)
    (h : dryRun = true ∨ ∃ e, (upgradeConfig w ty elide dryRun doc).2 = .error e) :
    (upgradeConfig w ty elide dryRun doc).1 = doc := by
  unfold upgradeConfig at *
  split
  · rfl
  · rename_i r hr
    rw [hr] at h
    split
    · rfl
    · rename_i d bs hd
      rcases h with h | ⟨e, h⟩
      · simp [h]
      · simp only [hd] at h
        exact (nomatch h)

/-- C55 with `--include-defaults`: for every document that loads as a well-typed config (up to what C04
guarantees) without schedules, the command succeeds,
loading the rewritten file gives exactly the same config, and running it again changes nothing. -/
theorem C55_full_partial (w : World) (ty : PyTy) (doc : Val) (r : Loaded) (hty : TyOK w.ext ty) (henv : EnvOK w.env ty)
    (h : typedLoad (w.dcfg false true) w.ron .none false ty doc = .ok r) (hs : r.schedules = [])
    (hv : Storable ty r.value) :
    ∃ doc', upgradeConfig w ty false false doc = (doc', .ok ()) ∧
      hsLoad w ty (some doc) .none = .ok r.value ∧ hsLoad w ty (some doc') .none = .ok r.value ∧
      upgradeConfig w ty false false doc' = (doc', .ok ()) := by
  obtain ⟨doc', h1, h2⟩ := C01_storable_partial w (some []) (.inr rfl) ty r.value hty henv hv
  have h2' := h2 false true false w.ron
  refine ⟨doc', ?_, ?_, ?_, ?_⟩
  · simp only [upgradeConfig, h, hs, h1]; rfl
  · simp [hsLoad, h, bind, Except.bind, pure, Except.pure]
  · simp [hsLoad, h2', bind, Except.bind, pure, Except.pure]
  · simp only [upgradeConfig, h2', h1]; rfl

/-- C55 without `--include-defaults` (the default): the config loaded from the rewritten file is equal (Python `==`) to the one
loaded before, and running the command again changes nothing. -/
theorem C55_elided_partial (w : World) (ty : PyTy) (doc : Val) (r : Loaded) (hty : TyOK w.ext ty) (henv : EnvOK w.env ty)
    (hd : DfltOK ty) (h : typedLoad (w.dcfg false true) w.ron .none false ty doc = .ok r) (hs : r.schedules = [])
    (hv : Storable ty r.value) (hn : NoNan r.value) :
    ∃ doc' v', upgradeConfig w ty true false doc = (doc', .ok ()) ∧
      hsLoad w ty (some doc) .none = .ok r.value ∧ hsLoad w ty (some doc') .none = .ok v' ∧ pyEq r.value v' = true ∧
      upgradeConfig w ty true false doc' = (doc', .ok ()) := by
  obtain ⟨doc', h1, h2⟩ := C03_stable w (some []) (.inr rfl) ty r.value hty henv hd hv hn
  obtain ⟨v', h3, h4, h5⟩ := h2 false true
  have h4' := h4 false w.ron
  refine ⟨doc', v', ?_, ?_, ?_, h3, ?_⟩
  · simp only [upgradeConfig, h, hs, h1]; rfl
  · simp [hsLoad, h, bind, Except.bind, pure, Except.pure]
  · simp [hsLoad, h4', bind, Except.bind, pure, Except.pure]
  · simp only [upgradeConfig, h4', h5]; rfl

/-- C55 for every document that loads, whatever its version: no condition on the loaded config. -/
theorem C55_every_document_partial (w : World) (ty : PyTy) (doc : Val) (r : Loaded) (hty : TyOK w.ext ty) (henv : EnvOK w.env ty)
    (hdc : isData ty = true) (hd : DeclOK ty) (hf : FirmDecl ty) (hp : Plain doc)
    (h : typedLoad (w.dcfg false true) w.ron .none false ty doc = .ok r) (hs : r.schedules = []) :
    ∃ doc', upgradeConfig w ty false false doc = (doc', .ok ()) ∧
      hsLoad w ty (some doc) .none = .ok r.value ∧ hsLoad w ty (some doc') .none = .ok r.value ∧
      upgradeConfig w ty false false doc' = (doc', .ok ()) :=
  C55_full_partial w ty doc r hty henv h hs (typedLoad_storable hd hf hp (by simp) hdc h)

/-- C55 without `--include-defaults` for every document that loads, whatever its version: no condition on the loaded config,
except that it contains no `nan`. -/
theorem C55_elided_every_partial (w : World) (ty : PyTy) (doc : Val) (r : Loaded) (hty : TyOK w.ext ty) (henv : EnvOK w.env ty)
    (hdf : DfltOK ty) (hdc : isData ty = true) (hd : DeclOK ty) (hf : FirmDecl ty) (hp : Plain doc)
    (h : typedLoad (w.dcfg false true) w.ron .none false ty doc = .ok r) (hs : r.schedules = []) (hn : NoNan r.value) :
    ∃ doc' v', upgradeConfig w ty true false doc = (doc', .ok ()) ∧
      hsLoad w ty (some doc) .none = .ok r.value ∧ hsLoad w ty (some doc') .none = .ok v' ∧ pyEq r.value v' = true ∧
      upgradeConfig w ty true false doc' = (doc', .ok ()) :=
  C55_elided_partial w ty doc r hty henv hdf h hs (typedLoad_storable hd hf hp (by simp) hdc h) hn

namespace ExU
def ver : VerInfo := ⟨2, [(1, [.rename ["learning_rate"] ["lr"]])]⟩
def ty : PyTy := .data "C" [.mk "lr" .float .none, .mk "n" (.optional .int) (some .none)] (some ver)
def w : World := { Ex.world with env := fun _ => ⟨some 2, [("lr", .none), ("n", some .none)]⟩ }
def doc : Val := .dict [("version", .int 1), ("learning_rate", .flt (.fin 3))]
def doc' : Val := .dict [("!__name__", .str "C"), ("version", .int 2), ("lr", .flt (.fin 3))]
end ExU

/-- The hypotheses of the C55 theorems are met by a file of an older version, which is rewritten to the current one. -/
example : TyOK ExU.w.ext ExU.ty ∧ EnvOK ExU.w.env ExU.ty ∧ DfltOK ExU.ty ∧ DeclOK ExU.ty ∧ FirmDecl ExU.ty ∧ Plain ExU.doc ∧
    typedLoad (ExU.w.dcfg false true) ExU.w.ron .none false ExU.ty ExU.doc =
      .ok ⟨.inst "C" [("lr", .flt (.fin 3)), ("n", .none)], [], []⟩ ∧
    NoNan (.inst "C" [("lr", .flt (.fin 3)), ("n", .none)]) ∧
    upgradeConfig ExU.w ExU.ty true false ExU.doc = (ExU.doc', .ok ()) ∧ ExU.doc' ≠ ExU.doc := by
  refine ⟨?_, ?_, ?_, ?_, ?_, ?_, rfl, ?_, rfl, ?_⟩
  · simp only [ExU.ty, TyOK, FldsOK, FldOK, PyTy.optional, TyOKs, VerOK]
    refine ⟨by decide, ?_, ?_, ?_, ?_⟩
    · intro f hf; simp only [List.mem_cons, List.not_mem_nil, or_false] at hf
      rcases hf with rfl | rfl <;> simp [NameOK, Fld.name, NAME_KEY, WEAK_REF, List.isPrefixOf]
    · intro _ f hf; simp only [List.mem_cons, List.not_mem_nil, or_false] at hf
      rcases hf with rfl | rfl <;> simp [Fld.name]
    · intro vi h e he; cases h; simp [ExU.ver] at he; subst he; decide
    · simp [isOptionalArgs, PyTy.isNoneT]
  · simp [ExU.ty, EnvOK, EnvOKf, EnvOKf1, EnvOKs, PyTy.optional, ExU.w, ExU.ver, Fld.name, Fld.dflt]
  · simp [ExU.ty, DfltOK, DfltOKf, DfltOK1, DfltOKs, PyTy.optional, DfltShape, DfltShapeAll]
  · simp only [ExU.ty, DeclOK, DeclOKf, DeclOK1, PyTy.optional, DeclOKs, VerPlain, ExU.ver]
    refine ⟨by decide, ?_, ?_, ?_⟩
    · intro vi h e he
      cases h
      simp at he
      subst he
      simp [RulePlain]
    · simp
    · simp [HasType, HasTypeAny]
  · simp [ExU.ty, FirmDecl, FirmDeclf, FirmDecl1, FirmDecls, PyTy.optional, Firm, Val.isWeak]
  · simp [ExU.doc, Plain, PlainD, PlainP, dkeys]
  · simp [NoNan, NoNanD, NoNanP]
  · simp [ExU.doc, ExU.doc']

/-- C55 is false for enums: a file that loads is replaced by one that does not (see C02). -/
theorem C55_enum_false : ∃ (w : World) (ty : PyTy) (doc doc' : Val) (v : Val),
    hsLoad w ty (some doc) .none = .ok v ∧ HasType false ty v ∧ EnvOK w.env ty ∧
    (∀ elide, upgradeConfig w ty elide false doc = (doc', .ok ())) ∧ hsLoad w ty (some doc') .none = .error .valueError := by
  refine ⟨{ Ex.world with env := fun _ => ⟨.none, [("c", .none)]⟩ }, .data "C" [.mk "c" (.enum "Color" [("RED", .int 1)]) .none] .none,
    .dict [("c", .int 1)], .dict [("!__name__", .str "C"), ("c", .str "RED")], .inst "C" [("c", .enm "Color" "RED" (.int 1))],
    rfl, ?_, ?_, ?_, rfl⟩
  · simp only [HasType, HasFields, HasField]
    exact ⟨_, rfl, _, _, rfl, ⟨rfl, _, _, List.mem_singleton.2 rfl, rfl⟩, rfl⟩
  · simp [EnvOK, EnvOKf, EnvOKf1, Fld.name, Fld.dflt]
  · intro elide; cases elide <;> rfl

/-- C55 is false for configs with Serializable fields (in a class that does not inherit from `Lazy`): the reference to the blob is replaced by None, and the file does not
load any more. -/
theorem C55_blob_false : ∃ (w : World) (ty : PyTy) (doc doc' : Val) (r : Loaded),
    typedLoad (w.dcfg false true) w.ron .none false ty doc = .ok r ∧
    r.lazyFields = [("net", ⟨"Net", "state.net.msgpack", false⟩)] ∧
    (∀ elide, upgradeConfig w ty elide false doc = (doc', .ok ())) ∧
    hsLoad w ty (some doc') .none = .error .assertionError :=
  ⟨{ Ex.world with env := fun _ => ⟨.none, [("net", .none)]⟩ }, .data "C" [.mk "net" (.blob "Net") .none] .none,
    .dict [("net", .str "<blob:msgpack>")], .dict [("!__name__", .str "C"), ("net", .none)], _, rfl, rfl,
    fun elide => by cases elide <;> rfl, rfl⟩

end HS
