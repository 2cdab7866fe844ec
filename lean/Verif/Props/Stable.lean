import Verif.Props.UpgradeConfig
/-!
# C59: whatever a load returns can be saved and loaded again

No condition is put on the loaded object: the conditions are on the class, and the document may be of any version, have schedules,
and be loaded with overrides.
-/
namespace HS

/-- C59 (part: classes without enums or blobs, see `TyOK`). The object that a load returns can be dumped; loading the dump, with
any flags, gives the very same object, without schedules; and dumping that gives the same document once more. -/
theorem C59_partial (w : World) (am file ig : Bool) (ron : RonParse) (os : Option (List String)) (ty : PyTy) (doc : Val) (r : Loaded)
    (hty : TyOK w.ext ty) (henv : EnvOK w.env ty) (hdc : isData ty = true) (hd : DeclOK ty) (hf : FirmDecl ty) (hp : Plain doc)
    (hron : os ≠ none → ∀ s v, ron s = .ok v → Plain v)
    (h : typedLoad (w.dcfg am file) ron os ig ty doc = .ok r) :
    ∃ doc', typedDump w.env .none false r.value = .ok (doc', []) ∧
      ∀ (am' file' ig' : Bool) (ron' : RonParse),
        ∃ r', typedLoad (w.dcfg am' file') ron' .none ig' ty doc' = .ok r' ∧ r'.value = r.value ∧ r'.schedules = [] ∧
          typedDump w.env .none false r'.value = .ok (doc', []) := by
  obtain ⟨doc', h1, h2⟩ := C01_storable_partial w .none (.inl rfl) ty r.value hty henv (typedLoad_storable hd hf hp hron hdc h)
  exact ⟨doc', h1, fun am' file' ig' ron' => ⟨_, h2 am' file' ig' ron', rfl, rfl, h1⟩⟩

/-- C59 for `hyperstate.load`: from a file or from nothing, with or without overrides. -/
theorem C59_load_partial (w : World) (os : Option (List String)) (ty : PyTy) (file : Option Val) (v : Val)
    (hty : TyOK w.ext ty) (henv : EnvOK w.env ty) (hdc : isData ty = true) (hd : DeclOK ty) (hf : FirmDecl ty)
    (hp : ∀ doc, file = some doc → Plain doc) (hron : os ≠ none → ∀ s v, w.ron s = .ok v → Plain v)
    (h : hsLoad w ty file os = .ok v) :
    ∃ doc', typedDump w.env .none false v = .ok (doc', []) ∧ hsLoad w ty (some doc') .none = .ok v ∧
      ∀ ig, hsLoads w ty doc' .none ig = .ok v := by
  have key : ∀ am fl doc, Plain doc → (do return (← typedLoad (w.dcfg am fl) w.ron os false ty doc).value) = Except.ok (ε := Err) v →
      ∃ doc', typedDump w.env .none false v = .ok (doc', []) ∧ hsLoad w ty (some doc') .none = .ok v ∧
        ∀ ig, hsLoads w ty doc' .none ig = .ok v := by
    intro am fl doc hpd h
    cases hl : typedLoad (w.dcfg am fl) w.ron os false ty doc with
    | error e => rw [hl] at h; exact (nomatch h)
    | ok r =>
      rw [hl] at h
      cases h
      obtain ⟨doc', h1, h2⟩ := C59_partial w am fl false w.ron os ty doc r hty henv hdc hd hf hpd hron hl
      refine ⟨doc', h1, ?_, fun ig => ?_⟩
      · obtain ⟨r', h3, h4, -⟩ := h2 false true false w.ron
        simp [hsLoad, h3, h4, bind, Except.bind, pure, Except.pure]
      · obtain ⟨r', h3, h4, -⟩ := h2 false false ig w.ron
        simp [hsLoads, h3, h4, bind, Except.bind, pure, Except.pure]
  cases file with
  | none => exact key _ _ _ (by simp [Plain, PlainD, dkeys]) h
  | some doc => exact key _ _ _ (hp _ rfl) h

namespace ExU
/-- a parser that reads one number -/
def wr : World := { w with ron := fun s => if s = "7" then .ok (.int 7) else .error .valueError }
end ExU

/-- A document of an older version, loaded with an override, is such a load (the conditions on the class are shown for C55). -/
example : (∀ s v, ExU.wr.ron s = .ok v → Plain v) ∧
    hsLoad ExU.wr ExU.ty (some ExU.doc) (some ["n=7"]) = .ok (.inst "C" [("lr", .flt (.fin 3)), ("n", .int 7)]) := by
  refine ⟨?_, rfl⟩
  intro s v h
  simp only [ExU.wr] at h
  split at h <;> cases h
  simp [Plain]

/-- C59 is false for enums (see C02): the document loads, but what is saved for the object does not. -/
theorem C59_enum_false : ∃ (w : World) (ty : PyTy) (doc doc' v : Val),
    isData ty = true ∧ DeclOK ty ∧ FirmDecl ty ∧ Plain doc ∧ EnvOK w.env ty ∧ hsLoad w ty (some doc) .none = .ok v ∧
      typedDump w.env .none false v = .ok (doc', []) ∧ hsLoad w ty (some doc') .none = .error .valueError := by
  refine ⟨{ Ex.world with env := fun _ => ⟨.none, [("c", .none)]⟩ }, .data "C" [.mk "c" (.enum "Color" [("RED", .int 1)]) .none] .none,
    .dict [("c", .int 1)], .dict [("!__name__", .str "C"), ("c", .str "RED")], .inst "C" [("c", .enm "Color" "RED" (.int 1))],
    rfl, ?_, ?_, ?_, ?_, rfl, rfl, rfl⟩
  · simp [DeclOK, DeclOKf, DeclOK1, Fld.name]
  · simp [FirmDecl, FirmDeclf, FirmDecl1]
  · simp [Plain, PlainD, PlainP, dkeys]
  · simp [EnvOK, EnvOKf, EnvOKf1, Fld.name, Fld.dflt]

end HS
