import Verif.Props.ConfigHist
import Verif.Proofs.RestoreLoad
import Verif.Props.FromDict

/-! C95: loading without a file (hyperstate.py:154-168, 260-331; serde.py:240-281, 379-404; versioned.py:58-80) -/

namespace HS

theorem fillFields_empty : ∀ (fs : List Fld) (kvs : List (String × Val)), fillFields [] fs = .ok kvs ↔ AreDefaults fs kvs
  | [], kvs => by
    simp only [fillFields, Except.ok.injEq]
    constructor
    · rintro rfl; exact .nil
    · intro h; cases h; rfl
  | f :: fs, kvs => by
    simp only [fillFields, bind, Except.bind, pure, Except.pure]
    constructor
    · intro h
      cases hv : fieldValue [] f with
      | error e => rw [hv] at h; exact (nomatch h)
      | ok v =>
        rw [hv] at h
        dsimp only at h
        cases hr : fillFields [] fs with
        | error e => rw [hr] at h; exact (nomatch h)
        | ok rest =>
          rw [hr] at h
          cases h
          exact .cons _ _ _ _ ((fieldValue_absent rfl v).1 hv) ((fillFields_empty fs rest).1 hr)
    · intro h
      cases h with
      | cons _ _ v rest h1 h2 =>
        rw [(fieldValue_absent rfl v).2 h1]
        dsimp only
        rw [(fillFields_empty fs rest).2 h2]

/-- what is read for `{}` if a missing version is allowed -/
theorem fromDict_empty (c : DCfg) (n : String) (fs : List Fld) (ver : Option VerInfo) (hm : ver = .none ∨ c.allowMissing = true) (ig : Bool)
    (path : String) : fromDict c (.data n fs ver) ig path (.dict []) =
      (match fillFields [] fs with | .ok kvs => .ok (.inst n kvs, []) | .error e => .error e) := by
  have hup : Upgraded c ver (.dict []) (.dict []) := by
    cases ver with
    | none => rfl
    | some vi =>
      have : c.allowMissing = true := by rcases hm with h | h; cases h; exact h
      simp [Upgraded, versionHook, dget, ddel, this]
  rw [fromDict_upgraded hup, fromDict_data_dict]
  simp only [itemsLoop, bind, Except.bind, pure, Except.pure]
  cases fillFields [] fs <;> rfl

theorem typedLoad_empty (c : DCfg) (ron : RonParse) (n : String) (fs : List Fld) (ver : Option VerInfo)
    (hm : ver = .none ∨ c.allowMissing = true) (os : Option (List String))
    (ho : os = .none ∨ (os = some [] ∧ (materialize (.data n fs ver)).isOk = true)) (ig : Bool) :
    typedLoad c ron os ig (.data n fs ver) (.dict []) =
      (match fillFields [] fs with | .ok kvs => .ok ⟨.inst n kvs, [], []⟩ | .error e => .error e) := by
  have key : typedLoad c ron .none ig (.data n fs ver) (.dict []) =
      (match fillFields [] fs with | .ok kvs => .ok ⟨.inst n kvs, [], []⟩ | .error e => .error e) := by
    simp only [typedLoad, bind, Except.bind, pure, Except.pure, fromDict_empty c n fs ver hm]
    cases fillFields [] fs <;> rfl
  rcases ho with rfl | ⟨rfl, hok⟩
  · exact key
  · rw [← key]
    simp only [typedLoad, applyOverrides_nil ron hok, bind, Except.bind, pure, Except.pure]

/-- C95: `load(cls, None)` returns the instance in which every field has its declared default, or for a section without one the
instance made of the defaults of its fields; it fails, with a TypeError, exactly if there is no such instance. This holds for
versioned classes as well, whatever their rules are. -/
theorem C95_load (w : World) (n : String) (fs : List Fld) (ver : Option VerInfo) :
    (∀ v, hsLoad w (.data n fs ver) .none .none = .ok v ↔ ∃ kvs, v = .inst n kvs ∧ AreDefaults fs kvs) ∧
    ((¬ ∃ kvs, AreDefaults fs kvs) → hsLoad w (.data n fs ver) .none .none = .error .typeError) := by
  have hm : ver = .none ∨ (w.dcfg (PyTy.data n fs ver).isVersioned false).allowMissing = true := by
    cases ver with
    | none => exact .inl rfl
    | some vi => exact .inr rfl
  have hq : hsLoad w (.data n fs ver) .none .none =
      (match fillFields [] fs with | .ok kvs => .ok (.inst n kvs) | .error e => .error e) := by
    simp only [hsLoad, bind, Except.bind, pure, Except.pure]
    rw [typedLoad_empty _ _ n fs ver hm _ (.inl rfl)]
    cases fillFields [] fs <;> rfl
  rw [hq]
  cases hf : fillFields [] fs with
  | error e =>
    have hno : ¬ ∃ kvs, AreDefaults fs kvs := by
      rintro ⟨kvs, h⟩
      rw [(fillFields_empty fs kvs).2 h] at hf
      exact (nomatch hf)
    refine ⟨fun v => ⟨fun h => (nomatch h), ?_⟩, fun _ => by rw [fillFields_error hf]⟩
    rintro ⟨kvs, _, h⟩
    exact absurd ⟨kvs, h⟩ hno
  | ok kvs =>
    have hd := (fillFields_empty fs kvs).1 hf
    refine ⟨fun v => ⟨fun h => ?_, ?_⟩, fun h => absurd ⟨kvs, hd⟩ h⟩
    · cases h; exact ⟨kvs, rfl, hd⟩
    · rintro ⟨kvs', rfl, h⟩
      have := (fillFields_empty fs kvs').2 h
      rw [hf] at this
      cases this; rfl

/-- C95: the empty text and `{}` are the same document for `loads`; for a class without versions it is the same as loading without
a file, a versioned class is not loaded from it. -/
theorem C95_loads (w : World) (n : String) (fs : List Fld) (ig : Bool) :
    hsLoads w (.data n fs .none) (.dict []) .none ig = hsLoad w (.data n fs .none) .none .none ∧
    ∀ vi, hsLoads w (.data n fs (some vi)) (.dict []) .none ig = .error .valueError := by
  refine ⟨?_, fun vi => ?_⟩
  · simp only [hsLoads, hsLoad]
    rw [typedLoad_empty _ _ n fs .none (.inl rfl) _ (.inl rfl), typedLoad_empty _ _ n fs .none (.inl rfl) _ (.inl rfl)]
  · simp [hsLoads, typedLoad, fromDict, versionHook, World.dcfg, dget, bind, Except.bind, pure, Except.pure]

/-- C95: a manager that finds no checkpoint and was given neither `init_path` nor overrides returns the defaults of the class
whenever its config is read, whatever was done before; the config cannot be read if there are none. No field follows a
schedule, also if a default is a text that would be a schedule in a file. -/
theorem C95_manager (E : MgrEnv) (disk : Dir Files) (n : String) (fs : List Fld) (ver : Option VerInfo)
    (hE : E.cfgTy = .data n fs ver) (hok : (materialize (.data n fs ver)).isOk = true) (hc : E.ckpt = false ∨ openMgr disk = none)
    (hi : E.init = .absent) (ho : E.overrides = []) :
    (∀ v, (∃ m, (Mgr.new E disk).readConfig E = .ok (v, m)) ↔ ∃ kvs, v = .inst n kvs ∧ AreDefaults fs kvs) ∧
    (∀ ops m m1 v, (Mgr.new E disk).run E ops = .ok m → m.readConfig E = .ok (v, m1) →
      m1.schedules = [] ∧ ∃ kvs, v = .inst n kvs ∧ AreDefaults fs kvs) := by
  have hfrom : ∀ doc, ConfigFrom E disk doc → doc = .none := by
    intro doc h
    cases h with
    | ckpt h1 h2 _ => rcases hc with h | h; rw [h] at h1; cases h1; rw [h] at h2; cases h2
    | file _ h => rw [hi] at h; cases h
    | dir _ h => rw [hi] at h; cases h
    | absent _ _ => rfl
  have hload : ∀ l, smLoadConfig E.w E.cfgTy .none E.overrides E.ignoreExtra = .ok l ↔
      ∃ kvs, l = ⟨.inst n kvs, [], []⟩ ∧ AreDefaults fs kvs := by
    intro l
    rw [hE, ho]
    simp only [smLoadConfig]
    rw [typedLoad_empty _ _ n fs ver (.inr rfl) _ (.inr ⟨rfl, hok⟩)]
    constructor
    · intro h
      cases hf : fillFields [] fs with
      | error e => rw [hf] at h; exact (nomatch h)
      | ok kvs => rw [hf] at h; cases h; exact ⟨kvs, rfl, (fillFields_empty fs kvs).1 hf⟩
    · rintro ⟨kvs, rfl, h⟩
      rw [(fillFields_empty fs kvs).2 h]
  refine ⟨fun v => ?_, fun ops m m1 v h hr => ?_⟩
  · rw [C47_config]
    constructor
    · rintro ⟨doc, l, h1, h2, rfl⟩
      cases hfrom doc h1
      obtain ⟨kvs, rfl, h⟩ := (hload l).1 h2
      exact ⟨kvs, rfl, h⟩
    · rintro ⟨kvs, rfl, h⟩
      exact ⟨.none, _, .absent hc hi, (hload _).2 ⟨kvs, rfl, h⟩, rfl⟩
  · obtain ⟨doc, l, h1, h2, h3, h4⟩ := config_history (P := fun l c => l.schedules = [] → c = l.value) (fun l doc _ _ _ => rfl) (by
      intro l c c' attrs _ hP ha hn
      rw [hn] at ha
      simp only [applyRegD, Except.ok.injEq] at ha
      rw [← ha]
      exact hP hn) ops h hr
    cases hfrom doc h1
    obtain ⟨kvs, rfl, h⟩ := (hload l).1 h2
    exact ⟨h3, kvs, h4 rfl, h⟩

/-- the defaults of a class are unique -/
theorem AreDefaults.unique {fs : List Fld} {kvs kvs' : List (String × Val)} (h : AreDefaults fs kvs) (h' : AreDefaults fs kvs') : kvs = kvs' := by
  have h1 := (fillFields_empty fs kvs).2 h
  rw [(fillFields_empty fs kvs').2 h'] at h1
  cases h1; rfl

namespace ExNF
/-- `class C(Versioned): lr: float = "step: 9@1 lin 1@5"; opt: Opt` with `class Opt: n: int = 3` -/
def optFs : List Fld := [.mk "n" .int (some (.int 3))]
def fs : List Fld := [.mk "lr" .float (some (.str "step: 9@1 lin 1@5")), .mk "opt" (.data "Opt" optFs .none) .none]
def kvs : List (String × Val) := [("lr", .str "step: 9@1 lin 1@5"), ("opt", .inst "Opt" [("n", .int 3)])]

theorem defaults : AreDefaults fs kvs :=
  .cons _ _ _ _ (.declared ..) (.cons _ _ _ _ (.built _ _ _ _ _ (.cons _ _ _ _ (.declared ..) .nil)) .nil)

def E : MgrEnv := { ExR.E with cfgTy := .data "C" fs .none, init := .absent }
end ExNF

/-- the schedule in the default is not followed; in a file the same text is -/
example : hsLoad Ex.world (.data "C" ExNF.fs .none) .none .none = .ok (.inst "C" ExNF.kvs) ∧
    (¬ ∃ kvs, AreDefaults [.mk "n" .int .none] kvs) ∧ (∃ m, (Mgr.new ExNF.E []).readConfig ExNF.E = .ok (.inst "C" ExNF.kvs, m)) ∧
    ExR.lrAfter [] = some 9 := by
  refine ⟨((C95_load _ _ _ _).1 _).2 ⟨_, rfl, ExNF.defaults⟩, ?_, ?_, by decide +kernel⟩
  · rintro ⟨kvs, h⟩
    cases h with | cons _ _ _ _ h1 _ => cases h1
  · exact ((C95_manager ExNF.E [] "C" ExNF.fs .none rfl rfl (.inl rfl) rfl rfl).1 _).2 ⟨_, rfl, ExNF.defaults⟩

end HS
