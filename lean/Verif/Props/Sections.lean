import Verif.Props.OverrideLoad
import Verif.Props.Place
import Verif.Model.Checker
/-!
# C80: versioned classes used for sections of a config
-/
namespace HS

/-- what `load`, `loads` or the loading of a checkpoint makes of a document, in terms of `from_dict` -/
theorem typedLoad_fromDict {c : DCfg} {ron : RonParse} {ig : Bool} {ty : PyTy} {doc : Val} {l : Loaded}
    (h : typedLoad c ron .none ig ty doc = .ok l) : ∃ es, fromDict c ty ig "" doc = .ok (l.value, es) := by
  simp only [typedLoad, bind, Except.bind, pure, Except.pure] at h
  split at h
  · exact (nomatch h)
  rename_i r hr
  split at h
  · exact (nomatch h)
  cases h
  exact ⟨r.2, hr⟩

theorem hsLoad_fromDict {w : World} {ty : PyTy} {doc v : Val} (h : hsLoad w ty (some doc) .none = .ok v) :
    ∃ es, fromDict (w.dcfg false true) ty false "" doc = .ok (v, es) := by
  simp only [hsLoad, bind, Except.bind, pure, Except.pure] at h
  split at h
  · exact (nomatch h)
  rename_i l hl
  cases h
  exact typedLoad_fromDict hl

/-- The section of a document for a field holding a (versioned or unversioned) class, as `from_dict` sees it. -/
theorem section_fromDict {c : DCfg} {n : String} {fs : List Fld} {ig : Bool} {doc v : Val} {es : List Ev} {p : List String} {t u : PyTy}
    {d : List (String × Val)} (h : fromDict c (.data n fs .none) ig "" doc = .ok (v, es)) (hf : FieldAtU fs p t) (ht : Strips t u)
    (hdoc : NoMark doc) (hn : NAME_KEY ∉ p) (hx : doc.at? p = some (.dict d)) :
    ∃ y es', v.attr p = some y ∧ fromDict c u false "" (.dict d) = .ok (y, es') := by
  obtain ⟨y, es', path', h1, h2⟩ := fromDict_attr c hf n ig "" doc v es _ h (hdoc.solid hx) hx (hdoc.at? hx).isWeak hn
  rw [fromDict_strips c ht] at h2
  obtain ⟨es'', h3⟩ := ((C68_place c u false path' "" (.dict d)).1 y).1 ⟨es', h2⟩
  exact ⟨y, es'', h1, h3⟩

/-- **C80**, part. In a loaded config, a section whose field has a versioned class holds what the rules of that class, from the
section's own version on, and then the class without versions make of the section; the same as the section would give as a file of
its own. (For sections that are not inside another versioned class.) -/
theorem C80_section_partial (w : World) (n : String) (fs : List Fld) (doc v : Val)
    (h : hsLoad w (.data n fs .none) (some doc) .none = .ok v) (hdoc : NoMark doc)
    (p : List String) (t : PyTy) (hf : FieldAtU fs p t) (hn : NAME_KEY ∉ p)
    (n' : String) (fs' : List Fld) (vi : VerInfo) (ht : Strips t (.data n' fs' (some vi))) (hk : ∀ e ∈ vi.rules, e.1 < vi.version)
    (d : List (String × Val)) (hx : doc.at? p = some (.dict d)) (v0 : Int) (hv : dget d "version" = some (.int v0)) :
    ∃ doc' y es, applyRules ((rangeI v0 vi.version).flatMap vi.rulesAt) (.dict (ddel d "version")) = .ok doc' ∧
      fromDict (w.dcfg false true) (.data n' fs' .none) false "" doc' = .ok (y, es) ∧ v.attr p = some y ∧
      ∀ y', hsLoad w (.data n' fs' (some vi)) (some (.dict d)) .none = .ok y' → y' = y := by
  obtain ⟨es, h⟩ := hsLoad_fromDict h
  obtain ⟨y, es', h1, h2⟩ := section_fromDict h hf ht hdoc hn hx
  have h3 := h2
  rw [fromDict_versioned _ hv hk] at h3
  cases hu : applyRules ((rangeI v0 vi.version).flatMap vi.rulesAt) (.dict (ddel d "version")) with
  | error e => rw [hu] at h3; exact (nomatch h3)
  | ok doc' =>
    rw [hu] at h3
    refine ⟨doc', y, es', rfl, h3, h1, fun y' hy' => ?_⟩
    obtain ⟨es'', h4⟩ := hsLoad_fromDict hy'
    rw [h2] at h4
    cases h4
    rfl

/-- C80, part: the same in a config that is itself versioned. Its own rules run first, on the whole document; then the section that
they leave is upgraded by the rules of its class, from the version that the section then has. -/
theorem C80_nested_partial (w : World) (n : String) (fs : List Fld) (vo : VerInfo) (hko : ∀ e ∈ vo.rules, e.1 < vo.version)
    (d0 : List (String × Val)) (u0 : Int) (hu : dget d0 "version" = some (.int u0)) (v : Val)
    (h : hsLoad w (.data n fs (some vo)) (some (.dict d0)) .none = .ok v) :
    ∃ doc, applyRules ((rangeI u0 vo.version).flatMap vo.rulesAt) (.dict (ddel d0 "version")) = .ok doc ∧
      ∀ (p : List String) (t : PyTy), FieldAtU fs p t → NAME_KEY ∉ p → NoMark doc →
      ∀ (n' : String) (fs' : List Fld) (vi : VerInfo), Strips t (.data n' fs' (some vi)) → (∀ e ∈ vi.rules, e.1 < vi.version) →
      ∀ (d : List (String × Val)) (v0 : Int), doc.at? p = some (.dict d) → dget d "version" = some (.int v0) →
      ∃ doc' y es, applyRules ((rangeI v0 vi.version).flatMap vi.rulesAt) (.dict (ddel d "version")) = .ok doc' ∧
        fromDict (w.dcfg false true) (.data n' fs' .none) false "" doc' = .ok (y, es) ∧ v.attr p = some y := by
  rw [(C16_load w n fs vo false d0 u0 hu hko).1] at h
  cases hup : applyRules ((rangeI u0 vo.version).flatMap vo.rulesAt) (.dict (ddel d0 "version")) with
  | error e => rw [hup] at h; exact (nomatch h)
  | ok doc =>
    rw [hup] at h
    refine ⟨doc, rfl, ?_⟩
    intro p t hf hn hdoc n' fs' vi ht hk d v0 hx hv
    obtain ⟨doc', y, es, h1, h2, h3, _⟩ := C80_section_partial w n fs doc v h hdoc p t hf hn n' fs' vi ht hk d hx v0 hv
    exact ⟨doc', y, es, h1, h2, h3⟩

/-- C80: a section without a version is not accepted from a file, and `load` fails. -/
theorem C80_section_needs_version (w : World) (n : String) (fs : List Fld) (doc : Val) (hdoc : NoMark doc)
    (p : List String) (t : PyTy) (hf : FieldAtU fs p t) (hn : NAME_KEY ∉ p)
    (n' : String) (fs' : List Fld) (vi : VerInfo) (ht : Strips t (.data n' fs' (some vi)))
    (d : List (String × Val)) (hx : doc.at? p = some (.dict d)) (hv : dget d "version" = .none) :
    ∃ e, hsLoad w (.data n fs .none) (some doc) .none = .error e := by
  cases h : hsLoad w (.data n fs .none) (some doc) .none with
  | error e => exact ⟨e, rfl⟩
  | ok v =>
    obtain ⟨es, h⟩ := hsLoad_fromDict h
    obtain ⟨y, es', _, h2⟩ := section_fromDict h hf ht hdoc hn hx
    simp [fromDict, versionHook, hv, World.dcfg, bind, Except.bind] at h2

/-- C80 is false of overrides: whenever a section with a versioned class is left out of the document (so that its default is taken),
an override of a field in it makes the load fail, for every such class, document, field and value. -/
theorem C80_override_false (w : World) (hron : ∀ s v, w.ron s = .ok v → NoMark v) (n : String) (fs : List Fld) (file : Option Val)
    (hfile : ∀ doc, file = some doc → NoMark doc) (p : List String) (t : PyTy) (hf : FieldAtU fs p t) (hn : NAME_KEY ∉ p)
    (n' : String) (fs' : List Fld) (vi : VerInfo) (ht : Strips t (.data n' fs' (some vi)))
    (habs : ∀ doc, file = some doc → doc.at? p = .none)
    (o key s f : String) (hov : IsOv o key (p ++ [f]) s) (hfv : f ≠ "version") (hw : WEAK_REF ∉ p ++ [f]) :
    ∃ e, hsLoad w (.data n fs .none) file (some [o]) = .error e := by
  have hp0 : p ≠ [] := by cases hf <;> simp
  have main : ∀ (b : Bool) (doc : Val), NoMark doc → doc.at? p = .none →
      ∃ e, typedLoad (w.dcfg false b) w.ron (some [o]) false (.data n fs .none) doc = .error e := by
    intro b doc hdoc hab
    cases h : typedLoad (w.dcfg false b) w.ron (some [o]) false (.data n fs .none) doc with
    | error e => exact ⟨e, rfl⟩
    | ok l =>
      simp only [typedLoad, bind, Except.bind, pure, Except.pure] at h
      split at h
      · exact (nomatch h)
      rename_i doc' hdoc'
      split at h
      · exact (nomatch h)
      rename_i r hr
      have huniq : ∀ o' ∈ [o], ∀ key' p' s', IsOv o' key' p' s' → p' = p ++ [f] := by
        intro o' ho' key' p' s' hov'
        simp only [List.mem_singleton] at ho'
        subst ho'
        have h1 := split_of_isOv hov
        rw [split_of_isOv hov'] at h1
        simp only [Option.some.injEq, Prod.mk.injEq] at h1
        rw [hov'.2.2, h1.1, ← hov.2.2]
      have hnm := applyOverrides_noMark hron hdoc' (fun o' ho' key' p' s' hov' => huniq o' ho' key' p' s' hov' ▸ hw) hdoc
      obtain ⟨t', x, _, hx, _⟩ := C11_override_wins_partial w.ron n fs .none doc doc' [] [] o key s (p ++ [f]) hdoc' hov (by simp)
      have hver : doc'.at? (p ++ ["version"]) = .none := by
        rw [C11_frame w.ron n fs .none doc doc' [o] hdoc' (p ++ ["version"]) ?_, at?_append, hab]; rfl
        intro o' ho' key' p' s' hov'
        rw [huniq o' ho' key' p' s' hov']
        constructor <;> intro hpre <;> rw [List.prefix_append_right_inj] at hpre <;> simp at hpre
        · exact hfv hpre
        · exact hfv hpre.symm
      cases hat : doc'.at? p with
      | none => rw [at?_append, hat] at hx; exact (nomatch hx)
      | some y =>
        rw [at?_append, hat] at hx hver
        cases hd : y.isDict
        · simp [at?_cons_of_not_dict y hd] at hx
        obtain ⟨d, rfl⟩ := (isDict_iff y).1 hd
        have hv : dget d "version" = .none := by
          cases hg : dget d "version" with
          | none => rfl
          | some z => simp [at?_dict_cons, hg] at hver
        obtain ⟨y, es', _, h2⟩ := section_fromDict (es := r.2) (v := r.1) hr hf ht hnm hn hat
        simp [fromDict, versionHook, hv, World.dcfg, bind, Except.bind] at h2
  cases file with
  | none =>
    obtain ⟨e, he⟩ := main false (.dict []) (by intro q; cases q <;> simp [at?_dict_cons, dget]) (by
      cases p with
      | nil => exact absurd rfl hp0
      | cons k ks => simp [at?_dict_cons, dget])
    exact ⟨e, by simp [hsLoad, PyTy.isVersioned, he, bind, Except.bind]⟩
  | some doc =>
    obtain ⟨e, he⟩ := main true doc (hfile doc rfl) (habs doc rfl)
    exact ⟨e, by simp [hsLoad, he, bind, Except.bind]⟩

/-- C80: `StateManager` accepts a section without a version (also one made by an override) and does not upgrade it: it is read as a
section of the current version. -/
theorem C80_manager (w : World) (n : String) (fs : List Fld) (file : Option Val) (os : List String) (ig : Bool) (l : Loaded)
    (h : smLoadConfig w (.data n fs .none) file os ig = .ok l) (doc : Val)
    (happ : applyOverrides w.ron (.data n fs .none) os (file.getD (.dict [])) = .ok doc) (hdoc : NoMark doc)
    (p : List String) (t : PyTy) (hf : FieldAtU fs p t) (hn : NAME_KEY ∉ p)
    (n' : String) (fs' : List Fld) (vi : VerInfo) (ht : Strips t (.data n' fs' (some vi)))
    (d : List (String × Val)) (hx : doc.at? p = some (.dict d)) (hv : dget d "version" = .none) :
    ∃ y es, fromDict (w.dcfg true file.isSome) (.data n' fs' .none) false "" (.dict d) = .ok (y, es) ∧ l.value.attr p = some y := by
  have main : ∀ (b : Bool) (doc0 : Val), applyOverrides w.ron (.data n fs .none) os doc0 = .ok doc →
      typedLoad (w.dcfg true b) w.ron (some os) ig (.data n fs .none) doc0 = .ok l →
      ∃ y es, fromDict (w.dcfg true b) (.data n' fs' .none) false "" (.dict d) = .ok (y, es) ∧ l.value.attr p = some y := by
    intro b doc0 ha h
    simp only [typedLoad, ha, bind, Except.bind, pure, Except.pure] at h
    split at h
    · exact (nomatch h)
    rename_i r hr
    split at h
    · exact (nomatch h)
    cases h
    obtain ⟨y, es', h1, h2⟩ := section_fromDict (es := r.2) (v := r.1) hr hf ht hdoc hn hx
    refine ⟨y, es', ?_, h1⟩
    rw [← h2]
    exact (fromDict_upgraded (v := .dict d) (by simp [Upgraded, versionHook_missing _ vi d hv, World.dcfg]) n' fs' false "").symm
  cases file with
  | none => exact main false _ happ h
  | some doc0 => exact main true _ happ h

namespace ExSec
/-- a section whose class renamed `learning_rate` in its first version -/
def vi : VerInfo := ⟨1, [(0, [.rename ["learning_rate"] ["lr"]])]⟩
def netFs : List Fld := [.mk "lr" .int (some (.int 1)), .mk "n" .int (some (.int 2))]
def net : PyTy := .data "Net" netFs (some vi)
def fs : List Fld := [.mk "steps" .int (some (.int 9)), .mk "net" net (some (.inst "Net" [("lr", .int 1), ("n", .int 2)]))]
def cls : PyTy := .data "Cfg" fs .none
def file : Val := .dict [("steps", .int 3), ("net", .dict [("learning_rate", .int 5), ("version", .int 0)])]
def w : World := { Ex.world with ron := Ex.ronIdent }

theorem field : FieldAtU fs ["net"] net :=
  .here (f := .mk "net" net (some (.inst "Net" [("lr", .int 1), ("n", .int 2)]))) rfl
end ExSec

/-- C80_section_partial, C80_section_needs_version: the file with an old section, and without its version -/
example : hsLoad ExSec.w ExSec.cls (some ExSec.file) .none =
      .ok (.inst "Cfg" [("steps", .int 3), ("net", .inst "Net" [("lr", .int 5), ("n", .int 2)])]) ∧
    hsLoad ExSec.w ExSec.cls (some (.dict [("net", .dict [("lr", .int 5)])])) .none = .error .valueError ∧
    Strips ExSec.net (.data "Net" ExSec.netFs (some ExSec.vi)) ∧ (∀ e ∈ ExSec.vi.rules, e.1 < ExSec.vi.version) ∧
    hsLoad ExSec.w ExSec.net (some (.dict [("learning_rate", .int 5), ("version", .int 0)])) .none =
      .ok (.inst "Net" [("lr", .int 5), ("n", .int 2)]) :=
  ⟨rfl, rfl, .refl _ _ _, by simp [ExSec.vi], rfl⟩

/-- C80_nested_partial: the rules of the config move the section, then its own rules rename a field in it -/
example : hsLoad ExSec.w (.data "Cfg" ExSec.fs (some ⟨3, [(2, [.rename ["network"] ["net"]])]⟩))
      (some (.dict [("version", .int 2), ("network", .dict [("learning_rate", .int 5), ("version", .int 0)])])) .none =
    .ok (.inst "Cfg" [("steps", .int 9), ("net", .inst "Net" [("lr", .int 5), ("n", .int 2)])]) := by
  rfl

namespace ExSec
/-- the values of `net.lr` and `net.n` in a loaded config -/
def netOf : Except Err Val → Option (Int × Int)
  | .ok (.inst _ [(_, .int _), (_, .inst _ [(_, .int i), (_, .int j)])]) => some (i, j)
  | _ => .none
def refused : Except Err Val → Bool
  | .error .valueError => true
  | _ => false
end ExSec

/-- C80_override_false, C80_manager: without the override the section's default is taken; with it `load` fails, with or without a
file, and `StateManager` loads -/
example : ExSec.netOf (hsLoad ExSec.w ExSec.cls .none .none) = some (1, 2) ∧
    ExSec.refused (hsLoad ExSec.w ExSec.cls .none (some ["net.lr=5"])) = true ∧
    ExSec.refused (hsLoad ExSec.w ExSec.cls (some (.dict [("steps", .int 3)])) (some ["net.lr=5"])) = true ∧
    ExSec.netOf ((smLoadConfig ExSec.w ExSec.cls .none ["net.lr=5"] false).map Loaded.value) = some (5, 2) ∧
    IsOv "net.lr=5" "net.lr" (["net"] ++ ["lr"]) "5" :=
  ⟨by decide +kernel, by decide +kernel, by decide +kernel, by decide +kernel, ⟨rfl, by decide, rfl⟩⟩

namespace ExSec
/-- the same section in a versioned config, as it was and as it is now -/
def topOld : PyTy := .data "Top" [.mk "net" (.data "Net" [.mk "learning_rate" .int .none] (some ⟨0, []⟩)) .none] (some ⟨1, []⟩)
def topNew : PyTy := .data "Top" [.mk "net" (.data "Net" [.mk "lr" .int .none] (some vi)) .none] (some ⟨1, []⟩)
/-- the recorded schema, made from the old class -/
def oldSchema : STy := match materialize topOld with
  | .ok t => t
  | .error _ => .nothing
/-- `str.lower` on a character, as far as it matters here -/
def lc (c : Char) : String := String.ofList [c.toLower]
end ExSec

/-- C80 is false of the schema checker: the rules of the class of a section are not applied to the recorded schema, so that a change
they account for is reported as one that needs a rule, although the documents of the old schema load. -/
theorem C80_checker_false : materialize ExSec.topOld = .ok ExSec.oldSchema ∧
    (∃ report, checker ExSec.lc ExSec.oldSchema ExSec.topNew = .ok report ∧ severityOf report = .warn ∧
      proposedFixes report = [.rename ["net", "learning_rate"] ["net", "lr"]]) ∧
    ∀ (w : World) (i : Int),
      hsLoad w ExSec.topOld (some (.dict [("version", .int 1), ("net", .dict [("version", .int 0), ("learning_rate", .int i)])])) .none =
        .ok (.inst "Top" [("net", .inst "Net" [("learning_rate", .int i)])]) ∧
      hsLoad w ExSec.topNew (some (.dict [("version", .int 1), ("net", .dict [("version", .int 0), ("learning_rate", .int i)])])) .none =
        .ok (.inst "Top" [("net", .inst "Net" [("lr", .int i)])]) := by
  refine ⟨rfl, ?_, fun w i => ⟨rfl, rfl⟩⟩
  have ht : (match checker ExSec.lc ExSec.oldSchema ExSec.topNew with
      | .ok r => decide (severityOf r = .warn) && (match proposedFixes r with
        | [.rename a b] => decide (a = ["net", "learning_rate"]) && decide (b = ["net", "lr"])
        | _ => false)
      | .error _ => false) = true := by decide +kernel
  cases hc : checker ExSec.lc ExSec.oldSchema ExSec.topNew with
  | error e => rw [hc] at ht; exact (nomatch ht)
  | ok r =>
    rw [hc] at ht
    simp only [Bool.and_eq_true, decide_eq_true_eq] at ht
    refine ⟨r, rfl, ht.1, ?_⟩
    have h2 := ht.2
    split at h2
    · rename_i a b hp
      simp only [Bool.and_eq_true, decide_eq_true_eq] at h2
      rw [hp, h2.1, h2.2]
    · exact (nomatch h2)

end HS
