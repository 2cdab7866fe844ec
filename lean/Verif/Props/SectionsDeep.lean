import Verif.Props.Sections

/-! C80 for versioned sections inside versioned sections (serde.py:240-302, versioned.py:58-80) -/

namespace HS

/-- `SectionAt t doc p u x`: in a document `doc` of class `t` the section at the path `p` (in names of the current fields) has the
class `u` and is `x` when all versioned classes around it have applied their rules, from outside to inside, each from the
version that its object then has. -/
inductive SectionAt : PyTy → Val → List String → PyTy → Val → Prop
  | plain {n fs doc p t u d} : FieldAtU fs p t → Strips t u → NAME_KEY ∉ p → NoMark doc → doc.at? p = some (.dict d) →
      SectionAt (.data n fs .none) doc p u (.dict d)
  | upgraded {n fs vi d v0 doc p u x} : dget d "version" = some (.int v0) → (∀ e ∈ vi.rules, e.1 < vi.version) →
      applyRules ((rangeI v0 vi.version).flatMap vi.rulesAt) (.dict (ddel d "version")) = .ok doc →
      SectionAt (.data n fs .none) doc p u x → SectionAt (.data n fs (some vi)) (.dict d) p u x
  | inside {t doc p u x q u' x'} : SectionAt t doc p u x → SectionAt u x q u' x' → SectionAt t doc (p ++ q) u' x'

theorem attr_app : ∀ (p q : List String) (v : Val), v.attr (p ++ q) = (v.attr p).bind (fun y => y.attr q) := by
  intro p
  induction p with
  | nil => intro q v; simp [Val.attr]
  | cons k p ih =>
    intro q v
    cases v <;> simp only [List.cons_append, Val.attr, Option.bind_none]
    rename_i kvs
    cases dget kvs k with
    | none => rfl
    | some y => simpa using ih q y

theorem sectionAt_fromDict {c : DCfg} {t u : PyTy} {doc x : Val} {p : List String} (h : SectionAt t doc p u x) :
    ∀ {ig : Bool} {v : Val} {es : List Ev}, fromDict c t ig "" doc = .ok (v, es) →
    ∃ y es', v.attr p = some y ∧ fromDict c u false "" x = .ok (y, es') := by
  induction h with
  | plain hf ht hn hdoc hx => intro ig v es h; exact section_fromDict h hf ht hdoc hn hx
  | upgraded hv hk ha _ ih =>
    intro ig v es h
    rw [fromDict_versioned _ hv hk, ha] at h
    exact ih h
  | inside _ _ ih1 ih2 =>
    intro ig v es h
    obtain ⟨y, es1, h1, h2⟩ := ih1 h
    obtain ⟨z, es2, h3, h4⟩ := ih2 h2
    exact ⟨z, es2, by rw [attr_app, h1]; exact h3, h4⟩

/-- C80: a section of a loaded config, however deep inside other versioned sections, holds what the rules of its class, from the
section's own version on, and then the class without versions make of the section that the rules of the classes around it leave. It
is what this section would give as a file of its own. -/
theorem C80_deep (w : World) (t : PyTy) (doc v : Val) (h : hsLoad w t (some doc) .none = .ok v) (p : List String) (n' : String)
    (fs' : List Fld) (vi : VerInfo) (hk : ∀ e ∈ vi.rules, e.1 < vi.version) (d : List (String × Val)) (v0 : Int)
    (hs : SectionAt t doc p (.data n' fs' (some vi)) (.dict d)) (hv : dget d "version" = some (.int v0)) :
    ∃ doc' y es, applyRules ((rangeI v0 vi.version).flatMap vi.rulesAt) (.dict (ddel d "version")) = .ok doc' ∧
      fromDict (w.dcfg false true) (.data n' fs' .none) false "" doc' = .ok (y, es) ∧ v.attr p = some y ∧
      ∀ y', hsLoad w (.data n' fs' (some vi)) (some (.dict d)) .none = .ok y' → y' = y := by
  obtain ⟨es, h⟩ := hsLoad_fromDict h
  obtain ⟨y, es', h1, h2⟩ := sectionAt_fromDict hs h
  have h3 := h2
  rw [fromDict_versioned _ hv hk] at h3
  cases hu : applyRules ((rangeI v0 vi.version).flatMap vi.rulesAt) (.dict (ddel d "version")) with
  | error e => rw [hu] at h3; exact (nomatch h3)
  | ok doc' =>
    rw [hu] at h3
    refine ⟨doc', y, es', rfl, h3, h1, fun y' hy' => ?_⟩
    obtain ⟨es'', h4⟩ := hsLoad_fromDict hy'
    rw [h2] at h4
    cases h4
    rfl

/-- C80: the same for the config of a manager, whose overrides are applied to the document first; the version of a section may be
missing there, and then no rule of its class is applied. -/
theorem C80_manager_deep (w : World) (t : PyTy) (file : Option Val) (os : List String) (ig : Bool) (l : Loaded) (doc : Val)
    (h : smLoadConfig w t file os ig = .ok l) (happ : applyOverrides w.ron t os (file.getD (.dict [])) = .ok doc) (p : List String)
    (n' : String) (fs' : List Fld) (vi : VerInfo) (d : List (String × Val)) (hs : SectionAt t doc p (.data n' fs' (some vi)) (.dict d)) :
    (∀ v0, dget d "version" = some (.int v0) → (∀ e ∈ vi.rules, e.1 < vi.version) →
      ∃ doc' y es, applyRules ((rangeI v0 vi.version).flatMap vi.rulesAt) (.dict (ddel d "version")) = .ok doc' ∧
        fromDict (w.dcfg true file.isSome) (.data n' fs' .none) false "" doc' = .ok (y, es) ∧ l.value.attr p = some y) ∧
    (dget d "version" = .none →
      ∃ y es, fromDict (w.dcfg true file.isSome) (.data n' fs' .none) false "" (.dict d) = .ok (y, es) ∧ l.value.attr p = some y) := by
  have h3 : typedLoad (w.dcfg true file.isSome) w.ron (some os) ig t (file.getD (.dict [])) = .ok l := by
    cases file <;> exact h
  simp only [typedLoad, happ, bind, Except.bind, pure, Except.pure] at h3
  cases hq : fromDict (w.dcfg true file.isSome) t ig "" doc with
  | error e => rw [hq] at h3; exact (nomatch h3)
  | ok q =>
    obtain ⟨v, es⟩ := q
    rw [hq] at h3
    dsimp only at h3
    cases hr : regAll [] es with
    | error e => rw [hr] at h3; exact (nomatch h3)
    | ok r =>
      rw [hr] at h3
      cases h3
      obtain ⟨y, es', h1, h2⟩ := sectionAt_fromDict hs hq
      refine ⟨fun v0 hv hk => ?_, fun hv => ?_⟩
      · rw [fromDict_versioned _ hv hk] at h2
        cases hu : applyRules ((rangeI v0 vi.version).flatMap vi.rulesAt) (.dict (ddel d "version")) with
        | error e => rw [hu] at h2; exact (nomatch h2)
        | ok doc' => rw [hu] at h2; exact ⟨doc', y, es', rfl, h2, h1⟩
      · rw [fromDict_upgraded (v := .dict d) (by simp [Upgraded, versionHook_missing _ vi d hv, World.dcfg])] at h2
        exact ⟨y, es', h2, h1⟩

namespace ExSD
/-- `class Cfg(Versioned): net: Net` in version 1; `network` was renamed to `net` -/
def top : PyTy := .data "Cfg" [.mk "net" mid .none] (some ⟨1, [(0, [.rename ["network"] ["net"]])]⟩)
where
  /-- `class Net(Versioned): head: Head` in version 2; `out` was renamed to `head` -/
  mid : PyTy := .data "Net" [.mk "head" ExSec.net .none] (some ⟨2, [(1, [.rename ["out"] ["head"]])]⟩)

def inner : List (String × Val) := [("learning_rate", .int 5), ("version", .int 0)]
def midDoc : List (String × Val) := [("version", .int 1), ("out", .dict inner)]
def doc : Val := .dict [("version", .int 0), ("network", .dict midDoc)]

theorem noMark_ints : NoMark (.dict [("net", .dict midDoc)]) ∧ NoMark (.dict [("head", .dict inner)]) := by
  constructor
  · intro q
    rcases q with _ | ⟨a, _ | ⟨b, _ | ⟨c, q⟩⟩⟩ <;> simp [Val.at?, dget, midDoc, inner, WEAK_REF] <;> (repeat' split) <;> simp_all [Val.at?, dget] <;> (repeat' split) <;> simp_all
    all_goals exact fun _ => by cases q <;> rfl
  · intro q
    rcases q with _ | ⟨a, _ | ⟨b, q⟩⟩ <;> simp [Val.at?, dget, inner, WEAK_REF] <;> (repeat' split) <;> simp_all
    all_goals exact fun _ => by cases q <;> rfl
end ExSD

/-- three versioned classes, each with a rule that runs -/
example : SectionAt ExSD.top ExSD.doc (["net"] ++ ["head"]) (.data "Net" ExSec.netFs (some ExSec.vi)) (.dict ExSD.inner) ∧
    hsLoad ExSec.w ExSD.top (some ExSD.doc) .none =
      .ok (.inst "Cfg" [("net", .inst "Net" [("head", .inst "Net" [("lr", .int 5), ("n", .int 2)])])]) :=
  ⟨.inside
    (.upgraded (v0 := 0) rfl (by decide) rfl (.plain (t := ExSD.top.mid) (.here (f := .mk "net" ExSD.top.mid .none) rfl) (.refl _ _ _) (by decide) ExSD.noMark_ints.1 rfl))
    (.upgraded (v0 := 1) rfl (by decide) rfl (.plain (t := ExSec.net) (.here (f := .mk "head" ExSec.net .none) rfl) (.refl _ _ _) (by decide) ExSD.noMark_ints.2 rfl)), rfl⟩

end HS
