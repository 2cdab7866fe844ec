import Verif.Props.OverrideLoad
import Verif.Props.Again
/-!
# C15 for every enum field

An identifier in RON is an empty struct of that name, so no member of an enum can be chosen by writing its name in an override.
-/
namespace HS

/-- not a tuple -/
def NotTuple : Val → Prop
  | .tup _ | .ntup _ _ => False
  | _ => True

theorem enumByValue_ident (cls s : String) : ∀ ms : List (String × Val), (∀ e ∈ ms, NotTuple e.2) →
    enumByValue cls (.ntup s []) ms = .error .valueError
  | [], _ => rfl
  | (n, w) :: ms, h => by
    have h1 : NotTuple w := h (n, w) (by simp)
    have h2 : pyEq (.ntup s []) w = false := by
      cases w <;> first | rfl | exact h1.elim
    simp only [enumByValue, h2, Bool.false_eq_true, if_false]
    exact enumByValue_ident cls s ms (fun e he => h e (by simp [he]))

/-- C15 is false for every enum field, at any depth: an override with an identifier (which RON reads as an empty struct) makes the
load fail, whatever the members (as long as their values are not tuples), the document and the other overrides are, unless a later
override concerns the same place. In particular no member can be chosen by its name. -/
theorem C15_enums_false (c : DCfg) (ron : RonParse) (hron : ∀ s v, ron s = .ok v → NoMark v) (n : String) (fs : List Fld)
    (ig : Bool) (doc : Val) (pre post : List String) (o key s : String) (p : List String) (cls : String) (ms : List (String × Val))
    (hov : IsOv o key p s) (hlast : ∀ o' ∈ post, ∀ key' p' s', IsOv o' key' p' s' → Unrelated p' p)
    (hmark : ∀ o' ∈ pre ++ o :: post, ∀ key' p' s', IsOv o' key' p' s' → WEAK_REF ∉ p') (hdoc : NoMark doc)
    (hf : FieldAtU fs p (.enum cls ms)) (hn : NAME_KEY ∉ p) (hid : ron s = .ok (.ntup s [])) (hms : ∀ e ∈ ms, NotTuple e.2) :
    ∃ e, typedLoad c ron (some (pre ++ o :: post)) ig (.data n fs .none) doc = .error e := by
  cases h : typedLoad c ron (some (pre ++ o :: post)) ig (.data n fs .none) doc with
  | error e => exact ⟨e, rfl⟩
  | ok l =>
    exfalso
    obtain ⟨x, y, es, path, h1, h2, _⟩ := C15_reaches_partial c ron hron n fs ig doc l pre post o key s p (.enum cls ms) h hov
      hlast hmark hdoc hf (by nofun) hn
    cases h1 with
    | other _ _ hx =>
      rw [hid] at hx; cases hx
      simp [fromDict, enumByValue_ident cls s ms hms, bind, Except.bind] at h2

/-- The override `opt=adam` of `C15_enum_false` meets all the hypotheses. -/
example : ∃ e, typedLoad (Ex.world.dcfg false true) Ex.ronIdent (some ["opt=adam"]) false
    (.data "C" [.mk "opt" Ex.optTy (some (.enm "Opt" "sgd" (.str "sgd")))] .none) (.dict []) = .error e := by
  have hov : IsOv "opt=adam" "opt" ["opt"] "adam" := ⟨by decide, by decide, by decide⟩
  refine C15_enums_false (Ex.world.dcfg false true) Ex.ronIdent Ex.ronIdent_ok "C" _ false (.dict []) [] [] "opt=adam" "opt" "adam"
    ["opt"] _ _ hov (by simp) ?_ ?_ (.here (f := .mk "opt" Ex.optTy _) rfl) (by decide) rfl ?_
  · intro o' ho' key' p' s' h'
    simp only [List.nil_append, List.mem_cons, List.not_mem_nil, or_false] at ho'
    subst ho'
    rw [(isOv_unique h' hov).2.1]
    decide
  · intro q; cases q <;> rfl
  · intro e he
    simp at he
    rcases he with rfl | rfl <;> trivial

end HS
