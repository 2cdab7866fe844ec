import Verif.Props.PrintSchema
/-! # `help` and the default None

`print_schema` (`hyperstate/schema/help.py:67-89`) shows a default only if it is not None. -/
namespace HS

theorem printF_none (n : String) (t : PyTy) (post : List Fld) (depth : Nat) : ∀ pre : List Fld,
    (materializeF (pre ++ .mk n t none :: post)).map (printF depth) =
      (materializeF (pre ++ .mk n t (some .none) :: post)).map (printF depth)
  | [] => by
    simp only [List.nil_append, materializeF, materializeF1, schemaDefault, bind, Except.bind, pure, Except.pure]
    cases materialize t with
    | error e => rfl
    | ok s =>
      simp only
      cases materializeF post with
      | error e => rfl
      | ok F => rfl
  | f :: pre => by
    have ih := printF_none n t post depth pre
    simp only [List.cons_append, materializeF, bind, Except.bind, pure, Except.pure]
    cases materializeF1 f with
    | error e => rfl
    | ok x =>
      simp only
      cases h1 : materializeF (pre ++ .mk n t none :: post) with
      | error e =>
        cases h2 : materializeF (pre ++ .mk n t (some .none) :: post) with
        | error e' => rw [h1, h2] at ih; simp only [Except.map] at ih ⊢; exact ih
        | ok G => rw [h1, h2] at ih; exact (nomatch ih)
      | ok F =>
        cases h2 : materializeF (pre ++ .mk n t (some .none) :: post) with
        | error e' => rw [h1, h2] at ih; exact (nomatch ih)
        | ok G =>
          rw [h1, h2] at ih
          simp only [Except.map, Except.ok.injEq] at ih
          simp only [Except.map, printF, ih]

/-- C70, the failing case in general: in every class, giving a field without default the default None (which makes it optional in the
file) changes nothing in what help prints. -/
theorem C70_nones_false (lower : Char → String) (c n : String) (t : PyTy) (pre post : List Fld) (ver : Option VerInfo) :
    helpCmd lower (.data c (pre ++ .mk n t none :: post) ver) "" =
      helpCmd lower (.data c (pre ++ .mk n t (some .none) :: post) ver) "" := by
  have h := printF_none n t post 0 pre
  simp only [helpCmd, materialize, bind, Except.bind, pure, Except.pure]
  cases h1 : materializeF (pre ++ .mk n t none :: post) with
  | error e =>
    cases h2 : materializeF (pre ++ .mk n t (some .none) :: post) with
    | error e' => rw [h1, h2] at h; cases h; rfl
    | ok G => rw [h1, h2] at h; exact (nomatch h)
  | ok F =>
    cases h2 : materializeF (pre ++ .mk n t (some .none) :: post) with
    | error e' => rw [h1, h2] at h; exact (nomatch h)
    | ok G =>
      rw [h1, h2] at h
      simp only [Except.map, Except.ok.injEq] at h
      simp only [h]
      rfl

/-- A class for which help prints something, in both cases the same. -/
example : helpCmd Ex.lc (.data "C" [.mk "a" .int none, .mk "x" (.optional .int) (some .none)] .none) "" =
    .ok (.schema [⟨0, "a", .none⟩, ⟨0, "x", .none⟩]) := rfl
end HS
