import Verif.Spec.SchemaEdited
import Verif.Props.SchemaFile
import Verif.Proofs.Dict
/-!
# C32: schema files that are written or edited by hand
-/
namespace HS

mutual
theorem says_fromNT (v : Val) (s : STy) (h : fromNT v = .ok s) : SaysTy v s := by
  revert h
  cases hv : v with
  | ntup n kvs =>
    intro h
    rw [fromNT] at h
    split at h
    · rename_i hn
      subst hn
      simp only [ntStr, ntAttr, bind, Except.bind, pure, Except.pure, throw, throwThe, MonadExceptOf.throw] at h
      cases h1 : dget kvs "type" with
      | none => rw [h1] at h; exact (nomatch h)
      | some w =>
        rw [h1] at h
        cases w <;> first | (cases h; done) | (cases h; exact .prim h1)
    · split at h
      · rename_i hn
        subst hn
        split at h
        · rename_i w h1
          simp only [bind, Except.bind, pure, Except.pure] at h
          split at h
          · exact (nomatch h)
          · rename_i t h2
            cases h
            exact .list h1 (says_fromNT w t h2)
        · exact (nomatch h)
      · split at h
        · rename_i hn
          subst hn
          split at h
          · rename_i fs h1
            simp only [bind, Except.bind, pure, Except.pure] at h
            split at h
            · exact (nomatch h)
            · rename_i sfs h2
              have hf := says_fromNTF fs sfs h2
              simp only [ntStr, ntVersion, ntAttr, bind, Except.bind, pure, Except.pure, throw, throwThe, MonadExceptOf.throw] at h
              cases h3 : dget kvs "name" with
              | none => rw [h3] at h; exact (nomatch h)
              | some w =>
                rw [h3] at h
                cases w <;> try (cases h; done)
                cases h4 : dget kvs "version" with
                | none => rw [h4] at h; exact (nomatch h)
                | some w =>
                  rw [h4] at h
                  cases w <;> first | (cases h; done) | (cases h; exact .structV h1 hf h3 h4) | (cases h; exact .structN h1 hf h3 h4)
          · exact (nomatch h)
        · split at h
          · rename_i hn
            subst hn
            split at h
            · rename_i w h1
              simp only [bind, Except.bind, pure, Except.pure] at h
              split at h
              · exact (nomatch h)
              · rename_i t h2
                cases h
                exact .option h1 (says_fromNT w t h2)
            · exact (nomatch h)
          · split at h
            · rename_i hn
              subst hn
              simp only [ntStr, ntAttr, bind, Except.bind, pure, Except.pure, throw, throwThe, MonadExceptOf.throw] at h
              cases h1 : dget kvs "variants" with
              | none => rw [h1] at h; exact (nomatch h)
              | some w =>
                rw [h1] at h
                cases w <;> try (cases h; done)
                cases h3 : dget kvs "name" with
                | none => rw [h3] at h; exact (nomatch h)
                | some w =>
                  rw [h3] at h
                  cases w <;> first | (cases h; done) | (cases h; exact .enum h1 h3)
            · split at h
              · rename_i hn
                subst hn
                simp only [ntAttr, bind, Except.bind, pure, Except.pure, throw, throwThe, MonadExceptOf.throw] at h
                cases h1 : dget kvs "allowed_values" with
                | none => rw [h1] at h; exact (nomatch h)
                | some w =>
                  rw [h1] at h
                  cases w <;> first | (cases h; done) | (cases h; exact .literalL h1) | (cases h; exact .literalT h1)
              · exact (nomatch h)
  | _ => intro h; simp [fromNT] at h
termination_by sizeOf v
decreasing_by
  all_goals (subst hv; have := sizeOf_dgetV ‹dget kvs _ = some _›; simp only [Val.ntup.sizeOf_spec, Val.dict.sizeOf_spec] at *; omega)
theorem says_fromNTF (fs : List (String × Val)) (sfs : List (String × SFld)) (h : fromNTF fs = .ok sfs) : SaysFlds fs sfs := by
  revert h
  cases hfs : fs with
  | nil => intro h; rw [fromNTF] at h; cases h; exact .nil
  | cons kv rest =>
    obtain ⟨k, w⟩ := kv
    cases hw : w with
    | ntup n kvs =>
      intro h
      rw [fromNTF] at h
      split at h
      · rename_i w h1
        simp only [bind, Except.bind, pure, Except.pure] at h
        cases h2 : fromNT w with
        | error e => rw [h2] at h; exact (nomatch h)
        | ok t =>
          rw [h2] at h
          have ht := says_fromNT w t h2
          simp only [ntBool, ntAttr, bind, Except.bind, pure, Except.pure, throw, throwThe, MonadExceptOf.throw] at h
          cases h3 : dget kvs "default" with
          | none => rw [h3] at h; exact (nomatch h)
          | some d =>
            rw [h3] at h
            cases h4 : dget kvs "has_default" with
            | none => rw [h4] at h; exact (nomatch h)
            | some b =>
              rw [h4] at h
              cases b <;> try (cases h; done)
              simp only at h
              cases hr : fromNTF rest with
              | error e => rw [hr] at h; exact (nomatch h)
              | ok r =>
                rw [hr] at h
                cases h
                exact .cons h1 ht h3 h4 (says_fromNTF rest r hr)
      · exact (nomatch h)
    | _ => intro h; simp [fromNTF] at h
termination_by sizeOf fs
decreasing_by
  · subst hfs hw; have := sizeOf_dgetV ‹dget kvs _ = some _›; simp only [List.cons.sizeOf_spec, Prod.mk.sizeOf_spec, Val.ntup.sizeOf_spec]; omega
  · subst hfs hw; simp only [List.cons.sizeOf_spec]; omega
end

mutual
theorem fromNT_says {v : Val} {s : STy} (h : SaysTy v s) : fromNT v = .ok s := by
  cases h with
  | prim h1 => rw [fromNT]; simp [ntStr, ntAttr, h1, bind, Except.bind, pure, Except.pure]
  | list h1 h2 =>
    have ih := fromNT_says h2
    rw [fromNT, if_neg (by decide), if_pos rfl]
    split
    · rename_i w hw
      rw [h1] at hw
      cases hw
      simp [ih, bind, Except.bind, pure, Except.pure]
    · rename_i hw
      rw [h1] at hw
      exact (nomatch hw)
  | option h1 h2 =>
    have ih := fromNT_says h2
    rw [fromNT, if_neg (by decide), if_neg (by decide), if_neg (by decide), if_pos rfl]
    split
    · rename_i w hw
      rw [h1] at hw
      cases hw
      simp [ih, bind, Except.bind, pure, Except.pure]
    · rename_i hw
      rw [h1] at hw
      exact (nomatch hw)
  | enum h1 h2 => rw [fromNT]; simp [ntStr, ntAttr, h1, h2, bind, Except.bind, pure, Except.pure]
  | literalL h1 => rw [fromNT]; simp [ntAttr, h1, bind, Except.bind, pure, Except.pure]
  | literalT h1 => rw [fromNT]; simp [ntAttr, h1, bind, Except.bind, pure, Except.pure]
  | structV h1 h2 h3 h4 =>
    have ih := fromNTF_says h2
    rw [fromNT, if_neg (by decide), if_neg (by decide), if_pos rfl]
    split
    · rename_i w hw
      rw [h1] at hw
      cases hw
      simp [ih, ntStr, ntVersion, ntAttr, h3, h4, bind, Except.bind, pure, Except.pure]
    · rename_i hw
      exact absurd h1 (hw _)
  | structN h1 h2 h3 h4 =>
    have ih := fromNTF_says h2
    rw [fromNT, if_neg (by decide), if_neg (by decide), if_pos rfl]
    split
    · rename_i w hw
      rw [h1] at hw
      cases hw
      simp [ih, ntStr, ntVersion, ntAttr, h3, h4, bind, Except.bind, pure, Except.pure]
    · rename_i hw
      exact absurd h1 (hw _)
theorem fromNTF_says {fs : List (String × Val)} {sfs : List (String × SFld)} (h : SaysFlds fs sfs) : fromNTF fs = .ok sfs := by
  cases h with
  | nil => rw [fromNTF]
  | cons h1 h2 h3 h4 h5 =>
    have ih := fromNT_says h2
    have ihr := fromNTF_says h5
    rw [fromNTF]
    split
    · rename_i w hw
      rw [h1] at hw
      cases hw
      simp [ih, ihr, ntBool, ntAttr, h3, h4, bind, Except.bind, pure, Except.pure]
    · rename_i hw
      rw [h1] at hw
      exact (nomatch hw)
end

/-- C32: which schema files load, and as what, also if they were written or edited by hand: a file loads as the schema of a class
exactly if it says so (`SaysTy`). In particular a file in which an attribute is missing, or which has a type that `load_schema` does not
know, does not load. -/
theorem C32_edited (v : Val) (s : STy) : loadSchema v = .ok s ↔ SaysTy v s ∧ ∃ n fs ver, s = .struct n fs ver := by
  simp only [loadSchema, bind, Except.bind, pure, Except.pure, throw, throwThe, MonadExceptOf.throw]
  constructor
  · intro h
    cases h1 : fromNT v with
    | error e => rw [h1] at h; exact (nomatch h)
    | ok t =>
      rw [h1] at h
      have h2 := says_fromNT v t h1
      cases t <;> first | (cases h; done) | (cases h; exact ⟨h2, _, _, _, rfl⟩)
  · rintro ⟨h, n, fs, ver, rfl⟩
    rw [fromNT_says h]

/-- C32: a schema file stands for at most one schema. -/
theorem C32_edited_one (v : Val) (s t : STy) (hs : SaysTy v s) (ht : SaysTy v t) : s = t := by
  have := (fromNT_says hs).symm.trans (fromNT_says ht)
  cases this
  rfl

theorem SaysTy.inv {v : Val} {n : String} {sfs : List (String × SFld)} {ver : Option Int} (h : SaysTy v (.struct n sfs ver)) :
    ∃ kvs fs, v = .ntup "Struct" kvs ∧ dget kvs "fields" = some (.dict fs) ∧ SaysFlds fs sfs ∧ dget kvs "name" = some (.str n) ∧
      dget kvs "version" = some (match ver with | some i => .int i | .none => .none) := by
  cases h with
  | structV a b c d => exact ⟨_, _, rfl, a, b, c, d⟩
  | structN a b c d => exact ⟨_, _, rfl, a, b, c, d⟩

/-- C32: a schema file loads if its fields do, whatever other attributes it has; the field that is changed in the file is the field
that changes in the schema. -/
theorem C32_edited_field (kvs fkvs fkvs' : List (String × Val)) (n n' k : String) (pre post : List (String × Val)) (cn : String)
    (pre' post' : List (String × SFld)) (ver : Option Int) (f f' : SFld) (hlen : pre'.length = pre.length)
    (hf : dget kvs "fields" = some (.dict (pre ++ (k, .ntup n fkvs) :: post)))
    (h : loadSchema (.ntup "Struct" kvs) = .ok (.struct cn (pre' ++ (k, f) :: post') ver))
    (h' : fromNTF [(k, .ntup n' fkvs')] = .ok [(k, f')]) :
    loadSchema (.ntup "Struct" (dset kvs "fields" (.dict (pre ++ (k, .ntup n' fkvs') :: post)))) =
      .ok (.struct cn (pre' ++ (k, f') :: post') ver) := by
  have key : ∀ (pre : List (String × Val)) (pre' : List (String × SFld)), pre'.length = pre.length →
      SaysFlds (pre ++ (k, .ntup n fkvs) :: post) (pre' ++ (k, f) :: post') →
      SaysFlds (pre ++ (k, .ntup n' fkvs') :: post) (pre' ++ (k, f') :: post') := by
    intro pre
    induction pre with
    | nil =>
      intro pre' hl hs
      cases List.length_eq_zero_iff.1 hl
      have h1 := says_fromNTF _ _ h'
      cases hs with
      | cons _ _ _ _ hr =>
        cases h1 with
        | cons a b c d _ => exact .cons a b c d hr
    | cons x pre ih =>
      intro pre' hl hs
      cases pre' with
      | nil => exact (nomatch hl)
      | cons y pre' =>
        obtain ⟨_, _⟩ := y
        cases hs with
        | cons a b c d hr => exact .cons a b c d (ih pre' (Nat.succ.inj hl) hr)
  obtain ⟨h1, _⟩ := (C32_edited _ _).1 h
  refine (C32_edited _ _).2 ⟨?_, _, _, _, rfl⟩
  have hne : ∀ a, a ≠ "fields" → dget (dset kvs "fields" (.dict (pre ++ (k, .ntup n' fkvs') :: post))) a = dget kvs a := by
    intro a ha
    exact dget_dset_ne _ _ (Ne.symm ha)
  obtain ⟨kvs', fs, e, a, b, c, d⟩ := h1.inv
  cases e
  rw [hf] at a
  cases a
  rw [← hne _ (by decide)] at c
  rw [← hne _ (by decide)] at d
  cases ver with
  | none => exact .structN (dget_dset_self ..) (key _ _ hlen b) c d
  | some i => exact .structV (dget_dset_self ..) (key _ _ hlen b) c d

/-! ## an example -/

namespace ExSF
/-- `Struct(name: "C", fields: {"lr": Field(type: Primitive(type: "float"), default: 1, has_default: true)}, version: None, note: "mine")` -/
def fld (d : Val) : Val := .ntup "Field" [("type", .ntup "Primitive" [("type", .str "float")]), ("default", d), ("has_default", .bool true)]
def file (d : Val) : Val := .ntup "Struct" [("name", .str "C"), ("fields", .dict [("lr", fld d)]), ("version", .none), ("note", .str "mine")]
def sch (d : Val) : STy := .struct "C" [("lr", .mk "lr" (.prim "float") d true .none)] .none

theorem says (d : Val) : SaysTy (file d) (sch d) :=
  .structN rfl (.cons rfl (.prim rfl) rfl rfl .nil) rfl rfl

/-- C32_edited and C32_edited_one apply -/
example (d : Val) : loadSchema (file d) = .ok (sch d) := (C32_edited _ _).2 ⟨says d, _, _, _, rfl⟩

/-- C32_edited_field applies: another default is put into the file -/
example : loadSchema (file (.int 2)) = .ok (sch (.int 2)) :=
  C32_edited_field _ _ _ "Field" "Field" "lr" [] [] "C" [] [] .none (.mk "lr" (.prim "float") (.int 1) true .none) _ rfl rfl
    ((C32_edited (file (.int 1)) _).2 ⟨says _, _, _, _, rfl⟩)
    (fromNTF_says (.cons (k := "lr") (n := "Field") (d := .int 2) rfl (.prim rfl) rfl rfl .nil))

/-- a field without `has_default` does not load -/
example (s : STy) : loadSchema (.ntup "Struct" [("name", .str "C"), ("version", .none), ("fields", .dict [("lr", .ntup "Field"
    [("type", .ntup "Primitive" [("type", .str "float")]), ("default", .int 1)])])]) ≠ .ok s := by
  intro h
  obtain ⟨h1, n, fs, ver, rfl⟩ := (C32_edited _ _).1 h
  obtain ⟨_, _, e, a, b, _⟩ := h1.inv
  cases e
  cases a
  cases b with
  | cons _ _ _ d _ => exact (nomatch d)
end ExSF

end HS
