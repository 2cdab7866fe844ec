import Verif.Props.SelfDefaults
/-! # Schema files with defaults that are dataclass instances or nan

`_dump_schema` and `load_schema` (`hyperstate/schema/schema_checker.py:377-380`, `hyperstate/schema/types.py:306-339`). -/
namespace HS

theorem styEqD_mem {F G : List (String × SFld)} {k : String} {f g : SFld} (hm : (k, f) ∈ F) (hg : dget G k = some g)
    (h : sfldEq f g = false) : styEqD F G = false := by
  induction F with
  | nil => exact (nomatch hm)
  | cons e F ih =>
    simp only [styEqD]
    rcases List.mem_cons.1 hm with rfl | hm
    · simp only [styEqP, hg, h, Bool.false_and]
    · rw [ih hm, Bool.and_false]

/-- C32, the failing case in general: if a default of a class is not `==` to what the file holds for it, the schema loaded from the file
is not `==` to the schema of the class. -/
theorem C32_unequal_false (n : String) (fs : List Fld) (ver : Option VerInfo) (hn : (fs.map Fld.name).Nodup) (f : Fld) (hf : f ∈ fs)
    (d : Val) (hd : f.dflt = some d) (hne : ∀ c m u, d ≠ .enm c m u) (hq : pyEq d (ronStruct d) = false) (s t : STy) (v : Val)
    (hm : materialize (.data n fs ver) = .ok s) (h1 : dumpSchema (.data n fs ver) = .ok v) (h2 : loadSchema v = .ok t) :
    styEq s t = false := by
  rw [dumpSchema, hm] at h1
  cases h1
  simp only [materialize, bind, Except.bind, pure, Except.pure] at hm
  cases hF : materializeF fs with
  | error e => rw [hF] at hm; exact (nomatch hm)
  | ok F =>
    rw [hF] at hm
    cases hm
    unfold loadSchema at h2
    rw [fromNT_obj] at h2
    split at h2
    · simp only [STy.reload, bind, Except.bind, pure, Except.pure] at h2
      cases h2
      obtain ⟨-, -, t, g1, g2⟩ := (matF_find hF f.name).1 f (find_of_mem hn hf)
      have hsd : schemaDefault f.dflt = (d, true) := by
        rw [hd]
        unfold schemaDefault
        split
        · rename_i c m u heq; cases heq; exact absurd rfl (hne c m u)
        · rename_i heq; cases heq; rfl
        · rename_i heq; exact (nomatch heq)
      have hr := reloadF_dget g2
      have : styEqD F (reloadF F) = false := by
        refine styEqD_mem (dget_mem g2) hr ?_
        simp only [schemaFld, hsd, reloadS, sfldEq, SFld.dflt, hq, Bool.and_false, Bool.false_and]
      simp only [styEq, this, Bool.and_false, Bool.false_and]
    · exact (nomatch h2)

/-- C32: so it is for every default that is a dataclass instance -/
theorem C32_instances_false (n : String) (fs : List Fld) (ver : Option VerInfo) (hn : (fs.map Fld.name).Nodup) (f : Fld) (hf : f ∈ fs)
    (c : String) (kvs : List (String × Val)) (hd : f.dflt = some (.inst c kvs)) (s t : STy) (v : Val)
    (hm : materialize (.data n fs ver) = .ok s) (h1 : dumpSchema (.data n fs ver) = .ok v) (h2 : loadSchema v = .ok t) :
    styEq s t = false :=
  C32_unequal_false n fs ver hn f hf _ hd (fun _ _ _ e => (nomatch e)) rfl s t v hm h1 h2

/-- The hypotheses are met: there is a file for such a class, and it loads. -/
example : (match dumpSchema (.data "C" [.mk "k" .int (some (.int 1)), .mk "net" (.data "Net" [.mk "n" .int (some (.int 4))] none)
    (some (.inst "Net" [("n", .int 4)]))] none) with
    | .ok v => (match loadSchema v with | .ok _ => true | _ => false)
    | _ => false) = true := by decide +kernel
end HS
