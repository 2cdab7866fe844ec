import Verif.Props.Diff
import Verif.Proofs.Compat
import Verif.Props.Severity
/-! # Checking a class against its own schema file: defaults that the file does not give back

`_dump_schema` (`hyperstate/schema/schema_checker.py:377-380`) writes the defaults, and the comparison of the defaults
(`hyperstate/schema/schema_checker.py:149-164`) uses `==`. -/
namespace HS

theorem reloadF_dget {F : List (String × SFld)} {k : String} {g : SFld} (h : dget F k = some g) : dget (reloadF F) k = some (reloadS k g) := by
  induction F with
  | nil => exact (nomatch h)
  | cons e F ih =>
    obtain ⟨k', g'⟩ := e
    simp only [reloadF, reloadP]
    by_cases hk : k' = k
    · subst hk
      simp only [dget, if_true] at h ⊢
      cases h
      rfl
    · simp only [dget, if_neg hk] at h ⊢
      exact ih h

theorem reload_isStruct (s : STy) : s.reload.isStruct = s.isStruct := by cases s <;> rfl

/-- the file of a class, and the changes found in it -/
theorem self_changes {n : String} {fs : List Fld} {vi : VerInfo} {lower : Char → String} {v : Val} {s : STy} {cs : List Change}
    (h1 : dumpSchema (.data n fs (some vi)) = .ok v) (h2 : loadSchema v = .ok s) (h3 : checker lower s (.data n fs (some vi)) = .ok cs) :
    ∃ F cs0, materializeF fs = .ok F ∧ findChanges [] (.struct n F (some vi.version)) (.struct n (reloadF F) (some vi.version)) = .ok cs0 ∧
      cs = findRenames (enumRenameCfg lower) (findRenames (fieldRenameCfg lower) cs0) := by
  cases hm : materializeF fs with
  | error e => simp only [dumpSchema, materialize, hm, bind, Except.bind] at h1; exact (nomatch h1)
  | ok F =>
    have h0 : materialize (.data n fs (some vi)) = .ok (.struct n F (some vi.version)) := by
      simp only [materialize, hm, bind, Except.bind, pure, Except.pure, Option.map]
    have hv : v = ronStruct (STy.struct n F (some vi.version)).obj := by
      rw [dumpSchema, h0] at h1
      cases h1
      rfl
    subst hv
    unfold loadSchema at h2
    rw [fromNT_obj] at h2
    split at h2
    · simp only [STy.reload, bind, Except.bind, pure, Except.pure] at h2
      cases h2
      unfold checker classSchema at h3
      rw [h0] at h3
      simp only [bind, Except.bind, pure, Except.pure] at h3
      have : vi.applySchemaUpgrades (.struct n (reloadF F) (some vi.version)) = .ok (.struct n (reloadF F) (some vi.version)) := rangeI_self vi _
      rw [this] at h3
      simp only [checkSchemas, bind, Except.bind, pure, Except.pure] at h3
      cases hc : findChanges [] (.struct n F (some vi.version)) (.struct n (reloadF F) (some vi.version)) with
      | error e => rw [hc] at h3; exact (nomatch h3)
      | ok cs0 => rw [hc] at h3; cases h3; exact ⟨F, cs0, rfl, hc, rfl⟩
    · exact (nomatch h2)

/-- C25, the failing case in general: a field whose default is not equal to what the file holds for it is reported, and the severity is
not INFO, in every check of a versioned class against its own schema file that ends. -/
theorem C25_unequal_false (lower : Char → String) (n : String) (fs : List Fld) (vi : VerInfo) (hn : (fs.map Fld.name).Nodup) (f : Fld)
    (hf : f ∈ fs) (d : Val) (hd : f.dflt = some d) (hne : ∀ c m u, d ≠ .enm c m u) (hq : pyEq (ronStruct d) d = false)
    (v : Val) (s : STy) (cs : List Change) (h1 : dumpSchema (.data n fs (some vi)) = .ok v) (h2 : loadSchema v = .ok s)
    (h3 : checker lower s (.data n fs (some vi)) = .ok cs) :
    .defaultChanged [f.name] (ronStruct d) d ∈ cs ∧ severityOf cs ≠ .info := by
  obtain ⟨F, cs0, m1, m2, rfl⟩ := self_changes h1 h2 h3
  obtain ⟨-, -, t, g1, g2⟩ := (matF_find m1 f.name).1 f (find_of_mem hn hf)
  have hsd : schemaDefault f.dflt = (d, true) := by
    rw [hd]
    unfold schemaDefault
    split
    · rename_i c m u heq; cases heq; exact absurd rfl (hne c m u)
    · rename_i heq; cases heq; rfl
    · rename_i heq; exact (nomatch heq)
  have hmem : .defaultChanged [f.name] (ronStruct d) d ∈ cs0 := by
    simp only [findChanges, bind, Except.bind, pure, Except.pure] at m2
    cases hc : findFields [] (reloadF F) F with
    | error e => rw [hc] at m2; exact (nomatch m2)
    | ok w =>
      rw [hc] at m2
      cases m2
      apply List.mem_append_left
      obtain ⟨cs', c1, c2⟩ := findFields_mem (dget_mem g2) hc
      apply c2
      have hr := reloadF_dget g2
      simp only [schemaFld, hsd, reloadS] at hr
      simp only [schemaFld, hsd, findField1, hr, SFld.type, reload_isStruct, Bool.and_not_self, bind, Except.bind, pure, Except.pure] at c1
      cases h4 : findChanges ([] ++ [f.name]) t t.reload with
      | error e => rw [h4] at c1; exact (nomatch c1)
      | ok w' =>
        rw [h4] at c1
        simp at c1
        subst c1
        simp [defaultChanges, SFld.hasDefault, SFld.dflt, hq]
  have hk : .defaultChanged [f.name] (ronStruct d) d ∈ findRenames (enumRenameCfg lower) (findRenames (fieldRenameCfg lower) cs0) :=
    C29_kept _ _ _ (C29_kept _ _ _ hmem rfl rfl) rfl rfl
  refine ⟨hk, fun hi => ?_⟩
  have := (C26_info _).1 hi _ hk
  exact (nomatch this)

/-- C25: so it is for every default that is a dataclass instance, whatever the class -/
theorem C25_instances_false (lower : Char → String) (n : String) (fs : List Fld) (vi : VerInfo) (hn : (fs.map Fld.name).Nodup) (f : Fld)
    (hf : f ∈ fs) (c : String) (kvs : List (String × Val)) (hd : f.dflt = some (.inst c kvs))
    (v : Val) (s : STy) (cs : List Change) (h1 : dumpSchema (.data n fs (some vi)) = .ok v) (h2 : loadSchema v = .ok s)
    (h3 : checker lower s (.data n fs (some vi)) = .ok cs) :
    .defaultChanged [f.name] (ronStruct (.inst c kvs)) (.inst c kvs) ∈ cs ∧ severityOf cs ≠ .info :=
  C25_unequal_false lower n fs vi hn f hf _ hd (fun _ _ _ e => (nomatch e)) rfl v s cs h1 h2 h3

/-- C25: and for every default that is nan -/
theorem C25_nans_false (lower : Char → String) (n : String) (fs : List Fld) (vi : VerInfo) (hn : (fs.map Fld.name).Nodup) (f : Fld)
    (hf : f ∈ fs) (hd : f.dflt = some (.flt .nan))
    (v : Val) (s : STy) (cs : List Change) (h1 : dumpSchema (.data n fs (some vi)) = .ok v) (h2 : loadSchema v = .ok s)
    (h3 : checker lower s (.data n fs (some vi)) = .ok cs) :
    .defaultChanged [f.name] (.flt .nan) (.flt .nan) ∈ cs ∧ severityOf cs ≠ .info :=
  C25_unequal_false lower n fs vi hn f hf _ hd (fun _ _ _ e => (nomatch e)) rfl v s cs h1 h2 h3

/-- The hypotheses are met (see also `C25_instance_default_false`, `C25_nan_false`): the check of this class ends. -/
example : selfCheck (.data "C" [.mk "k" .int (some (.int 1)), .mk "net" (.data "Net" [.mk "n" .int (some (.int 4))] none)
    (some (.inst "Net" [("n", .int 4)]))] (some ⟨0, []⟩)) = .ok .warn := by
  have h : (match selfCheck (.data "C" [.mk "k" .int (some (.int 1)), .mk "net" (.data "Net" [.mk "n" .int (some (.int 4))] none)
    (some (.inst "Net" [("n", .int 4)]))] (some ⟨0, []⟩)) with | .ok .warn => true | _ => false) = true := by decide +kernel
  split at h
  · assumption
  · exact (nomatch h)
end HS
