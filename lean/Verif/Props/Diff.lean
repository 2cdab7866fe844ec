import Verif.Proofs.DiffMain
import Verif.Props.SchemaFile
import Verif.Props.Renames
import Verif.Spec.Typing
/-!
# C28: the checker reports every difference, and nothing else; C25: a schema is compatible with itself
-/
namespace HS

/-- C28: before rename matching, the changes are exactly the local differences of the pairs that belong together -/
theorem C28_exact (old new : STy) (cs : List Change) (ho : WFS old) (hn : WFS new) (h : findChanges [] new old = .ok cs)
    (c : Change) : c ∈ cs ↔ ∃ q o n, Twin old new q o n ∧ Local q o n c := by
  have := findChanges_iff (sizeOf new + 1) new old [] cs (Nat.lt_succ_self _) ho hn h c
  simpa using this

/-- C28: the comparison fails exactly if two tuples, two dicts, two unions or two Nothings belong together -/
theorem C28_ok (old new : STy) (ho : WFS old) (hn : WFS new) :
    (∃ cs, findChanges [] new old = .ok cs) ↔ ∀ q o n, Twin old new q o n → ¬ Unsupported o n :=
  findChanges_ok (sizeOf new + 1) new old [] (Nat.lt_succ_self _) ho hn

/-- C28: FieldAdded is reported for exactly the leaves of the new schema that the old one does not have -/
theorem C28_added (old new : STy) (cs : List Change) (ho : WFS old) (hn : WFS new) (h : findChanges [] new old = .ok cs)
    (p : List String) (t : STy) (d : Val) (b : Bool) : .fieldAdded p t d b ∈ cs ↔
      ∃ q o n r f, Twin old new q o n ∧ o.isStruct = true ∧ p = q ++ r ∧ Leaf n r f ∧ f.type = t ∧ f.dflt = d ∧ f.hasDefault = b ∧
        ∀ g, ¬ Leaf o r g := by
  rw [C28_exact old new cs ho hn h]
  constructor
  · rintro ⟨q, o, n, ht, hl⟩
    cases hl with
    | added a b c => exact ⟨q, o, n, _, _, ht, a, rfl, b, rfl, rfl, rfl, c⟩
  · rintro ⟨q, o, n, r, f, ht, ho, rfl, hl, rfl, rfl, rfl, hg⟩
    exact ⟨q, o, n, ht, .added ho hl hg⟩

/-- C28: FieldRemoved is reported for exactly the leaves of the old schema that the new one does not have -/
theorem C28_removed (old new : STy) (cs : List Change) (ho : WFS old) (hn : WFS new) (h : findChanges [] new old = .ok cs)
    (p : List String) (t : STy) (d : Val) (b : Bool) : .fieldRemoved p t d b ∈ cs ↔
      ∃ q o n r f, Twin old new q o n ∧ n.isStruct = true ∧ p = q ++ r ∧ Leaf o r f ∧ f.type = t ∧ f.dflt = d ∧ f.hasDefault = b ∧
        ∀ g, ¬ Leaf n r g := by
  rw [C28_exact old new cs ho hn h]
  constructor
  · rintro ⟨q, o, n, ht, hl⟩
    cases hl with
    | removed a b c => exact ⟨q, o, n, _, _, ht, a, rfl, b, rfl, rfl, rfl, c⟩
  · rintro ⟨q, o, n, r, f, ht, ho, rfl, hl, rfl, rfl, rfl, hg⟩
    exact ⟨q, o, n, ht, .removed ho hl hg⟩

/-- C28 for schemas of classes without containers of structs: FieldAdded is reported for exactly the leaf paths of the new
class that are not leaf paths of the old one. -/
theorem C28_added_top (old new : STy) (cs : List Change) (ho : WFS old) (hn : WFS new) (h : findChanges [] new old = .ok cs)
    (hs : old.isStruct = true) (p : List String) (f : SFld) (hl : Leaf new p f) (hg : ∀ g, ¬ Leaf old p g) :
    .fieldAdded p f.type f.dflt f.hasDefault ∈ cs :=
  (C28_added old new cs ho hn h p _ _ _).2 ⟨[], old, new, p, f, .root, hs, rfl, hl, rfl, rfl, rfl, hg⟩

theorem C28_removed_top (old new : STy) (cs : List Change) (ho : WFS old) (hn : WFS new) (h : findChanges [] new old = .ok cs)
    (hs : new.isStruct = true) (p : List String) (f : SFld) (hl : Leaf old p f) (hg : ∀ g, ¬ Leaf new p g) :
    .fieldRemoved p f.type f.dflt f.hasDefault ∈ cs :=
  (C28_removed old new cs ho hn h p _ _ _).2 ⟨[], old, new, p, f, .root, hs, rfl, hl, rfl, rfl, rfl, hg⟩

mutual
/-- no dataclass in the type has two fields of one name (which Python guarantees) -/
def DistinctTy : PyTy → Prop
  | .list a => DistinctTy a
  | .union as => DistinctTyHd as
  | .data _ fs _ => (fs.map Fld.name).Nodup ∧ DistinctTyF fs
  | _ => True
termination_by structural x => x
def DistinctTyHd : List PyTy → Prop
  | [] => True
  | t :: _ => DistinctTy t
termination_by structural x => x
def DistinctTyF : List Fld → Prop
  | [] => True
  | f :: fs => DistinctTyF1 f ∧ DistinctTyF fs
termination_by structural x => x
def DistinctTyF1 : Fld → Prop
  | .mk _ t _ => DistinctTy t
termination_by structural x => x
end

mutual
/-- the schema of a class is well-formed -/
theorem wfs_materialize : ∀ (ty : PyTy) (s : STy), DistinctTy ty → materialize ty = .ok s → WFS s
  | .int, s, _, h | .str, s, _, h | .bool, s, _, h | .float, s, _, h => by
    simp only [materialize, pure, Except.pure] at h; cases h; exact .prim
  | .list a, s, hd, h => by
    simp only [materialize, bind, Except.bind, pure, Except.pure] at h
    cases h1 : materialize a with
    | error e => rw [h1] at h; exact (nomatch h)
    | ok q => rw [h1] at h; cases h; exact .list (wfs_materialize a q (by simpa only [DistinctTy] using hd) h1)
  | .tuple as, s, _, h => by
    simp only [materialize, bind, Except.bind, pure, Except.pure] at h
    cases h1 : materializeL as with
    | error e => rw [h1] at h; exact (nomatch h)
    | ok q => rw [h1] at h; cases h; exact .tuple
  | .dict k v, s, _, h => by
    simp only [materialize, bind, Except.bind, pure, Except.pure] at h
    cases h1 : materialize k with
    | error e => rw [h1] at h; exact (nomatch h)
    | ok q =>
      rw [h1] at h
      cases h2 : materialize v with
      | error e => rw [h2] at h; exact (nomatch h)
      | ok r => rw [h2] at h; cases h; exact .dict
  | .union as, s, hd, h => by
    rw [materialize] at h
    split at h
    · exact wfs_materializeHd as s (by simpa only [DistinctTy] using hd) h
    · simp only [bind, Except.bind, pure, Except.pure] at h
      cases h1 : materializeL as with
      | error e => rw [h1] at h; exact (nomatch h)
      | ok q => rw [h1] at h; cases h; exact .union
  | .data n fs ver, s, hd, h => by
    simp only [materialize, bind, Except.bind, pure, Except.pure] at h
    simp only [DistinctTy] at hd
    cases h1 : materializeF fs with
    | error e => rw [h1] at h; exact (nomatch h)
    | ok q =>
      rw [h1] at h; cases h
      obtain ⟨a, b⟩ := wfs_materializeF fs q hd.2 h1
      exact .struct (by rw [a]; exact hd.1) b
  | .enum n ms, s, _, h => by simp only [materialize, pure, Except.pure] at h; cases h; exact .enum
  | .literal vs, s, _, h => by simp only [materialize, pure, Except.pure] at h; cases h; exact .literal
  | .noneT, s, _, h | .blob _, s, _, h => by simp [materialize, throw, throwThe, MonadExceptOf.throw] at h
termination_by structural x => x
theorem wfs_materializeHd : ∀ (as : List PyTy) (s : STy), DistinctTyHd as → materializeOpt as = .ok s → WFS s
  | [], s, _, h => by simp [materializeOpt, throw, throwThe, MonadExceptOf.throw] at h
  | t :: ts, s, hd, h => by
    simp only [materializeOpt, bind, Except.bind, pure, Except.pure] at h
    cases h1 : materialize t with
    | error e => rw [h1] at h; exact (nomatch h)
    | ok q => rw [h1] at h; cases h; exact .option (wfs_materialize t q (by simpa only [DistinctTyHd] using hd) h1)
termination_by structural x => x
theorem wfs_materializeF : ∀ (fs : List Fld) (t : List (String × SFld)), DistinctTyF fs → materializeF fs = .ok t →
    t.map Prod.fst = fs.map Fld.name ∧ ∀ k f, (k, f) ∈ t → WFS f.type
  | [], t, _, h => by simp only [materializeF, pure, Except.pure] at h; cases h; simp
  | f :: fs, t, hd, h => by
    simp only [materializeF, bind, Except.bind, pure, Except.pure] at h
    simp only [DistinctTyF] at hd
    cases h1 : materializeF1 f with
    | error e => rw [h1] at h; exact (nomatch h)
    | ok q =>
      rw [h1] at h
      cases h2 : materializeF fs with
      | error e => rw [h2] at h; exact (nomatch h)
      | ok r =>
        rw [h2] at h; cases h
        obtain ⟨a, b⟩ := wfs_materializeF fs r hd.2 h2
        obtain ⟨c, d⟩ := wfs_materializeF1 f q hd.1 h1
        refine ⟨by simp [a, c], ?_⟩
        intro k g hg
        rcases List.mem_cons.1 hg with hg | hg
        · subst hg; exact d
        · exact b k g hg
termination_by structural x => x
theorem wfs_materializeF1 : ∀ (f : Fld) (q : String × SFld), DistinctTyF1 f → materializeF1 f = .ok q → q.1 = f.name ∧ WFS q.2.type
  | .mk n t d, q, hd, h => by
    simp only [materializeF1, bind, Except.bind, pure, Except.pure] at h
    cases h1 : materialize t with
    | error e => rw [h1] at h; exact (nomatch h)
    | ok s =>
      rw [h1] at h; cases h
      exact ⟨rfl, wfs_materialize t s (by simpa only [DistinctTyF1] using hd) h1⟩
termination_by structural x => x
end

/-- C28 for two classes -/
theorem C28_classes (tyo tyn : PyTy) (old new : STy) (cs : List Change) (ho : DistinctTy tyo) (hn : DistinctTy tyn)
    (h1 : materialize tyo = .ok old) (h2 : materialize tyn = .ok new) (h : findChanges [] new old = .ok cs) (c : Change) :
    c ∈ cs ↔ ∃ q o n, Twin old new q o n ∧ Local q o n c :=
  C28_exact old new cs (wfs_materialize _ _ ho h1) (wfs_materialize _ _ hn h2) h c

/-! ## C25 -/

/-- schemas that compare equal to themselves: dict keys are distinct, defaults, enum values and Literal values are `==` to
themselves (no nan), and no tuples, dicts, unions occur -/
inductive SelfS : STy → Prop
  | struct {n fs v} : (fs.map Prod.fst).Nodup → (∀ k f, (k, f) ∈ fs → SelfS f.type) →
      (∀ k f, (k, f) ∈ fs → f.hasDefault = true → pyEq f.dflt f.dflt = true) → SelfS (.struct n fs v)
  | list {t} : SelfS t → SelfS (.list t)
  | option {t} : SelfS t → SelfS (.option t)
  | prim {s} : SelfS (.prim s)
  | enum {n vs} : (vs.map Prod.fst).Nodup → (∀ k v, (k, v) ∈ vs → pyEq v v = true) → SelfS (.enum n vs)
  | literal {vs} : (∀ v ∈ vs, pyEq v v = true) → SelfS (.literal vs)

theorem selfS_wfs {s : STy} (h : SelfS s) : WFS s := by
  induction h with
  | struct h1 _ _ ih => exact .struct h1 (fun k f hm => (ih k f hm))
  | list _ ih => exact .list ih
  | option _ ih => exact .option ih
  | prim => exact .prim
  | enum => exact .enum
  | literal => exact .literal

theorem node_self {s : STy} {p : List String} {f g : SFld} (h : SelfS s) (h1 : Node s p f) (h2 : Node s p g) :
    f = g ∧ SelfS f.type ∧ (f.hasDefault = true → pyEq f.dflt f.dflt = true) := by
  induction h1 with
  | here hm =>
    cases h with | struct hn hf hd =>
    rcases node_at hn hm h2 with ⟨_, rfl⟩ | h3
    · exact ⟨rfl, hf _ _ hm, hd _ _ hm⟩
    · exact absurd h3 node_ne_nil
  | under hm h3 ih =>
    cases h with | struct hn hf hd =>
    rcases node_at hn hm h2 with ⟨rfl, rfl⟩ | h4
    · exact absurd h3 node_ne_nil
    · exact ih (hf _ _ hm) h4

theorem twin_self {a b o n : STy} {q : List String} (ht : Twin a b q o n) (hab : a = b) (h : SelfS a) : o = n ∧ SelfS o := by
  induction ht with
  | root => exact ⟨hab, h⟩
  | list _ ih => cases hab; cases h with | list h => exact ih rfl h
  | option _ ih => cases hab; cases h with | option h => exact ih rfl h
  | leaf h1 h2 _ ih =>
    subst hab
    obtain ⟨rfl, h4, _⟩ := node_self h h1.1 h2.1
    exact ih rfl h4

theorem local_self {q : List String} {o : STy} {c : Change} (h : SelfS o) : ¬ Local q o o c := by
  intro hl
  generalize hn : o = n at hl
  have hn' : n = o := hn.symm
  cases hl with
  | added _ a b => subst hn'; exact b _ a
  | removed _ a b => subst hn'; exact b _ a
  | defaultRemoved a b _ e e' =>
    subst hn'
    obtain ⟨rfl, _⟩ := node_self h a b
    rw [e] at e'
    exact (nomatch e')
  | defaultChanged a b _ e _ e'' =>
    subst hn'
    obtain ⟨rfl, _, hd⟩ := node_self h a b
    rw [hd e] at e''
    exact (nomatch e'')
  | kind hk => subst hn'; exact hk rfl
  | prim hk => cases hn; exact hk rfl
  | variantAdded a b => cases hn; exact b (List.mem_map.2 ⟨_, a, rfl⟩)
  | variantRemoved a b => cases hn; exact b (List.mem_map.2 ⟨_, a, rfl⟩)
  | variantChanged a b d =>
    cases hn
    cases h with | enum h1 h2 =>
    rw [dget_of_mem h1 a] at b
    cases b
    rw [h2 _ _ a] at d
    exact (nomatch d)
  | literalAdded a =>
    cases hn
    cases h with | literal h1 =>
    obtain ⟨v, hv⟩ := List.exists_mem_of_ne_nil _ a
    obtain ⟨hv1, hv2⟩ := List.mem_filter.1 hv
    have : pyMem v _ = true := List.any_eq_true.2 ⟨v, hv1, h1 v hv1⟩
    rw [this] at hv2
    exact (nomatch hv2)
  | literalRemoved a =>
    cases hn
    cases h with | literal h1 =>
    obtain ⟨v, hv⟩ := List.exists_mem_of_ne_nil _ a
    obtain ⟨hv1, hv2⟩ := List.mem_filter.1 hv
    have : pyMem v _ = true := List.any_eq_true.2 ⟨v, hv1, h1 v hv1⟩
    rw [this] at hv2
    exact (nomatch hv2)

theorem unsupported_self {o n : STy} (h : SelfS o) : ¬ Unsupported o n := by
  intro hu
  cases h <;> simp [Unsupported, STy.kind] at hu

/-- comparing a schema with itself finds nothing -/
theorem findChanges_self {s : STy} (h : SelfS s) : findChanges [] s s = .ok [] := by
  obtain ⟨cs, hcs⟩ := (C28_ok s s (selfS_wfs h) (selfS_wfs h)).2 (fun q o n ht => unsupported_self (twin_self ht rfl h).2)
  cases cs with
  | nil => exact hcs
  | cons c cs =>
    obtain ⟨q, o, n, ht, hl⟩ := (C28_exact s s _ (selfS_wfs h) (selfS_wfs h) hcs c).1 (by simp)
    obtain ⟨rfl, ho⟩ := twin_self ht rfl h
    exact absurd hl (local_self ho)

/-- C25: a schema (of the types the checker supports, without nan) compared with itself: no change -/
theorem C25_schema (lower : Char → String) {s : STy} (h : SelfS s) : checkSchemas lower s s = .ok [] := by
  unfold checkSchemas
  rw [findChanges_self h]
  simp only [bind, Except.bind, pure, Except.pure]
  rw [C29_no_pair _ [] (by simp), C29_no_pair _ [] (by simp)]

mutual
/-- classes whose schema the checker supports: no tuples, dicts or proper unions; field and member names are distinct (which
Python guarantees); defaults, member values and Literal values contain no dataclass instances and are `==` to themselves -/
def CheckTy : PyTy → Prop
  | .int | .str | .bool | .float => True
  | .list a => CheckTy a
  | .union as => isOptionalArgs as = true ∧ CheckTyHd as
  | .data _ fs _ => (fs.map Fld.name).Nodup ∧ CheckTyF fs
  | .enum _ ms => (ms.map Prod.fst).Nodup ∧ NoInstD ms ∧ ∀ k v, (k, v) ∈ ms → pyEq v v = true
  | .literal vs => NoInstL vs ∧ ∀ v ∈ vs, pyEq v v = true
  | .tuple _ | .dict _ _ | .noneT | .blob _ => False
termination_by structural x => x
def CheckTyHd : List PyTy → Prop
  | [] => True
  | t :: _ => CheckTy t
termination_by structural x => x
def CheckTyF : List Fld → Prop
  | [] => True
  | f :: fs => CheckTyF1 f ∧ CheckTyF fs
termination_by structural x => x
def CheckTyF1 : Fld → Prop
  | .mk _ t d => CheckTy t ∧ NoInst (schemaDefault d).1 ∧ pyEq (schemaDefault d).1 (schemaDefault d).1 = true
termination_by structural x => x
end

mutual
/-- the schema of such a class: it exists, is supported, equals itself and is preserved by the file -/
theorem checkTy_schema : ∀ ty : PyTy, CheckTy ty → ∃ s, materialize ty = .ok s ∧ SelfS s ∧ s.supported = true ∧ s.reload = s
  | .int, _ | .str, _ | .bool, _ | .float, _ => ⟨_, rfl, .prim, rfl, rfl⟩
  | .list a, h => by
    obtain ⟨s, h1, h2, h3, h4⟩ := checkTy_schema a (by simpa only [CheckTy] using h)
    exact ⟨.list s, by simp [materialize, h1, bind, Except.bind, pure, Except.pure], .list h2, h3, by rw [STy.reload, h4]⟩
  | .union as, h => by
    simp only [CheckTy] at h
    have hne : as ≠ [] := by rintro rfl; exact (nomatch h.1)
    obtain ⟨s, h1, h2, h3, h4⟩ := checkTy_schemaHd as hne h.2
    refine ⟨s, ?_, h2, h3, h4⟩
    rw [materialize, if_pos h.1, h1]
  | .data n fs ver, h => by
    simp only [CheckTy] at h
    obtain ⟨t, h1, h2, h3, h4, h5⟩ := checkTy_schemaF fs h.2
    refine ⟨.struct n t (ver.map VerInfo.version), by simp [materialize, h1, bind, Except.bind, pure, Except.pure], ?_, h4,
      by rw [STy.reload, h5]⟩
    exact .struct (by rw [h2]; exact h.1) (fun k f hk => (h3 k f hk).1) (fun k f hk => (h3 k f hk).2)
  | .enum n ms, h => by
    simp only [CheckTy] at h
    exact ⟨_, rfl, .enum h.1 h.2.2, rfl, by rw [STy.reload, ronStructD_id ms h.2.1]⟩
  | .literal vs, h => by
    simp only [CheckTy] at h
    exact ⟨_, rfl, .literal h.2, rfl, by rw [STy.reload, ronStructL_id vs h.1]⟩
  | .tuple _, h | .dict _ _, h | .noneT, h | .blob _, h => by simp only [CheckTy] at h
termination_by structural x => x
theorem checkTy_schemaHd : ∀ as : List PyTy, as ≠ [] → CheckTyHd as → ∃ s, materializeOpt as = .ok s ∧ SelfS s ∧ s.supported = true ∧ s.reload = s
  | [], hn, _ => absurd rfl hn
  | t :: ts, _, h => by
    obtain ⟨s, h1, h2, h3, h4⟩ := checkTy_schema t (by simpa only [CheckTyHd] using h)
    exact ⟨.option s, by simp [materializeOpt, h1, bind, Except.bind, pure, Except.pure], .option h2, h3, by rw [STy.reload, h4]⟩
termination_by structural x => x
theorem checkTy_schemaF : ∀ fs : List Fld, CheckTyF fs → ∃ t, materializeF fs = .ok t ∧ t.map Prod.fst = fs.map Fld.name ∧
    (∀ k f, (k, f) ∈ t → SelfS f.type ∧ (f.hasDefault = true → pyEq f.dflt f.dflt = true)) ∧ supportedF t = true ∧ reloadF t = t
  | [], _ => ⟨[], rfl, rfl, by simp, rfl, rfl⟩
  | f :: fs, h => by
    simp only [CheckTyF] at h
    obtain ⟨ts, h1, h2, h3, h4, h5⟩ := checkTy_schemaF fs h.2
    obtain ⟨g, a1, a2, a3, a4, a5, a6⟩ := checkTy_schemaF1 f h.1
    refine ⟨(f.name, g) :: ts, by simp [materializeF, a1, h1, bind, Except.bind, pure, Except.pure], by simp [h2], ?_,
      by simp [supportedF, a4, h4], by rw [reloadF, a5, h5]⟩
    intro k x hx
    rcases List.mem_cons.1 hx with hx | hx
    · cases hx; exact ⟨a2, a3⟩
    · exact h3 k x hx
termination_by structural x => x
theorem checkTy_schemaF1 : ∀ f : Fld, CheckTyF1 f → ∃ g, materializeF1 f = .ok (f.name, g) ∧ SelfS g.type ∧
    (g.hasDefault = true → pyEq g.dflt g.dflt = true) ∧ supportedP (f.name, g) = true ∧ reloadP (f.name, g) = (f.name, g) ∧ True
  | .mk n t d, h => by
    simp only [CheckTyF1] at h
    obtain ⟨s, h1, h2, h3, h4⟩ := checkTy_schema t h.1
    refine ⟨.mk n s (schemaDefault d).1 (schemaDefault d).2 .none,
      by simp [materializeF1, h1, bind, Except.bind, pure, Except.pure, Fld.name], h2, fun _ => h.2.2, h3, ?_, trivial⟩
    rw [reloadP, reloadS, h4, ronStruct_id _ h.2.1]
    rfl
termination_by structural x => x
end

theorem rangeI_self (vi : VerInfo) (s : STy) : upgradeSchemaLoop vi (rangeI vi.version vi.version) s = .ok s := by
  have : rangeI vi.version vi.version = [] := by simp [rangeI]
  rw [this]; rfl

/-- C25: dumping the schema of a (versioned) class and checking the class against the file finds no change, proposes no fix and
has severity INFO -/
theorem C25_class_partial (lower : Char → String) (n : String) (fs : List Fld) (vi : VerInfo) (h : CheckTy (.data n fs (some vi))) :
    ∃ v s, dumpSchema (.data n fs (some vi)) = .ok v ∧ loadSchema v = .ok s ∧
      checker lower s (.data n fs (some vi)) = .ok [] ∧ severityOf [] = .info ∧ proposedFixes [] = [] := by
  obtain ⟨s, h1, h2, h3, h4⟩ := checkTy_schema _ h
  have h0 := h1
  simp only [materialize, bind, Except.bind, pure, Except.pure] at h0
  cases hm : materializeF fs with
  | error e => rw [hm] at h0; exact (nomatch h0)
  | ok t =>
    rw [hm] at h0
    cases h0
    refine ⟨_, .struct n t (some vi.version), by rw [dumpSchema, h1]; rfl, ?_, ?_, rfl, rfl⟩
    · unfold loadSchema
      rw [fromNT_obj, if_pos h3, h4]
      rfl
    · unfold checker classSchema
      rw [h1]
      simp only [bind, Except.bind, pure, Except.pure, Option.map]
      have : vi.applySchemaUpgrades (.struct n t (some vi.version)) = .ok (.struct n t (some vi.version)) := rangeI_self vi _
      rw [this]
      exact C25_schema lower h2

/-- C25: and `upgrade-schema` then rewrites the file with the same content -/
theorem C25_upgrade_partial (lower : Char → String) (n : String) (fs : List Fld) (vi : VerInfo) (h : CheckTy (.data n fs (some vi))) :
    ∃ v s, dumpSchema (.data n fs (some vi)) = .ok v ∧ loadSchema v = .ok s ∧
      upgradeSchema lower s (.data n fs (some vi)) = .ok (some s) := by
  obtain ⟨v, s, h1, h2, h3, _⟩ := C25_class_partial lower n fs vi h
  refine ⟨v, s, h1, h2, (C34_iff lower s _ s).2 ⟨[], h3, by simp, ?_⟩⟩
  obtain ⟨s', m1, m2, m3, m4⟩ := checkTy_schema _ h
  rw [dumpSchema, m1] at h1
  cases h1
  unfold loadSchema at h2
  rw [fromNT_obj, if_pos m3, m4] at h2
  rw [m1]
  simp only [materialize, bind, Except.bind, pure, Except.pure] at m1
  cases hm : materializeF fs with
  | error e => rw [hm] at m1; exact (nomatch m1)
  | ok t =>
    rw [hm] at m1
    cases m1
    exact h2

/-- severity and result of checking a class against its own schema file -/
def selfCheck (ty : PyTy) : Except Err Severity := do
  let v ← dumpSchema ty
  let s ← loadSchema v
  let cs ← checker Ex.lc s ty
  return severityOf cs

/-- C25 does not hold for a default that is a dataclass instance: its namedtuple in the file counts as another default -/
theorem C25_instance_default_false : ∃ n fs vi, selfCheck (.data n fs (some vi)) = .ok .warn :=
  ⟨"C", [.mk "net" (.data "Net" [.mk "n" .int (some (.int 4))] none) (some (.inst "Net" [("n", .int 4)]))], ⟨0, []⟩, by
    have h : (match selfCheck (.data "C" [.mk "net" (.data "Net" [.mk "n" .int (some (.int 4))] none)
      (some (.inst "Net" [("n", .int 4)]))] (some ⟨0, []⟩)) with | .ok .warn => true | _ => false) = true := by decide +kernel
    split at h
    · assumption
    · exact (nomatch h)⟩

/-- nor for a default that is nan -/
theorem C25_nan_false : ∃ n fs vi, selfCheck (.data n fs (some vi)) = .ok .warn :=
  ⟨"C", [.mk "x" .float (some (.flt .nan))], ⟨0, []⟩, by
    have h : (match selfCheck (.data "C" [.mk "x" .float (some (.flt .nan))] (some ⟨0, []⟩)) with
      | .ok .warn => true | _ => false) = true := by decide +kernel
    split at h
    · assumption
    · exact (nomatch h)⟩

/-- classes with a Tuple, Dict or Union cannot be checked against their own schema file at all -/
theorem C25_tuple_unsupported : ∃ n fs vi, selfCheck (.data n fs (some vi)) = .error .valueError :=
  ⟨"C", [.mk "x" (.tuple [.int, .int]) none], ⟨0, []⟩, by
    have h : (match selfCheck (.data "C" [.mk "x" (.tuple [.int, .int]) none] (some ⟨0, []⟩)) with
      | .error .valueError => true | _ => false) = true := by decide +kernel
    split at h
    · assumption
    · exact (nomatch h)⟩

example : CheckTy Ex.fileTy := by
  simp [Ex.fileTy, CheckTy, CheckTyF, CheckTyF1, CheckTyHd, PyTy.optional, isOptionalArgs, PyTy.isNoneT, NoInst, NoInstL, NoInstD,
    NoInstP, schemaDefault, Fld.name, pyEq, pyEqL, Val.num?, Flt.eqv]

/-! ## C28: examples -/

/-- the old schema of the example: a leaf `a`, a struct `s` with leaves `x`, `y`, and a list of structs `l` -/
def Ex.oldS : STy := .struct "C" [
  ("a", .mk "a" (.prim "int") .none false .none),
  ("s", .mk "s" (.struct "S" [("x", .mk "x" (.prim "int") (.int 1) true .none), ("y", .mk "y" (.prim "str") .none false .none)] (some 0)) .none false .none),
  ("l", .mk "l" (.list (.struct "E" [("u", .mk "u" (.prim "int") .none false .none)] (some 0))) .none false .none)] (some 1)
/-- in the new one `a` has become a struct, `s.x` has another default, `s.y` is gone, and the elements of `l` have a leaf more -/
def Ex.newS : STy := .struct "C" [
  ("a", .mk "a" (.struct "A" [("b", .mk "b" (.prim "int") .none false .none)] (some 0)) .none false .none),
  ("s", .mk "s" (.struct "S" [("x", .mk "x" (.prim "int") (.int 2) true .none)] (some 0)) .none false .none),
  ("l", .mk "l" (.list (.struct "E" [("u", .mk "u" (.prim "int") .none false .none), ("w", .mk "w" (.prim "int") .none false .none)] (some 0))) .none false .none)] (some 1)

theorem Ex.oldS_wfs : WFS Ex.oldS := by
  refine .struct (by decide) ?_
  intro k f hf
  simp only [List.mem_cons, Prod.mk.injEq, List.not_mem_nil, or_false] at hf
  rcases hf with ⟨rfl, rfl⟩ | ⟨rfl, rfl⟩ | ⟨rfl, rfl⟩
  · exact .prim
  · refine .struct (by decide) ?_
    intro k f hf
    simp only [List.mem_cons, Prod.mk.injEq, List.not_mem_nil, or_false] at hf
    rcases hf with ⟨rfl, rfl⟩ | ⟨rfl, rfl⟩ <;> exact .prim
  · refine .list (.struct (by decide) ?_)
    intro k f hf
    simp only [List.mem_cons, Prod.mk.injEq, List.not_mem_nil, or_false] at hf
    rcases hf with ⟨rfl, rfl⟩
    exact .prim

theorem Ex.newS_wfs : WFS Ex.newS := by
  refine .struct (by decide) ?_
  intro k f hf
  simp only [List.mem_cons, Prod.mk.injEq, List.not_mem_nil, or_false] at hf
  rcases hf with ⟨rfl, rfl⟩ | ⟨rfl, rfl⟩ | ⟨rfl, rfl⟩
  · refine .struct (by decide) ?_
    intro k f hf
    simp only [List.mem_cons, Prod.mk.injEq, List.not_mem_nil, or_false] at hf
    rcases hf with ⟨rfl, rfl⟩
    exact .prim
  · refine .struct (by decide) ?_
    intro k f hf
    simp only [List.mem_cons, Prod.mk.injEq, List.not_mem_nil, or_false] at hf
    rcases hf with ⟨rfl, rfl⟩
    exact .prim
  · refine .list (.struct (by decide) ?_)
    intro k f hf
    simp only [List.mem_cons, Prod.mk.injEq, List.not_mem_nil, or_false] at hf
    rcases hf with ⟨rfl, rfl⟩ | ⟨rfl, rfl⟩ <;> exact .prim

/-- the comparison of the two, as (kind, path) -/
def Change.tag : Change → Nat × List String
  | .fieldAdded p _ _ _ => (0, p) | .fieldRemoved p _ _ _ => (1, p) | .fieldRenamed p _ => (2, p) | .defaultChanged p _ _ => (3, p)
  | .defaultRemoved p _ => (4, p) | .typeChanged p _ _ => (5, p) | .variantValueChanged p _ _ _ _ => (6, p)
  | .variantRemoved p _ _ _ => (7, p) | .variantAdded p _ _ _ => (8, p) | .variantRenamed p _ _ _ => (9, p)
  | .literalAdded p _ => (10, p) | .literalRemoved p _ => (11, p)

example : (findChanges [] Ex.newS Ex.oldS).map (·.map Change.tag) =
    .ok [(1, ["a"]), (0, ["a", "b"]), (3, ["s", "x"]), (1, ["s", "y"]), (0, ["l", "w"])] := by decide +kernel
example : Leaf Ex.newS ["a", "b"] (.mk "b" (.prim "int") .none false .none) := ⟨.under (f := .mk "a" (.struct "A" _ (some 0)) .none false .none) (by simp; rfl) (.here (by simp)), rfl⟩
example : Twin Ex.oldS Ex.newS ["l"]
    (.struct "E" [("u", .mk "u" (.prim "int") .none false .none)] (some 0))
    (.struct "E" [("u", .mk "u" (.prim "int") .none false .none), ("w", .mk "w" (.prim "int") .none false .none)] (some 0)) := by
  refine Twin.leaf (p := ["l"]) (q := []) ⟨.here (f := .mk "l" (.list _) .none false .none) (by simp), rfl⟩
    ⟨.here (f := .mk "l" (.list _) .none false .none) (by simp), rfl⟩ (.list .root)

end HS
