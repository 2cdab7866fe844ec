import Verif.Spec.HelpText
import Verif.Props.PrintSchema
import Verif.Props.Report
import Verif.Props.Help
import Verif.Proofs.Split
/-!
# C84: descriptions of fields; C85: the text that `help` prints
-/
namespace HS

/-! ## the lines of a listing, with their fields -/

mutual
/-- the fields of a schema type in the order of the listing, with path and depth -/
def flatT (pre : List String) (d : Nat) : STy → List (List String × Nat × SFld)
  | .struct _ fs _ => flatF pre d fs
  | .list t => flatT pre d t
  | .option t => flatT pre d t
  | _ => []
termination_by structural x => x
def flatF (pre : List String) (d : Nat) : List (String × SFld) → List (List String × Nat × SFld)
  | [] => []
  | f :: fs => flatP pre d f ++ flatF pre d fs
termination_by structural x => x
def flatP (pre : List String) (d : Nat) : String × SFld → List (List String × Nat × SFld)
  | (_, f) => flatS pre d f
termination_by structural x => x
def flatS (pre : List String) (d : Nat) : SFld → List (List String × Nat × SFld)
  | .mk n t dv h doc => (pre ++ [n], d, .mk n t dv h doc) :: flatT (pre ++ [n]) (d + 1) t
termination_by structural x => x
end

theorem withComment_form (line : String) (doc : Option String) : ∃ rest, withComment line doc = line ++ rest := by
  cases doc with
  | none => exact ⟨"", by simp [withComment]⟩
  | some d => exact ⟨blanks (40 - line.toList.length) ++ "  # " ++ d, by simp [withComment, String.append_assoc]⟩

theorem schemaLine_form (tx : Texts) (d : Nat) (f : SFld) : ∃ rest, schemaLine tx d f = blanks (2 * d) ++ f.name ++ ": " ++ rest := by
  obtain ⟨n, t, dv, h, doc⟩ := f
  simp only [schemaLine, SFld.name]
  split
  · exact ⟨_, rfl⟩
  · obtain ⟨r, hr⟩ := withComment_form (blanks (2 * d) ++ n ++ ": " ++ tx.type t ++ defaultText tx dv) doc
    exact ⟨tx.type t ++ defaultText tx dv ++ r, by rw [hr]; simp [String.append_assoc]⟩

theorem takeWhile_blanks (k : Nat) {rest : List Char} (h : rest.head? ≠ some ' ') :
    (List.replicate k ' ' ++ rest).takeWhile (· = ' ') = List.replicate k ' ' ∧
    (List.replicate k ' ' ++ rest).dropWhile (· = ' ') = rest := by
  induction k with
  | zero =>
    cases rest with
    | nil => simp
    | cons c cs =>
      have : c ≠ ' ' := fun e => h (by simp [e])
      simp [this]
  | succ k ih => simp [List.replicate_succ, ih.1, ih.2]

theorem takeWhile_colon {w : List Char} (h : ':' ∉ w) (rest : List Char) : (w ++ ':' :: rest).takeWhile (· ≠ ':') = w := by
  induction w with
  | nil => simp
  | cons c cs ih =>
    have hc : c ≠ ':' := fun e => h (by simp [e])
    simp only [List.cons_append]
    rw [List.takeWhile_cons_of_pos (by simpa using hc), ih (fun hm => h (List.mem_cons_of_mem _ hm))]

theorem readLine_form {d : Nat} {n rest : String} (h1 : ' ' ∉ n.toList) (h2 : ':' ∉ n.toList) :
    readLine (blanks (2 * d) ++ n ++ ": " ++ rest) = (d, n) := by
  have hl : (blanks (2 * d) ++ n ++ ": " ++ rest).toList = List.replicate (2 * d) ' ' ++ (n.toList ++ ':' :: (' ' :: rest.toList)) := by
    simp [blanks, String.toList_append]
  have hh : (n.toList ++ ':' :: (' ' :: rest.toList)).head? ≠ some ' ' := by
    cases hn : n.toList with
    | nil => simp
    | cons c cs =>
      rw [hn] at h1
      intro e
      simp at e
      exact h1 (by simp [e])
  obtain ⟨a, b⟩ := takeWhile_blanks (2 * d) hh
  simp only [readLine, hl, a, b, takeWhile_colon h2]
  simp [String.ofList_toList]

theorem readLine_schemaLine (tx : Texts) (d : Nat) (f : SFld) (h : Ident f.name) : readLine (schemaLine tx d f) = (d, f.name) := by
  obtain ⟨r, hr⟩ := schemaLine_form tx d f
  rw [hr]
  exact readLine_form h.1 h.2.1

/-- what reading the lines of a part of the listing gives, and what follows -/
def ReadsAs (st : List String) (d : Nat) (ls : List String) (xs : List (List String × String)) : Prop :=
  ∃ st', st'.take d = st.take d ∧ d ≤ st'.length ∧ ∀ rest, readListing st (ls ++ rest) = xs ++ readListing st' rest

theorem ReadsAs.append {st : List String} {d : Nat} {ls ls' : List String} {xs ys : List (List String × String)}
    (h1 : ReadsAs st d ls xs) (h2 : ∀ st', st'.take d = st.take d → d ≤ st'.length → ReadsAs st' d ls' ys) :
    ReadsAs st d (ls ++ ls') (xs ++ ys) := by
  obtain ⟨s1, a, b, c⟩ := h1
  obtain ⟨s2, a', b', c'⟩ := h2 s1 a b
  exact ⟨s2, a'.trans a, b', fun rest => by rw [List.append_assoc, c, c', List.append_assoc]⟩

def lineFor (tx : Texts) (x : List String × Nat × SFld) : List String × String := (x.1, schemaLine tx x.2.1 x.2.2)

mutual
theorem textT_reads (tx : Texts) : ∀ (s : STy) (st : List String) (d : Nat), d ≤ st.length →
    (∀ x ∈ flatT (st.take d) d s, Ident x.2.2.name) → ReadsAs st d (textT tx d s) ((flatT (st.take d) d s).map (lineFor tx))
  | .struct _ fs _, st, d, hd, h => by
    simp only [textT, flatT] at h ⊢
    exact textF_reads tx fs st d hd h
  | .list t, st, d, hd, h => by
    simp only [textT, flatT] at h ⊢
    exact textT_reads tx t st d hd h
  | .option t, st, d, hd, h => by
    simp only [textT, flatT] at h ⊢
    exact textT_reads tx t st d hd h
  | .prim _, st, d, hd, _ | .tuple _, st, d, hd, _ | .dict _ _, st, d, hd, _ | .union _, st, d, hd, _ | .enum _ _, st, d, hd, _
  | .literal _, st, d, hd, _ | .nothing, st, d, hd, _ => by
    simp only [textT, flatT]
    exact ⟨st, rfl, hd, fun _ => rfl⟩
termination_by structural s => s
theorem textF_reads (tx : Texts) : ∀ (fs : List (String × SFld)) (st : List String) (d : Nat), d ≤ st.length →
    (∀ x ∈ flatF (st.take d) d fs, Ident x.2.2.name) → ReadsAs st d (textF tx d fs) ((flatF (st.take d) d fs).map (lineFor tx))
  | [], st, d, hd, _ => by
    simp only [textF, flatF]
    exact ⟨st, rfl, hd, fun _ => rfl⟩
  | f :: fs, st, d, hd, h => by
    simp only [textF, flatF, List.map_append] at h ⊢
    refine (textP_reads tx f st d hd (fun x hx => h x (List.mem_append_left _ hx))).append ?_
    intro st' h1 h2
    have := textF_reads tx fs st' d h2 (by rw [h1]; exact fun x hx => h x (List.mem_append_right _ hx))
    rw [h1] at this
    exact this
termination_by structural fs => fs
theorem textP_reads (tx : Texts) : ∀ (f : String × SFld) (st : List String) (d : Nat), d ≤ st.length →
    (∀ x ∈ flatP (st.take d) d f, Ident x.2.2.name) → ReadsAs st d (textP tx d f) ((flatP (st.take d) d f).map (lineFor tx))
  | (_, f), st, d, hd, h => by
    simp only [textP, flatP] at h ⊢
    exact textS_reads tx f st d hd h
termination_by structural f => f
theorem textS_reads (tx : Texts) : ∀ (f : SFld) (st : List String) (d : Nat), d ≤ st.length →
    (∀ x ∈ flatS (st.take d) d f, Ident x.2.2.name) → ReadsAs st d (textS tx d f) ((flatS (st.take d) d f).map (lineFor tx))
  | .mk n t dv hd' doc, st, d, hd, h => by
    simp only [textS, flatS] at h ⊢
    have hid : Ident n := h _ (List.mem_cons_self ..)
    have hlen : (st.take d ++ [n]).length = d + 1 := by simp; omega
    have hfull : (st.take d ++ [n]).take (d + 1) = st.take d ++ [n] := List.take_of_length_le (by omega)
    have := textT_reads tx t (st.take d ++ [n]) (d + 1) (by omega)
      (by rw [hfull]; exact fun x hx => h x (List.mem_cons_of_mem _ hx))
    rw [hfull] at this
    obtain ⟨st', a, b, c⟩ := this
    refine ⟨st', ?_, by omega, ?_⟩
    · rw [take_of_take (a.trans hfull), List.take_append_of_le_length (by simp; omega), List.take_take]
      simp
    · intro rest
      have hr : readLine (schemaLine tx d (.mk n t dv hd' doc)) = (d, n) := readLine_schemaLine tx d _ hid
      simp only [List.cons_append, readListing, hr, c, List.map_cons, lineFor]
termination_by structural f => f
end

/-! ## the fields of the listing and those of the classes -/

/-- the field of the schema with its description -/
def docFld (docs : String → List (String × String)) (n : String) (g : Fld) (t : STy) : SFld :=
  .mk g.name (t.withDocs docs) (schemaDefault g.dflt).1 (schemaDefault g.dflt).2 (dget (docs n) g.name)

theorem withDocsS_schemaFld (docs : String → List (String × String)) (n : String) (g : Fld) (t : STy) :
    withDocsS docs (docs n) (schemaFld g t) = docFld docs n g t := by
  obtain ⟨k, ty, d⟩ := g
  simp only [schemaFld, withDocsS, docFld, Fld.name, Fld.dflt]

/-- what is listed for a type -/
def ListsAs (docs : String → List (String × String)) (D : List String → String → Fld → Prop) (pre : List String) (d : Nat)
    (xs : List (List String × Nat × SFld)) : Prop :=
  (∀ p n g, D p n g → ∃ t, materialize g.ty = .ok t ∧ (pre ++ p, d + p.length - 1, docFld docs n g t) ∈ xs) ∧
  ∀ x ∈ xs, ∃ p n g t, D p n g ∧ materialize g.ty = .ok t ∧ x = (pre ++ p, d + p.length - 1, docFld docs n g t)

def DeclaresF (n : String) (fs : List Fld) (p : List String) (m : String) (g : Fld) : Prop :=
  ∃ f ∈ fs, (p = [f.name] ∧ m = n ∧ g = f) ∨ ∃ q, p = f.name :: q ∧ Declares f.ty q m g

theorem declares_data {n : String} {fs : List Fld} {ver : Option VerInfo} {p : List String} {m : String} {g : Fld} :
    Declares (.data n fs ver) p m g ↔ DeclaresF n fs p m g := by
  constructor
  · intro h
    cases h with
    | here hf => exact ⟨_, hf, .inl ⟨rfl, rfl, rfl⟩⟩
    | there hf hi => exact ⟨_, hf, .inr ⟨_, rfl, hi⟩⟩
  · rintro ⟨f, hf, ⟨rfl, rfl, rfl⟩ | ⟨q, rfl, hi⟩⟩
    · exact .here hf
    · exact .there hf hi

theorem Declares.ne {ty : PyTy} {p : List String} {n : String} {g : Fld} (h : Declares ty p n g) : p ≠ [] := by
  induction h <;> simp_all

theorem flatF_lists (docs : String → List (String × String)) (n : String) : ∀ (fs : List Fld) (F : List (String × SFld)),
    materializeF fs = .ok F →
    (∀ f ∈ fs, ∀ t, materialize f.ty = .ok t → ∀ pre d, ListsAs docs (Declares f.ty) pre d (flatT pre d (t.withDocs docs))) →
    ∀ pre d, ListsAs docs (DeclaresF n fs) pre d (flatF pre d (withDocsF docs (docs n) F))
  | [], F, h, _, pre, d => by
    simp only [materializeF] at h
    cases h
    refine ⟨?_, ?_⟩
    · rintro p m g ⟨f, hf, _⟩; exact (nomatch hf)
    · simp [withDocsF, flatF]
  | f :: fs, F, h, ih, pre, d => by
    obtain ⟨t, F', h1, h2, rfl⟩ := matF_cons h
    obtain ⟨b1, b2⟩ := flatF_lists docs n fs F' h2 (fun g hg => ih g (List.mem_cons_of_mem _ hg)) pre d
    obtain ⟨a1, a2⟩ := ih f (by simp) t h1 (pre ++ [f.name]) (d + 1)
    have hfl : flatF pre d (withDocsF docs (docs n) ((f.name, schemaFld f t) :: F')) =
        ((pre ++ [f.name], d, docFld docs n f t) :: flatT (pre ++ [f.name]) (d + 1) (t.withDocs docs)) ++
          flatF pre d (withDocsF docs (docs n) F') := by
      simp only [withDocsF, withDocsP, flatF, flatP, withDocsS_schemaFld, docFld, flatS]
    rw [hfl]
    refine ⟨?_, ?_⟩
    · rintro p m g ⟨f', hf', k⟩
      rcases List.mem_cons.1 hf' with rfl | hf'
      · rcases k with ⟨rfl, rfl, rfl⟩ | ⟨q, rfl, k⟩
        · exact ⟨t, h1, by simp⟩
        · obtain ⟨t', k1, k2⟩ := a1 q m g k
          refine ⟨t', k1, List.mem_append_left _ (List.mem_cons_of_mem _ ?_)⟩
          have e : d + 1 + q.length - 1 = d + (f'.name :: q).length - 1 := by simp <;> omega
          rw [List.append_assoc, e] at k2
          exact k2
      · obtain ⟨t', k1, k2⟩ := b1 p m g ⟨f', hf', k⟩
        exact ⟨t', k1, List.mem_append_right _ k2⟩
    · intro x hx
      rcases List.mem_append.1 hx with hx | hx
      · rcases List.mem_cons.1 hx with rfl | hx
        · exact ⟨[f.name], n, f, t, ⟨f, by simp, .inl ⟨rfl, rfl, rfl⟩⟩, h1, by simp⟩
        · obtain ⟨q, m, g, t', k1, k2, rfl⟩ := a2 x hx
          refine ⟨f.name :: q, m, g, t', ⟨f, by simp, .inr ⟨q, rfl, k1⟩⟩, k2, ?_⟩
          have e : d + 1 + q.length - 1 = d + (f.name :: q).length - 1 := by simp <;> omega
          rw [List.append_assoc, e]
          rfl
      · obtain ⟨q, m, g, t', ⟨f', hf', k1⟩, k2, rfl⟩ := b2 x hx
        exact ⟨q, m, g, t', ⟨f', List.mem_cons_of_mem _ hf', k1⟩, k2, rfl⟩

theorem flatT_lists (docs : String → List (String × String)) : ∀ (ty : PyTy) (s : STy), materialize ty = .ok s →
    ∀ pre d, ListsAs docs (Declares ty) pre d (flatT pre d (s.withDocs docs)) := by
  intro ty
  induction h : sizeOf ty using Nat.strongRecOn generalizing ty with
  | _ N ih =>
  intro s hm pre d
  have hnil : ∀ {ty : PyTy} {s : STy}, flatT pre d (s.withDocs docs) = [] → (∀ p n g, ¬ Declares ty p n g) →
      ListsAs docs (Declares ty) pre d (flatT pre d (s.withDocs docs)) := by
    intro ty s hp hf
    rw [hp]
    exact ⟨fun p n g h => absurd h (hf p n g), fun x hx => (nomatch hx)⟩
  cases ty with
  | int => cases mat_int hm; exact hnil (by simp only [STy.withDocs, flatT]) (fun p n g h => nomatch h)
  | str => cases mat_str hm; exact hnil (by simp only [STy.withDocs, flatT]) (fun p n g h => nomatch h)
  | bool => cases mat_bool hm; exact hnil (by simp only [STy.withDocs, flatT]) (fun p n g h => nomatch h)
  | float => cases mat_float hm; exact hnil (by simp only [STy.withDocs, flatT]) (fun p n g h => nomatch h)
  | noneT => exact (mat_noneT hm).elim
  | blob n => exact (mat_blob hm).elim
  | enum n ms => cases mat_enum hm; exact hnil (by simp only [STy.withDocs, flatT]) (fun p n g h => nomatch h)
  | literal vs => cases mat_literal hm; exact hnil (by simp only [STy.withDocs, flatT]) (fun p n g h => nomatch h)
  | tuple as => obtain ⟨ts, _, rfl⟩ := mat_tuple hm; exact hnil (by simp only [STy.withDocs, flatT]) (fun p n g h => nomatch h)
  | dict k v =>
    obtain ⟨_, _, _, _, rfl⟩ := mat_dict hm
    exact hnil (by simp only [STy.withDocs, flatT]) (fun p n g h => nomatch h)
  | list a =>
    obtain ⟨t, h1, rfl⟩ := mat_list hm
    obtain ⟨r1, r2⟩ := ih (sizeOf a) (by subst h; simp) a rfl t h1 pre d
    simp only [STy.withDocs, flatT]
    exact ⟨fun p n g hi => r1 p n g (by cases hi; assumption), fun x hx => by
      obtain ⟨p, n, g, t', k1, k⟩ := r2 x hx; exact ⟨p, n, g, t', .list k1, k⟩⟩
  | union as =>
    rcases mat_union hm with ⟨u, t, rfl, h1, rfl⟩ | ⟨ho, ts, h1, rfl⟩
    · obtain ⟨r1, r2⟩ := ih (sizeOf u) (by subst h; simp; omega) u rfl t h1 pre d
      simp only [STy.withDocs, flatT]
      exact ⟨fun p n g hi => r1 p n g (by cases hi; assumption), fun x hx => by
        obtain ⟨p, n, g, t', k1, k⟩ := r2 x hx; exact ⟨p, n, g, t', .opt k1, k⟩⟩
    · refine hnil (by simp only [STy.withDocs, flatT]) (fun p n g h => ?_)
      cases h
      exact (nomatch ho)
  | data n fs ver =>
    obtain ⟨F, h1, rfl⟩ := mat_data hm
    have hsz : ∀ f ∈ fs, sizeOf f.ty < N := by
      intro f hf
      have := List.sizeOf_lt_of_mem hf
      subst h
      obtain ⟨n', ty', d'⟩ := f
      simp only [Fld.ty, PyTy.data.sizeOf_spec, Fld.mk.sizeOf_spec] at this ⊢
      omega
    obtain ⟨r1, r2⟩ := flatF_lists docs n fs F h1 (fun f hf t ht => ih _ (hsz f hf) f.ty rfl t ht) pre d
    simp only [STy.withDocs, flatT]
    exact ⟨fun p m g hi => r1 p m g (declares_data.1 hi), fun x hx => by
      obtain ⟨p, m, g, t', k1, k⟩ := r2 x hx; exact ⟨p, m, g, t', declares_data.2 k1, k⟩⟩

/-! ## what a line shows -/

theorem withComment_described (stem : String) (doc : Option String) : Described stem doc (withComment stem doc) := by
  cases doc with
  | none => exact .inl ⟨rfl, rfl⟩
  | some d => exact .inr ⟨d, 40 - stem.toList.length, rfl, rfl, by omega⟩

theorem defaultText_stem (tx : Texts) (left : String) (t : STy) (d : Val) :
    Stem tx left t d (left ++ ": " ++ tx.type t ++ defaultText tx d) := by
  by_cases h : d = .none
  · exact .inl ⟨h, by simp [h, defaultText]⟩
  · refine .inr ⟨h, ?_⟩
    have : defaultText tx d = " = " ++ tx.value d := by
      cases d <;> first | exact absurd rfl h | rfl
    rw [this]
    simp [String.append_assoc]

theorem unwrap_withDocs (docs : String → List (String × String)) : ∀ t : STy, (t.withDocs docs).unwrap.isStruct = t.unwrap.isStruct
  | .list t => by simp only [STy.withDocs, STy.unwrap]; exact unwrap_withDocs docs t
  | .option t => by simp only [STy.withDocs, STy.unwrap]; exact unwrap_withDocs docs t
  | .prim _ | .tuple _ | .dict _ _ | .union _ | .enum _ _ | .literal _ | .nothing | .struct _ _ _ => by
    simp only [STy.withDocs, STy.unwrap, STy.isStruct]

theorem schemaLine_struct {tx : Texts} {d : Nat} {n : String} {t : STy} {dv : Val} {h : Bool} {doc : Option String}
    (hs : t.unwrap.isStruct = true) : schemaLine tx d (.mk n t dv h doc) = blanks (2 * d) ++ n ++ ": " ++ tx.type t := by
  simp only [schemaLine]
  split
  · rfl
  · rename_i hne
    cases hu : t.unwrap with
    | struct a b c => exact absurd hu (hne a b c)
    | _ => rw [hu] at hs; exact (nomatch hs)

theorem schemaLine_leaf {tx : Texts} {d : Nat} {n : String} {t : STy} {dv : Val} {h : Bool} {doc : Option String}
    (hs : t.unwrap.isStruct = false) :
    schemaLine tx d (.mk n t dv h doc) = withComment (blanks (2 * d) ++ n ++ ": " ++ tx.type t ++ defaultText tx dv) doc := by
  simp only [schemaLine]
  split
  · rename_i hu
    rw [hu] at hs
    exact (nomatch hs)
  · rfl

/-- what the line of a field shows in a listing -/
def ListedAs (tx : Texts) (docs : String → List (String × String)) (left : String) (n : String) (g : Fld) (line : String) : Prop :=
  ∃ s, materialize g.ty = .ok s ∧
    (Nests g.ty → line = left ++ ": " ++ tx.type (s.withDocs docs)) ∧
    (¬ Nests g.ty → ∃ stem, Stem tx left (s.withDocs docs) (schemaDefault g.dflt).1 stem ∧ Described stem (dget (docs n) g.name) line)

theorem schemaLine_listed (tx : Texts) (docs : String → List (String × String)) (d : Nat) (n : String) (g : Fld) (t : STy)
    (hm : materialize g.ty = .ok t) :
    ListedAs tx docs (String.ofList (List.replicate (2 * d) ' ') ++ g.name) n g (schemaLine tx d (docFld docs n g t)) := by
  have hu := unwrap_withDocs docs t
  have hn := unwrap_struct g.ty t hm
  refine ⟨t, hm, fun h => ?_, fun h => ?_⟩
  · exact schemaLine_struct (by rw [hu]; exact hn.1 h)
  · have : t.unwrap.isStruct = false := by
      cases hb : t.unwrap.isStruct with
      | false => rfl
      | true => exact absurd (hn.2 hb) h
    refine ⟨_, defaultText_stem tx _ _ _, ?_⟩
    rw [docFld, schemaLine_leaf (by rw [hu]; exact this)]
    exact withComment_described _ _

/-! ## lines on the terminal -/

theorem outLines_printed (ls : List String) (h : ∀ l ∈ ls, OneLine l) : outLines (printed ls) = ls := by
  have key : ∀ ls : List String, (∀ l ∈ ls, OneLine l) → splitC '\n' (printed ls).toList = ls.map String.toList ++ [[]] := by
    intro ls
    induction ls with
    | nil => intro _; simp [printed, splitC]
    | cons l ls ih =>
      intro h
      have e : (printed (l :: ls)).toList = l.toList ++ '\n' :: (printed ls).toList := by
        simp [printed, String.toList_append]
      rw [e, splitC_word_append _ (h l (by simp)), ih (fun x hx => h x (by simp [hx]))]
      simp
  simp [outLines, pySplit, key ls h, List.map_append, Function.comp_def]

theorem oneLine_append {a b : String} (h1 : OneLine a) (h2 : OneLine b) : OneLine (a ++ b) := by
  simp only [OneLine, String.toList_append, List.mem_append] at *
  rintro (h | h)
  · exact h1 h
  · exact h2 h

theorem oneLine_blanks (k : Nat) : OneLine (blanks k) := by
  simp [OneLine, blanks]

theorem oneLine_comment {l : String} {doc : Option String} (h1 : OneLine l) (h2 : ∀ d, doc = some d → OneLine d) :
    OneLine (withComment l doc) := by
  cases doc with
  | none => exact h1
  | some d =>
    exact oneLine_append (oneLine_append (oneLine_append h1 (oneLine_blanks _)) (by simp [OneLine])) (h2 d rfl)

/-- the types and defaults of the fields of a class are written on one line -/
def Texts.OneLineOn (tx : Texts) (docs : String → List (String × String)) (ty : PyTy) : Prop :=
  ∀ p m g s, Declares ty p m g → materialize g.ty = .ok s →
    HS.OneLine (tx.type (s.withDocs docs)) ∧ HS.OneLine (tx.value (schemaDefault g.dflt).1)

theorem oneLine_default {tx : Texts} {d : Val} (h : OneLine (tx.value d)) : OneLine (defaultText tx d) := by
  cases d <;> first
    | exact oneLine_append (by simp [OneLine]) h
    | simp [defaultText, OneLine]

theorem oneLine_schemaLine {tx : Texts} (d : Nat) (f : SFld) (h : OneLine (tx.type f.type) ∧ OneLine (tx.value f.dflt)) (hn : OneLine f.name)
    (hd : ∀ x, f.doc = some x → OneLine x) : OneLine (schemaLine tx d f) := by
  obtain ⟨n, t, dv, hh, doc⟩ := f
  have h0 : OneLine (blanks (2 * d) ++ n ++ ": " ++ tx.type t) :=
    oneLine_append (oneLine_append (oneLine_append (oneLine_blanks _) hn) (by simp [OneLine])) h.1
  simp only [schemaLine]
  split
  · exact h0
  · exact oneLine_comment (oneLine_append h0 (oneLine_default h.2)) hd

theorem textF_flat (tx : Texts) (F : List (String × SFld)) (h : ∀ x ∈ flatF [] 0 F, Ident x.2.2.name) :
    readListing [] (textF tx 0 F) = (flatF [] 0 F).map (lineFor tx) := by
  obtain ⟨st', _, _, c⟩ := textF_reads tx F [] 0 (by simp) (by simpa using h)
  have := c []
  simpa [readListing] using this

theorem readListing_snd : ∀ (ls st : List String), (readListing st ls).map Prod.snd = ls
  | [], _ => rfl
  | l :: ls, st => by simp only [readListing, List.map_cons, readListing_snd ls]

/-! ## the paths are those of the listing without text -/

def ReadsI (st : List String) (d : Nat) (ls : List PLine) (xs : List (List String)) : Prop :=
  ∃ st', st'.take d = st.take d ∧ d ≤ st'.length ∧
    ∀ rest, (readIndented st (ls ++ rest)).map Prod.fst = xs ++ (readIndented st' rest).map Prod.fst

mutual
theorem printT_flat (docs : String → List (String × String)) : ∀ (s : STy) (st : List String) (d : Nat), d ≤ st.length →
    ReadsI st d (printT d s) ((flatT (st.take d) d (s.withDocs docs)).map Prod.fst)
  | .struct n fs _, st, d, hd => by
    simp only [printT, STy.withDocs, flatT]
    exact printF_flat docs (docs n) fs st d hd
  | .list t, st, d, hd => by
    simp only [printT, STy.withDocs, flatT]
    exact printT_flat docs t st d hd
  | .option t, st, d, hd => by
    simp only [printT, STy.withDocs, flatT]
    exact printT_flat docs t st d hd
  | .prim _, st, d, hd | .tuple _, st, d, hd | .dict _ _, st, d, hd | .union _, st, d, hd | .enum _ _, st, d, hd
  | .literal _, st, d, hd | .nothing, st, d, hd => by
    simp only [printT, STy.withDocs, flatT]
    exact ⟨st, rfl, hd, fun _ => rfl⟩
termination_by structural s => s
theorem printF_flat (docs : String → List (String × String)) (own : List (String × String)) : ∀ (fs : List (String × SFld))
    (st : List String) (d : Nat), d ≤ st.length → ReadsI st d (printF d fs) ((flatF (st.take d) d (withDocsF docs own fs)).map Prod.fst)
  | [], st, d, hd => by
    simp only [printF, withDocsF, flatF]
    exact ⟨st, rfl, hd, fun _ => rfl⟩
  | f :: fs, st, d, hd => by
    simp only [printF, withDocsF, flatF, List.map_append]
    obtain ⟨s1, a, b, c⟩ := printP_flat docs own f st d hd
    obtain ⟨s2, a', b', c'⟩ := printF_flat docs own fs s1 d b
    rw [a] at c'
    exact ⟨s2, a'.trans a, b', fun rest => by rw [List.append_assoc, c, c', List.append_assoc]⟩
termination_by structural fs => fs
theorem printP_flat (docs : String → List (String × String)) (own : List (String × String)) : ∀ (f : String × SFld)
    (st : List String) (d : Nat), d ≤ st.length → ReadsI st d (printP d f) ((flatP (st.take d) d (withDocsP docs own f)).map Prod.fst)
  | (_, f), st, d, hd => by
    simp only [printP, withDocsP, flatP]
    exact printS_flat docs own f st d hd
termination_by structural f => f
theorem printS_flat (docs : String → List (String × String)) (own : List (String × String)) : ∀ (f : SFld)
    (st : List String) (d : Nat), d ≤ st.length → ReadsI st d (printS d f) ((flatS (st.take d) d (withDocsS docs own f)).map Prod.fst)
  | .mk n t dv hd' doc, st, d, hd => by
    simp only [printS, withDocsS, flatS]
    have hlen : (st.take d ++ [n]).length = d + 1 := by simp; omega
    have hfull : (st.take d ++ [n]).take (d + 1) = st.take d ++ [n] := List.take_of_length_le (by omega)
    have := printT_flat docs t (st.take d ++ [n]) (d + 1) (by omega)
    rw [hfull] at this
    obtain ⟨st', a, b, c⟩ := this
    refine ⟨st', ?_, by omega, ?_⟩
    · rw [take_of_take (a.trans hfull), List.take_append_of_le_length (by simp; omega), List.take_take]
      simp
    · intro rest
      simp only [List.cons_append, readIndented, List.map_cons, c]
termination_by structural f => f
end

theorem helpText_list (lower : Char → String) (tx : Texts) (docs : String → List (String × String)) (n : String) (fs : List Fld)
    (ver : Option VerInfo) (F : List (String × SFld)) (hm : materializeF fs = .ok F) :
    helpText lower tx docs (.data n fs ver) "" = .ok (textF tx 0 (withDocsF docs (docs n) F)) := by
  simp only [helpText, materialize, hm, bind, Except.bind, pure, Except.pure, STy.withDocs]
  rfl

/-- C85: what `help` without a query writes to the terminal can be read back. For every class whose field names are identifiers, when types,
defaults and descriptions are written on one line: reading the lines by their indentation, and each line up to its first colon, gives the
paths of the fields of the class and of all classes nested in it, each of them, nothing else, none twice; and the line of a field shows
its type, its default and its description, or only the type if the field has fields itself. Missing: descriptions of more than one line
(`C85_multiline_false`). -/
theorem C85_listing_partial (lower : Char → String) (tx : Texts) (docs : String → List (String × String)) (n : String) (fs : List Fld)
    (ver : Option VerInfo) (F : List (String × SFld)) (hm : materializeF fs = .ok F) (hd : DistinctTy (.data n fs ver))
    (hid : ∀ p m g, Declares (.data n fs ver) p m g → Ident g.name) (htx : tx.OneLineOn docs (.data n fs ver))
    (hdoc : ∀ m k d, dget (docs m) k = some d → OneLine d) :
    ∃ lines, helpText lower tx docs (.data n fs ver) "" = .ok lines ∧ outLines (printed lines) = lines ∧
      (∀ p m g, Declares (.data n fs ver) p m g → ∃ l, (p, l) ∈ readListing [] (outLines (printed lines)) ∧
        ListedAs tx docs (String.ofList (List.replicate (2 * (p.length - 1)) ' ') ++ g.name) m g l) ∧
      (∀ p l, (p, l) ∈ readListing [] (outLines (printed lines)) → ∃ m g, Declares (.data n fs ver) p m g ∧
        ListedAs tx docs (String.ofList (List.replicate (2 * (p.length - 1)) ' ') ++ g.name) m g l) ∧
      ((readListing [] (outLines (printed lines))).map Prod.fst).Nodup := by
  have hmat : materialize (.data n fs ver) = .ok (.struct n F (ver.map VerInfo.version)) := by
    simp only [materialize, hm, bind, Except.bind, pure, Except.pure]
  obtain ⟨r1, r2⟩ := flatT_lists docs _ _ hmat [] 0
  simp only [STy.withDocs, flatT, List.nil_append, Nat.zero_add] at r1 r2
  have hIds : ∀ x ∈ flatF [] 0 (withDocsF docs (docs n) F), Ident x.2.2.name := by
    intro x hx
    obtain ⟨p, m, g, t, k1, k2, rfl⟩ := r2 x hx
    exact hid p m g k1
  have hread := textF_flat tx (withDocsF docs (docs n) F) hIds
  have hone : ∀ l ∈ textF tx 0 (withDocsF docs (docs n) F), OneLine l := by
    intro l hl
    rw [← readListing_snd (textF tx 0 (withDocsF docs (docs n) F)) [], hread] at hl
    simp only [List.map_map, List.mem_map] at hl
    obtain ⟨x, hx, rfl⟩ := hl
    obtain ⟨p, m, g, t, k1, k2, rfl⟩ := r2 x hx
    exact oneLine_schemaLine (p.length - 1) (docFld docs m g t) (htx p m g t k1 k2) (hid p m g k1).2.2.2 (fun d hd => hdoc m g.name d hd)
  have hout := outLines_printed _ hone
  refine ⟨_, helpText_list lower tx docs n fs ver F hm, hout, ?_, ?_, ?_⟩
  · intro p m g hg
    obtain ⟨t, k1, k2⟩ := r1 p m g hg
    refine ⟨schemaLine tx (p.length - 1) (docFld docs m g t), ?_, schemaLine_listed tx docs _ m g t k1⟩
    rw [hout, hread]
    exact List.mem_map.2 ⟨_, k2, rfl⟩
  · intro p l hl
    rw [hout, hread] at hl
    obtain ⟨x, hx, he⟩ := List.mem_map.1 hl
    obtain ⟨q, m, g, t, k1, k2, rfl⟩ := r2 x hx
    simp only [lineFor, Prod.mk.injEq] at he
    obtain ⟨rfl, rfl⟩ := he
    exact ⟨m, g, k1, schemaLine_listed tx docs _ m g t k2⟩
  · rw [hout, hread, List.map_map]
    obtain ⟨ls, e1, _, _, hn⟩ := C70_listing lower n fs ver F hm hd
    have e2 : helpCmd lower (.data n fs ver) "" = .ok (.schema (printF 0 F)) := by
      simp only [helpCmd, hmat, bind, Except.bind, pure, Except.pure]
      rfl
    rw [e2] at e1
    cases e1
    obtain ⟨st', _, _, c⟩ := printF_flat docs (docs n) F [] 0 (by simp)
    have := c []
    simp only [List.append_nil, List.take_nil, readIndented, List.map_nil] at this
    rw [this] at hn
    exact hn

/-! ## the answer to a query -/

/-- what the search and the ranking look at -/
def Found.key (r : Found) : List String × Rat × String := (r.path, r.sim, r.field.name)

theorem insertFound_key {r r' : Found} (h : r.key = r'.key) : ∀ {rs rs' : List Found}, rs.map Found.key = rs'.map Found.key →
    (insertFound r rs).map Found.key = (insertFound r' rs').map Found.key
  | [], [], _ => by simp [insertFound, h]
  | [], _ :: _, e => (nomatch e)
  | _ :: _, [], e => (nomatch e)
  | a :: as, b :: bs, e => by
    simp only [List.map_cons, List.cons.injEq] at e
    have hs : r.sim = r'.sim := congrArg (fun k => k.2.1) h
    have hs' : a.sim = b.sim := congrArg (fun k => k.2.1) e.1
    simp only [insertFound, hs, hs']
    split
    · simp [h, e.1, e.2]
    · simp [e.1, insertFound_key h e.2]

theorem helpSorted_key : ∀ {rs rs' : List Found}, rs.map Found.key = rs'.map Found.key →
    (helpSorted rs).map Found.key = (helpSorted rs').map Found.key
  | [], [], _ => rfl
  | [], _ :: _, e => (nomatch e)
  | _ :: _, [], e => (nomatch e)
  | a :: as, b :: bs, e => by
    simp only [List.map_cons, List.cons.injEq] at e
    exact insertFound_key e.1 (helpSorted_key e.2)

theorem helpLoop_key (q : String) (best : Rat) : ∀ {rs rs' : List Found} (i : Nat) (last : Rat), rs.map Found.key = rs'.map Found.key →
    (helpLoop q best i last rs).map Found.key = (helpLoop q best i last rs').map Found.key
  | [], [], _, _, _ => rfl
  | [], _ :: _, _, _, e => (nomatch e)
  | _ :: _, [], _, _, e => (nomatch e)
  | a :: as, b :: bs, i, last, e => by
    simp only [List.map_cons, List.cons.injEq] at e
    have hs : a.sim = b.sim := congrArg (fun k => k.2.1) e.1
    have hn : a.field.name = b.field.name := congrArg (fun k => k.2.2) e.1
    have hst : helpStops q best last i a = helpStops q best last i b := by simp only [helpStops, hs, hn]
    simp only [helpLoop, hst]
    split
    · rfl
    · simp [e.1, hs, helpLoop_key q best (i + 1) b.sim e.2]

theorem helpShown_key (q : String) {rs rs' : List Found} (h : rs.map Found.key = rs'.map Found.key) :
    (helpShown q rs).map Found.key = (helpShown q rs').map Found.key := by
  have h1 := helpSorted_key h
  simp only [helpShown]
  generalize helpSorted rs = a at h1 ⊢
  generalize helpSorted rs' = b at h1 ⊢
  cases a <;> cases b
  · rfl
  · exact (nomatch h1)
  · exact (nomatch h1)
  · rename_i x xs y ys
    have hs : x.sim = y.sim := congrArg (fun k => k.2.1) (List.cons.inj h1).1
    simp only [hs]
    exact helpLoop_key q _ 0 (-1) h1

mutual
theorem helpT_docs (lower : Char → String) (q : String) (docs : String → List (String × String)) : ∀ (s : STy) (path : List String)
    (rs rs' : List Found), helpT lower q path s = .ok rs → helpT lower q path (s.withDocs docs) = .ok rs' →
    rs.map Found.key = rs'.map Found.key
  | .struct n fs _, path, rs, rs', h, h' => by
    simp only [STy.withDocs, helpT] at h h'
    exact helpF_docs lower q docs (docs n) fs path rs rs' h h'
  | .list _, path, rs, rs', h, h' | .option _, path, rs, rs', h, h' | .prim _, path, rs, rs', h, h' | .tuple _, path, rs, rs', h, h'
  | .dict _ _, path, rs, rs', h, h' | .union _, path, rs, rs', h, h' | .enum _ _, path, rs, rs', h, h'
  | .literal _, path, rs, rs', h, h' | .nothing, path, rs, rs', h, h' => by
    simp only [STy.withDocs, helpT] at h h'
    cases h; cases h'; rfl
termination_by structural s => s
theorem helpF_docs (lower : Char → String) (q : String) (docs : String → List (String × String)) (own : List (String × String)) :
    ∀ (fs : List (String × SFld)) (path : List String) (rs rs' : List Found), helpF lower q path fs = .ok rs →
    helpF lower q path (withDocsF docs own fs) = .ok rs' → rs.map Found.key = rs'.map Found.key
  | [], path, rs, rs', h, h' => by
    simp only [withDocsF, helpF] at h h'
    cases h; cases h'; rfl
  | f :: fs, path, rs, rs', h, h' => by
    obtain ⟨a, ha⟩ := helpP_total lower q f path
    obtain ⟨b, hb⟩ := helpF_total lower q fs path
    obtain ⟨a', ha'⟩ := helpP_total lower q (withDocsP docs own f) path
    obtain ⟨b', hb'⟩ := helpF_total lower q (withDocsF docs own fs) path
    simp only [withDocsF, helpF, ha, hb, ha', hb', bind, Except.bind, pure, Except.pure] at h h'
    cases h; cases h'
    rw [List.map_append, List.map_append, helpP_docs lower q docs own f path a a' ha ha',
      helpF_docs lower q docs own fs path b b' hb hb']
termination_by structural fs => fs
theorem helpP_docs (lower : Char → String) (q : String) (docs : String → List (String × String)) (own : List (String × String)) :
    ∀ (f : String × SFld) (path : List String) (rs rs' : List Found), helpP lower q path f = .ok rs →
    helpP lower q path (withDocsP docs own f) = .ok rs' → rs.map Found.key = rs'.map Found.key
  | (_, f), path, rs, rs', h, h' => by
    simp only [withDocsP, helpP] at h h'
    exact helpS_docs lower q docs own f path rs rs' h h'
termination_by structural f => f
theorem helpS_docs (lower : Char → String) (q : String) (docs : String → List (String × String)) (own : List (String × String)) :
    ∀ (f : SFld) (path : List String) (rs rs' : List Found), helpS lower q path f = .ok rs →
    helpS lower q path (withDocsS docs own f) = .ok rs' → rs.map Found.key = rs'.map Found.key
  | .mk n t d hh doc, path, rs, rs', h, h' => by
    obtain ⟨s, hs, _⟩ := C31_range lower n q
    obtain ⟨a, ha⟩ := helpT_total lower q t (path ++ [n])
    obtain ⟨a', ha'⟩ := helpT_total lower q (t.withDocs docs) (path ++ [n])
    simp only [withDocsS, helpS, hs, ha, ha', bind, Except.bind, pure, Except.pure] at h h'
    cases h; cases h'
    simp only [List.map_cons, helpT_docs lower q docs t (path ++ [n]) a a' ha ha']
    rfl
termination_by structural f => f
end

theorem Declares.trans {ty : PyTy} {p q : List String} {n m : String} {g g' : Fld} (h : Declares ty p n g) (h' : Declares g.ty q m g') :
    Declares ty (p ++ q) m g' := by
  induction h with
  | here hf => exact .there hf h'
  | there hf _ ih => exact .there hf (ih h')
  | list _ ih => exact .list (ih h')
  | opt _ ih => exact .opt (ih h')

theorem flatT_unwrap (pre : List String) (d : Nat) : ∀ s : STy, flatT pre d s = flatT pre d s.unwrap
  | .list t => by simp only [flatT, STy.unwrap]; exact flatT_unwrap pre d t
  | .option t => by simp only [flatT, STy.unwrap]; exact flatT_unwrap pre d t
  | .prim _ | .tuple _ | .dict _ _ | .union _ | .enum _ _ | .literal _ | .nothing | .struct _ _ _ => by simp only [STy.unwrap]

theorem flatF_mem (pre : List String) (d : Nat) : ∀ (F : List (String × SFld)) (f : String × SFld), f ∈ F →
    (pre ++ [f.2.name], d, f.2) ∈ flatF pre d F
  | [], _, h => (nomatch h)
  | f :: fs, x, h => by
    simp only [flatF]
    rcases List.mem_cons.1 h with rfl | h
    · obtain ⟨k, n, t, dv, hh, doc⟩ := x
      simp [flatP, flatS, SFld.name]
    · exact List.mem_append_right _ (flatF_mem pre d fs x h)

/-- the fields of a section, through lists and Optionals -/
theorem unwrap_fields (docs : String → List (String × String)) {ty : PyTy} {s : STy} (hm : materialize ty = .ok s)
    {n : String} {F : List (String × SFld)} {v : Option Int} (hu : (s.withDocs docs).unwrap = .struct n F v) :
    ∀ f ∈ F, ∃ m g t, Declares ty [g.name] m g ∧ materialize g.ty = .ok t ∧ f.2 = docFld docs m g t := by
  intro f hf
  obtain ⟨_, r2⟩ := flatT_lists docs ty s hm [] 1
  rw [flatT_unwrap, hu] at r2
  simp only [flatT] at r2
  obtain ⟨p, m, g, t, k1, k2, k3⟩ := r2 _ (flatF_mem [] 1 F f hf)
  simp only [List.nil_append, Prod.mk.injEq] at k3
  obtain ⟨rfl, _, k3⟩ := k3
  refine ⟨m, g, t, ?_, k2, k3⟩
  have : f.2.name = g.name := by rw [k3]; rfl
  rw [← this]
  exact k1

/-- what the search finds in the documented schema -/
def FindsDocs (docs : String → List (String × String)) (D : List String → String → Fld → Prop) (path : List String) (rs : List Found) : Prop :=
  ∀ r ∈ rs, ∃ p m g t, r.fullPath = path ++ p ∧ D p m g ∧ materialize g.ty = .ok t ∧ r.field = docFld docs m g t

theorem helpF_finds (lower : Char → String) (q : String) (docs : String → List (String × String)) (n : String) :
    ∀ (fs : List Fld) (F : List (String × SFld)), materializeF fs = .ok F →
    (∀ f ∈ fs, ∀ t, materialize f.ty = .ok t → ∀ path rs, helpT lower q path (t.withDocs docs) = .ok rs →
      FindsDocs docs (Declares f.ty) path rs) →
    ∀ path rs, helpF lower q path (withDocsF docs (docs n) F) = .ok rs → FindsDocs docs (DeclaresF n fs) path rs
  | [], F, h, _, path, rs, hr => by
    simp only [materializeF] at h
    cases h
    simp only [withDocsF, helpF] at hr
    cases hr
    intro r hr
    exact (nomatch hr)
  | f :: fs, F, h, ih, path, rs, hr => by
    obtain ⟨t, F', h1, h2, rfl⟩ := matF_cons h
    obtain ⟨b, hb⟩ := helpF_total lower q (withDocsF docs (docs n) F') path
    obtain ⟨a, ha⟩ := helpT_total lower q (t.withDocs docs) (path ++ [f.name])
    obtain ⟨s, hs, _⟩ := C31_range lower f.name q
    simp only [withDocsF, withDocsP, withDocsS_schemaFld, helpF, helpP, docFld, helpS, hs, ha, hb, bind, Except.bind, pure,
      Except.pure] at hr
    cases hr
    intro r hr
    rcases List.mem_append.1 hr with hr | hr
    · rcases List.mem_cons.1 hr with rfl | hr
      · exact ⟨[f.name], n, f, t, rfl, ⟨f, by simp, .inl ⟨rfl, rfl, rfl⟩⟩, h1, rfl⟩
      · obtain ⟨p, m, g, t', k0, k1, k2, k3⟩ := ih f (by simp) t h1 _ _ ha r hr
        exact ⟨f.name :: p, m, g, t', by rw [k0]; simp, ⟨f, by simp, .inr ⟨p, rfl, k1⟩⟩, k2, k3⟩
    · obtain ⟨p, m, g, t', k0, ⟨f', hf', k1⟩, k2⟩ := helpF_finds lower q docs n fs F' h2
        (fun g hg => ih g (List.mem_cons_of_mem _ hg)) path b hb r hr
      exact ⟨p, m, g, t', k0, ⟨f', List.mem_cons_of_mem _ hf', k1⟩, k2⟩

theorem helpT_finds (lower : Char → String) (q : String) (docs : String → List (String × String)) : ∀ (ty : PyTy) (s : STy),
    materialize ty = .ok s → ∀ path rs, helpT lower q path (s.withDocs docs) = .ok rs → FindsDocs docs (Declares ty) path rs := by
  intro ty
  induction h : sizeOf ty using Nat.strongRecOn generalizing ty with
  | _ N ih =>
  intro s hm path rs hr
  cases s with
  | struct n F v =>
    obtain ⟨fs, ver, rfl⟩ := mat_struct hm
    obtain ⟨F', h1, h2⟩ := mat_data hm
    cases h2
    have hsz : ∀ f ∈ fs, sizeOf f.ty < N := by
      intro f hf
      have := List.sizeOf_lt_of_mem hf
      subst h
      obtain ⟨n', ty', d'⟩ := f
      simp only [Fld.ty, PyTy.data.sizeOf_spec, Fld.mk.sizeOf_spec] at this ⊢
      omega
    simp only [STy.withDocs, helpT] at hr
    intro r hr'
    obtain ⟨p, m, g, t, k0, k1, k2⟩ := helpF_finds lower q docs n fs F h1 (fun f hf t ht => ih _ (hsz f hf) f.ty rfl t ht) path rs hr r hr'
    exact ⟨p, m, g, t, k0, declares_data.2 k1, k2⟩
  | _ =>
    simp only [STy.withDocs, helpT] at hr
    cases hr
    intro r hr
    exact (nomatch hr)

/-! ### the lines for a found field -/

theorem mem_pyJoin {c : Char} (hc : c ≠ '.') : ∀ (p : List String), (∀ s ∈ p, c ∉ s.toList) → c ∉ (pyJoin "." p).toList
  | [], _ => by simp [pyJoin]
  | [a], h => by simpa [pyJoin] using h a (by simp)
  | a :: b :: as, h => by
    have ih := mem_pyJoin hc (b :: as) (fun s hs => h s (List.mem_cons_of_mem _ hs))
    have ha := h a (by simp)
    simp only [pyJoin, String.toList_append, List.mem_append, not_or]
    exact ⟨⟨ha, by simpa using hc⟩, ih⟩

theorem foundText_form (tx : Texts) (r : Found) : ∃ line rest, foundText tx r = line :: rest ∧
    ∃ x, line = pyJoin "." r.fullPath ++ ": " ++ x := by
  obtain ⟨path, sim, n, t, d, hh, doc⟩ := r
  simp only [foundText, Found.fullPath, SFld.name]
  split
  · split
    · exact ⟨_, _, rfl, _, rfl⟩
    · obtain ⟨x, hx⟩ := withComment_form (pyJoin "." (path ++ [n]) ++ ": " ++ tx.type t) doc
      exact ⟨_, _, rfl, tx.type t ++ x, by rw [hx]; simp [String.append_assoc]⟩
  · obtain ⟨x, hx⟩ := withComment_form (pyJoin "." (path ++ [n]) ++ ": " ++ tx.type t ++ defaultText tx d) doc
    exact ⟨_, _, rfl, tx.type t ++ defaultText tx d ++ x, by rw [hx]; simp [String.append_assoc]⟩

theorem readLine_dotted {p : List String} (h : ∀ s ∈ p, Ident s) (x : String) :
    readLine (pyJoin "." p ++ ": " ++ x) = (0, pyJoin "." p) := by
  have := readLine_form (d := 0) (n := pyJoin "." p) (rest := x) (mem_pyJoin (by decide) p (fun s hs => (h s hs).1))
    (mem_pyJoin (by decide) p (fun s hs => (h s hs).2.1))
  simpa [blanks] using this

theorem beforeColon_dotted {p : List String} (h : ∀ s ∈ p, Ident s) (x : String) :
    beforeColon (pyJoin "." p ++ ": " ++ x) = pyJoin "." p := by
  have : (pyJoin "." p ++ ": " ++ x).toList = (pyJoin "." p).toList ++ ':' :: (' ' :: x.toList) := by simp [String.toList_append]
  rw [beforeColon, this, takeWhile_colon (mem_pyJoin (by decide) p (fun s hs => (h s hs).2.1)), String.ofList_toList]

theorem beforeColon_schemaLine (tx : Texts) (d : Nat) (f : SFld) (h : Ident f.name) :
    beforeColon (schemaLine tx d f) = String.ofList (List.replicate (2 * d) ' ') ++ f.name := by
  obtain ⟨x, hx⟩ := schemaLine_form tx d f
  have : (schemaLine tx d f).toList = (List.replicate (2 * d) ' ' ++ f.name.toList) ++ ':' :: (' ' :: x.toList) := by
    rw [hx]
    simp [String.toList_append, blanks]
  rw [beforeColon, this, takeWhile_colon]
  · simp [String.ofList_append, String.ofList_toList]
  · simp only [List.mem_append, not_or]
    exact ⟨by simp, h.2.1⟩

theorem read_section (tx : Texts) (P : String) : ∀ (F : List (String × SFld)) (st rest : List String), st.take 1 = [P] →
    (∀ f ∈ F, Ident f.2.name) → ∃ st', readListing st (F.map (fun f => schemaLine tx 1 f.2) ++ rest) =
      F.map (fun f => ([P, f.2.name], schemaLine tx 1 f.2)) ++ readListing st' rest
  | [], st, rest, _, _ => ⟨st, rfl⟩
  | f :: fs, st, rest, h, hid => by
    obtain ⟨st', ih⟩ := read_section tx P fs [P, f.2.name] rest rfl (fun g hg => hid g (List.mem_cons_of_mem _ hg))
    refine ⟨st', ?_⟩
    have hr := readLine_schemaLine tx 1 f.2 (hid f (by simp))
    simp only [List.map_cons, List.cons_append, readListing, hr, h, List.nil_append]
    rw [ih]

theorem Declares.names {ty : PyTy} {p : List String} {n : String} {g : Fld} (h : Declares ty p n g) :
    ∀ s ∈ p, ∃ q m g', Declares ty q m g' ∧ g'.name = s := by
  induction h with
  | here hf => intro s hs; simp only [List.mem_singleton] at hs; exact ⟨_, _, _, .here hf, hs.symm⟩
  | there hf _ ih =>
    intro s hs
    rcases List.mem_cons.1 hs with rfl | hs
    · exact ⟨_, _, _, .here hf, rfl⟩
    · obtain ⟨q, m, g', k1, k2⟩ := ih s hs
      exact ⟨_, m, g', .there hf k1, k2⟩
  | list _ ih => intro s hs; obtain ⟨q, m, g', k1, k2⟩ := ih s hs; exact ⟨q, m, g', .list k1, k2⟩
  | opt _ ih => intro s hs; obtain ⟨q, m, g', k1, k2⟩ := ih s hs; exact ⟨q, m, g', .opt k1, k2⟩

/-- what the line of a field shows in the answer to a query: as in a listing, but a field that has fields itself can have a description -/
def FoundAs (tx : Texts) (docs : String → List (String × String)) (left : String) (n : String) (g : Fld) (line : String) : Prop :=
  ∃ s, materialize g.ty = .ok s ∧
    (Nests g.ty → ∃ doc, (doc = none ∨ doc = dget (docs n) g.name) ∧ Described (left ++ ": " ++ tx.type (s.withDocs docs)) doc line) ∧
    (¬ Nests g.ty → ∃ stem, Stem tx left (s.withDocs docs) (schemaDefault g.dflt).1 stem ∧ Described stem (dget (docs n) g.name) line)

theorem ListedAs.found {tx : Texts} {docs : String → List (String × String)} {left n : String} {g : Fld} {line : String}
    (h : ListedAs tx docs left n g line) : FoundAs tx docs left n g line := by
  obtain ⟨s, h1, h2, h3⟩ := h
  exact ⟨s, h1, fun hn => ⟨none, .inl rfl, .inl ⟨rfl, h2 hn⟩⟩, h3⟩

/-- a line of the answer to a query is about the field whose path is read from it -/
def GoodLine (tx : Texts) (docs : String → List (String × String)) (ty : PyTy) (x : List String × String) : Prop :=
  OneLine x.2 ∧ ∃ m g, Declares ty (x.1.flatMap (pySplit '.')) m g ∧ FoundAs tx docs (beforeColon x.2) m g x.2

theorem oneLine_dotted {p : List String} (h : ∀ s ∈ p, Ident s) : OneLine (pyJoin "." p) :=
  mem_pyJoin (by decide) p (fun s hs => (h s hs).2.2.2)

theorem block_reads {tx : Texts} {docs : String → List (String × String)} {ty : PyTy}
    (hid : ∀ p m g, Declares ty p m g → Ident g.name) (htx : tx.OneLineOn docs ty) (hdoc : ∀ m k d, dget (docs m) k = some d → OneLine d)
    {r : Found} {m : String} {g : Fld} {t : STy} (hD : Declares ty r.fullPath m g) (hm : materialize g.ty = .ok t)
    (hf : r.field = docFld docs m g t) (st rest : List String) :
    ∃ line xs st', readListing st (foundText tx r ++ rest) = ([pyJoin "." r.fullPath], line) :: xs ++ readListing st' rest ∧
      foundText tx r = line :: xs.map Prod.snd ∧
      (∀ x ∈ xs, x.1.length = 2) ∧ GoodLine tx docs ty ([pyJoin "." r.fullPath], line) ∧ ∀ x ∈ xs, GoodLine tx docs ty x := by
  have hids : ∀ s ∈ r.fullPath, Ident s := by
    intro s hs
    obtain ⟨q, m', g', k1, rfl⟩ := hD.names s hs
    exact hid q m' g' k1
  have hsplit : pySplit '.' (pyJoin "." r.fullPath) = r.fullPath := C69_name _ hD.ne (fun s hs => (hids s hs).2.2.1)
  have hone := oneLine_dotted hids
  obtain ⟨path, sim, fld⟩ := r
  simp only at hf
  subst hf
  have hfp : Found.fullPath ⟨path, sim, docFld docs m g t⟩ = path ++ [g.name] := rfl
  rw [hfp] at hD hids hsplit hone ⊢
  have hu := unwrap_withDocs docs t
  have hn := unwrap_struct g.ty t hm
  have hty : OneLine (pyJoin "." (path ++ [g.name]) ++ ": " ++ tx.type (t.withDocs docs)) :=
    oneLine_append (oneLine_append hone (by simp [OneLine])) (htx _ m g t hD hm).1
  have one : ∀ line : String, (∃ x, line = pyJoin "." (path ++ [g.name]) ++ ": " ++ x) → OneLine line →
      FoundAs tx docs (pyJoin "." (path ++ [g.name])) m g line → foundText tx ⟨path, sim, docFld docs m g t⟩ = [line] →
      ∃ line xs st', readListing st (foundText tx ⟨path, sim, docFld docs m g t⟩ ++ rest) =
        ([pyJoin "." (path ++ [g.name])], line) :: xs ++ readListing st' rest ∧
        foundText tx ⟨path, sim, docFld docs m g t⟩ = line :: xs.map Prod.snd ∧
        (∀ x ∈ xs, x.1.length = 2) ∧ GoodLine tx docs ty ([pyJoin "." (path ++ [g.name])], line) ∧ ∀ x ∈ xs, GoodLine tx docs ty x := by
    rintro line ⟨x, hx⟩ h1 h2 h3
    have hr : readLine line = (0, pyJoin "." (path ++ [g.name])) := by rw [hx]; exact readLine_dotted hids x
    refine ⟨line, [], [pyJoin "." (path ++ [g.name])], ?_, by rw [h3]; rfl, by simp, ⟨h1, m, g, ?_, ?_⟩, by simp⟩
    · rw [h3]
      simp only [List.cons_append, List.nil_append, readListing, hr, List.take_zero]
    · simp only [List.flatMap_cons, List.flatMap_nil, List.append_nil, hsplit]
      exact hD
    · have : beforeColon line = pyJoin "." (path ++ [g.name]) := by rw [hx]; exact beforeColon_dotted hids x
      rw [this]
      exact h2
  cases hs : (t.withDocs docs).unwrap.isStruct with
  | false =>
    have hnn : ¬ Nests g.ty := fun h => by rw [← hu, hs] at hn; exact absurd (hn.1 h) (by simp)
    obtain ⟨x, hx⟩ := withComment_form (pyJoin "." (path ++ [g.name]) ++ ": " ++ tx.type (t.withDocs docs) ++
      defaultText tx (schemaDefault g.dflt).1) (dget (docs m) g.name)
    refine one (withComment (pyJoin "." (path ++ [g.name]) ++ ": " ++ tx.type (t.withDocs docs) ++
      defaultText tx (schemaDefault g.dflt).1) (dget (docs m) g.name)) ⟨_, by rw [hx]; simp only [String.append_assoc]; rfl⟩
      (oneLine_comment (oneLine_append hty (oneLine_default (htx _ m g t hD hm).2)) (hdoc m g.name)) ?_ ?_
    · exact ⟨t, hm, fun h => absurd h hnn, fun _ => ⟨_, defaultText_stem tx _ _ _, withComment_described _ _⟩⟩
    · simp only [foundText, docFld]
      split
      · rename_i hne
        rw [hne] at hs
        exact (nomatch hs)
      · rfl
  | true =>
    have hnn : Nests g.ty := hn.2 (by rw [← hu, hs])
    cases hst : (t.withDocs docs).unwrap with
    | struct n F v =>
      by_cases hsim : 1 ≤ sim
      · have hft : foundText tx ⟨path, sim, docFld docs m g t⟩ =
            (pyJoin "." (path ++ [g.name]) ++ ": " ++ tx.type (t.withDocs docs)) :: F.map (fun f => schemaLine tx 1 f.2) := by
          simp only [foundText, docFld, hst, if_pos hsim]
        have hF := unwrap_fields docs hm hst
        have hFid : ∀ f ∈ F, Ident f.2.name := by
          intro f hf
          obtain ⟨m', g', t', k1, k2, k3⟩ := hF f hf
          rw [k3]
          exact hid _ _ _ (hD.trans k1)
        obtain ⟨st', hst'⟩ := read_section tx (pyJoin "." (path ++ [g.name])) F [pyJoin "." (path ++ [g.name])] rest rfl hFid
        have hr := readLine_dotted hids (tx.type (t.withDocs docs))
        refine ⟨_, F.map (fun f => ([pyJoin "." (path ++ [g.name]), f.2.name], schemaLine tx 1 f.2)), st', ?_, ?_, ?_, ⟨hty, m, g, ?_, ?_⟩, ?_⟩
        · rw [hft]
          simp only [List.cons_append, readListing, hr, List.take_zero, List.nil_append, hst']
        · rw [hft]; simp [Function.comp_def]
        · intro x hx
          obtain ⟨f, _, rfl⟩ := List.mem_map.1 hx
          rfl
        · simp only [List.flatMap_cons, List.flatMap_nil, List.append_nil, hsplit]
          exact hD
        · simp only [beforeColon_dotted hids]
          exact ⟨t, hm, fun _ => ⟨none, .inl rfl, .inl ⟨rfl, rfl⟩⟩, fun h => absurd hnn h⟩
        · intro x hx
          obtain ⟨f, hf, rfl⟩ := List.mem_map.1 hx
          obtain ⟨m', g', t', k1, k2, k3⟩ := hF f hf
          have hid' : Ident g'.name := hid _ _ _ (hD.trans k1)
          rw [k3]
          refine ⟨oneLine_schemaLine 1 (docFld docs m' g' t') (htx _ m' g' t' (hD.trans k1) k2) hid'.2.2.2 (fun d hd => hdoc m' g'.name d hd), m', g', ?_, ?_⟩
          · have : pySplit '.' g'.name = [g'.name] := pySplit_id hid'.2.2.1
            simp only [List.flatMap_cons, List.flatMap_nil, List.append_nil, hsplit]
            show Declares ty (path ++ [g.name] ++ pySplit '.' g'.name) m' g'
            rw [this]
            exact hD.trans k1
          · simp only
            rw [beforeColon_schemaLine tx 1 (docFld docs m' g' t') hid']
            exact (schemaLine_listed tx docs 1 m' g' t' k2).found
      · obtain ⟨x, hx⟩ := withComment_form (pyJoin "." (path ++ [g.name]) ++ ": " ++ tx.type (t.withDocs docs)) (dget (docs m) g.name)
        refine one (withComment (pyJoin "." (path ++ [g.name]) ++ ": " ++ tx.type (t.withDocs docs)) (dget (docs m) g.name))
          ⟨_, by rw [hx]; simp only [String.append_assoc]; rfl⟩ (oneLine_comment hty (hdoc m g.name)) ?_ ?_
        · exact ⟨t, hm, fun _ => ⟨_, .inr rfl, withComment_described _ _⟩, fun h => absurd hnn h⟩
        · simp only [foundText, docFld, hst, if_neg hsim]
    | _ => rw [hst] at hs; exact (nomatch hs)

theorem blocks_read {tx : Texts} {docs : String → List (String × String)} {ty : PyTy}
    (hid : ∀ p m g, Declares ty p m g → Ident g.name) (htx : tx.OneLineOn docs ty) (hdoc : ∀ m k d, dget (docs m) k = some d → OneLine d) :
    ∀ (rs : List Found), (∀ r ∈ rs, ∃ m g t, Declares ty r.fullPath m g ∧ materialize g.ty = .ok t ∧ r.field = docFld docs m g t) →
    ∀ st : List String, (∀ l ∈ rs.flatMap (foundText tx), OneLine l) ∧
      (∀ x ∈ readListing st (rs.flatMap (foundText tx)), GoodLine tx docs ty x) ∧
      (((readListing st (rs.flatMap (foundText tx))).map Prod.fst).filter (fun p => p.length = 1)).map (·.flatMap (pySplit '.')) =
        rs.map Found.fullPath
  | [], _, st => by simp [readListing]
  | r :: rs, h, st => by
    obtain ⟨m, g, t, hD, hm, hf⟩ := h r (by simp)
    obtain ⟨line, xs, st', e1, e2, e3, e4, e5⟩ := block_reads hid htx hdoc hD hm hf st (rs.flatMap (foundText tx))
    obtain ⟨i1, i2, i3⟩ := blocks_read hid htx hdoc rs (fun r hr => h r (List.mem_cons_of_mem _ hr)) st'
    have hids : ∀ s ∈ r.fullPath, Ident s := by
      intro s hs
      obtain ⟨q, m', g', k1, rfl⟩ := hD.names s hs
      exact hid q m' g' k1
    have hsplit : pySplit '.' (pyJoin "." r.fullPath) = r.fullPath := C69_name _ hD.ne (fun s hs => (hids s hs).2.2.1)
    rw [List.flatMap_cons, e1]
    refine ⟨?_, ?_, ?_⟩
    · intro l hl
      rcases List.mem_append.1 hl with hl | hl
      · rw [e2] at hl
        rcases List.mem_cons.1 hl with rfl | hl
        · exact e4.1
        · obtain ⟨x, hx, rfl⟩ := List.mem_map.1 hl
          exact (e5 x hx).1
      · exact i1 l hl
    · intro x hx
      rcases List.mem_append.1 hx with hx | hx
      · rcases List.mem_cons.1 hx with rfl | hx
        · exact e4
        · exact e5 x hx
      · exact i2 x hx
    · have hxs : ((xs.map Prod.fst).filter (fun p => p.length = 1)) = [] := by
        rw [List.filter_eq_nil_iff]
        intro p hp
        obtain ⟨x, hx, rfl⟩ := List.mem_map.1 hp
        simp [e3 x hx]
      simp only [List.cons_append, List.map_cons, List.map_append, List.filter_append]
      rw [List.filter_cons_of_pos (by simp), List.filter_append, hxs, List.nil_append, List.map_cons, i3]
      simp [hsplit]

theorem mem_helpShown {q : String} {rs : List Found} {r : Found} (h : r ∈ helpShown q rs) : r ∈ rs :=
  (helpSorted_perm rs).mem_iff.1 ((helpLoop_prefix q _ _ 0 (-1)).subset h)

/-- C85: what `help` writes for a query can be read back. For every class whose field names are identifiers and every query, when types,
defaults and descriptions are written on one line: the lines that are not indented are those of the fields that the search shows, in
order, and what is before the first colon is the path of the field with dots (so, by `C53_paths`, what an override accepts). An indented line is
about the field of that name in the section of the line above it. Each line shows type, default and description of its field. -/
theorem C85_query_partial (lower : Char → String) (tx : Texts) (docs : String → List (String × String)) (n : String) (fs : List Fld)
    (ver : Option VerInfo) (F : List (String × SFld)) (q : String) (hq : q ≠ "") (hm : materializeF fs = .ok F)
    (hid : ∀ p m g, Declares (.data n fs ver) p m g → Ident g.name) (htx : tx.OneLineOn docs (.data n fs ver))
    (hdoc : ∀ m k d, dget (docs m) k = some d → OneLine d) :
    ∃ shown lines, helpCmd lower (.data n fs ver) q = .ok (.fields shown) ∧ helpText lower tx docs (.data n fs ver) q = .ok lines ∧
      outLines (printed lines) = lines ∧
      (((readListing [] (outLines (printed lines))).map Prod.fst).filter (fun p => p.length = 1)).map (·.flatMap (pySplit '.')) =
        shown.map Found.fullPath ∧
      ∀ p l, (p, l) ∈ readListing [] (outLines (printed lines)) → ∃ m g, Declares (.data n fs ver) (p.flatMap (pySplit '.')) m g ∧
        FoundAs tx docs (beforeColon l) m g l := by
  have hmat : materialize (.data n fs ver) = .ok (.struct n F (ver.map VerInfo.version)) := by
    simp only [materialize, hm, bind, Except.bind, pure, Except.pure]
  have hlen : ¬ q.toList.length = 0 := by
    intro h
    apply hq
    have : q.toList = [] := List.length_eq_zero_iff.1 h
    rw [← String.ofList_toList (s := q), this]
  obtain ⟨rs, hrs⟩ := helpF_total lower q F []
  obtain ⟨rs', hrs'⟩ := helpF_total lower q (withDocsF docs (docs n) F) []
  have hkey := helpShown_key q (helpF_docs lower q docs (docs n) F [] rs rs' hrs hrs')
  have hfind := helpT_finds lower q docs _ _ hmat [] rs' (by simp only [STy.withDocs, helpT]; exact hrs')
  obtain ⟨b1, b2, b3⟩ := blocks_read hid htx hdoc (helpShown q rs') (fun r hr => by
    obtain ⟨p, m, g, t, k0, k1, k2, k3⟩ := hfind r (mem_helpShown hr)
    rw [List.nil_append] at k0
    exact ⟨m, g, t, k0 ▸ k1, k2, k3⟩) []
  have hout := outLines_printed _ b1
  refine ⟨helpShown q rs, (helpShown q rs').flatMap (foundText tx), ?_, ?_, hout, ?_, ?_⟩
  · simp only [helpCmd, hmat, bind, Except.bind, pure, Except.pure, hlen, if_false, hrs]
  · simp only [helpText, hmat, bind, Except.bind, pure, Except.pure, STy.withDocs, hlen, if_false, hrs']
  · rw [hout, b3]
    have hfp : ∀ r : Found, r.fullPath = r.key.1 ++ [r.key.2.2] := fun _ => rfl
    have : ∀ l : List Found, l.map Found.fullPath = (l.map Found.key).map (fun k => k.1 ++ [k.2.2]) := fun l => by
      rw [List.map_map]; rfl
    rw [this, this, hkey]
  · intro p l hl
    rw [hout] at hl
    exact (b2 _ hl).2

/-! ## descriptions of fields -/

theorem dget_dupdate {α : Type} : ∀ (e d : List (String × α)) (k : String), (dkeys e).Nodup →
    dget (dupdate d e) k = (match dget e k with | some v => some v | none => dget d k)
  | [], d, k, _ => rfl
  | (k', v) :: e, d, k, h => by
    simp only [dkeys, List.map_cons, List.nodup_cons] at h
    have ih := dget_dupdate e (dset d k' v) k h.2
    simp only [dupdate, List.foldl_cons] at ih ⊢
    rw [ih]
    by_cases hk : k' = k
    · subst hk
      have : dget e k' = none := (dget_eq_none_iff e k').2 h.1
      rw [this]
      simp [dget]
    · rw [dget_dset_ne _ _ hk]
      simp [dget, hk]

theorem nodup_dupdate {α : Type} : ∀ (e d : List (String × α)), (dkeys d).Nodup → (dkeys (dupdate d e)).Nodup
  | [], _, h => h
  | kv :: e, d, h => nodup_dupdate e (dset d kv.1 kv.2) (nodup_dset d kv.1 kv.2 h)

mutual
theorem nodup_findAll : ∀ c : DocCls, (dkeys (findAllFieldDocs c)).Nodup
  | .mk ps bs => by
    simp only [findAllFieldDocs]
    exact nodup_findBase bs _ (nodup_dupdate _ _ (by simp [dkeys]))
termination_by structural c => c
theorem nodup_findBase : ∀ (bs : List DocCls) (d : List (String × String)), (dkeys d).Nodup → (dkeys (findBaseDocs bs d)).Nodup
  | [], _, h => h
  | b :: bs, d, h => by
    simp only [findBaseDocs]
    exact nodup_findBase bs _ (nodup_dupdate _ _ h)
termination_by structural bs => bs
end

theorem findBase_get : ∀ (bs : List DocCls) (d : List (String × String)) (k x : String),
    dget (findBaseDocs bs d) k = some x ↔
      (∃ pre b post, bs = pre ++ b :: post ∧ dget (findAllFieldDocs b) k = some x ∧ ∀ b' ∈ post, dget (findAllFieldDocs b') k = none) ∨
      ((∀ b ∈ bs, dget (findAllFieldDocs b) k = none) ∧ dget d k = some x)
  | [], d, k, x => by simp [findBaseDocs]
  | b :: bs, d, k, x => by
    simp only [findBaseDocs]
    rw [findBase_get bs, dget_dupdate _ _ _ (nodup_findAll b)]
    constructor
    · rintro (⟨pre, c, post, rfl, h1, h2⟩ | ⟨h1, h2⟩)
      · exact .inl ⟨b :: pre, c, post, rfl, h1, h2⟩
      · cases hb : dget (findAllFieldDocs b) k with
        | some y =>
          rw [hb] at h2
          cases h2
          exact .inl ⟨[], b, bs, rfl, hb, h1⟩
        | none =>
          rw [hb] at h2
          refine .inr ⟨?_, h2⟩
          intro c hc
          rcases List.mem_cons.1 hc with rfl | hc
          · exact hb
          · exact h1 c hc
    · rintro (⟨pre, c, post, e, h1, h2⟩ | ⟨h1, h2⟩)
      · cases pre with
        | nil =>
          simp only [List.nil_append, List.cons.injEq] at e
          obtain ⟨rfl, rfl⟩ := e
          exact .inr ⟨h2, by rw [h1]⟩
        | cons a pre =>
          simp only [List.cons_append, List.cons.injEq] at e
          exact .inl ⟨pre, c, post, e.2, h1, h2⟩
      · exact .inr ⟨fun c hc => h1 c (List.mem_cons_of_mem _ hc), by rw [h1 b (by simp)]; exact h2⟩

theorem own_get (k x : String) : ∀ (ps : List (String × Option String)) (d : List (String × String)),
    dget (dupdate d (ps.filterMap fun p => p.2.map fun y => (p.1, y))) k = some x ↔
      (∃ pre post, ps = pre ++ (k, some x) :: post ∧ ∀ y, (k, some y) ∉ post) ∨ ((∀ y, (k, some y) ∉ ps) ∧ dget d k = some x)
  | [], d => by simp [dupdate]
  | (k', none) :: ps, d => by
    have ih := own_get k x ps d
    have e : ((k', (none : Option String)) :: ps).filterMap (fun p => p.2.map fun y => (p.1, y)) =
        ps.filterMap (fun p => p.2.map fun y => (p.1, y)) := by simp
    rw [e, ih]
    constructor
    · rintro (⟨pre, post, rfl, h⟩ | ⟨h1, h2⟩)
      · exact .inl ⟨(k', none) :: pre, post, rfl, h⟩
      · exact .inr ⟨fun y hy => by rcases List.mem_cons.1 hy with hy | hy; exact (nomatch hy); exact h1 y hy, h2⟩
    · rintro (⟨pre, post, e, h⟩ | ⟨h1, h2⟩)
      · cases pre with
        | nil => simp at e
        | cons a pre => simp only [List.cons_append, List.cons.injEq] at e; exact .inl ⟨pre, post, e.2, h⟩
      · exact .inr ⟨fun y hy => h1 y (List.mem_cons_of_mem _ hy), h2⟩
  | (k', some z) :: ps, d => by
    have ih := own_get k x ps (dset d k' z)
    have e : dupdate d (((k', some z) :: ps).filterMap (fun p => p.2.map fun y => (p.1, y))) =
        dupdate (dset d k' z) (ps.filterMap (fun p => p.2.map fun y => (p.1, y))) := by simp [dupdate]
    rw [e, ih]
    constructor
    · rintro (⟨pre, post, rfl, h⟩ | ⟨h1, h2⟩)
      · exact .inl ⟨(k', some z) :: pre, post, rfl, h⟩
      · by_cases hk : k' = k
        · subst hk
          rw [dget_dset_self] at h2
          cases h2
          exact .inl ⟨[], ps, rfl, h1⟩
        · rw [dget_dset_ne _ _ hk] at h2
          refine .inr ⟨fun y hy => ?_, h2⟩
          rcases List.mem_cons.1 hy with hy | hy
          · cases hy; exact hk rfl
          · exact h1 y hy
    · rintro (⟨pre, post, e, h⟩ | ⟨h1, h2⟩)
      · cases pre with
        | nil =>
          simp only [List.nil_append, List.cons.injEq, Prod.mk.injEq, Option.some.injEq] at e
          obtain ⟨⟨rfl, rfl⟩, rfl⟩ := e
          exact .inr ⟨h, dget_dset_self _ _ _⟩
        | cons a pre => simp only [List.cons_append, List.cons.injEq] at e; exact .inl ⟨pre, post, e.2, h⟩
      · refine .inr ⟨fun y hy => h1 y (List.mem_cons_of_mem _ hy), ?_⟩
        have hk : k' ≠ k := fun e => h1 z (by subst e; simp)
        rw [dget_dset_ne _ _ hk]
        exact h2

theorem ownDocs_iff (ps : List (String × Option String)) (bs : List DocCls) (k x : String) :
    dget (ownDocs ps) k = some x ↔ Describes (.mk ps bs) k x := by
  rw [ownDocs, own_get]
  simp [Describes]

/-- the base classes -/
def DocCls.bases : DocCls → List DocCls | .mk _ bs => bs

/-- C84: which description is found for a field. For every class: the one found for the last of its base classes for which one is found;
and the one in the docstring of the class itself if, and only if, none is found for any base class. -/
theorem C84_lookup (c : DocCls) (k x : String) :
    dget (findAllFieldDocs c) k = some x ↔
      (∃ pre b post, c.bases = pre ++ b :: post ∧ dget (findAllFieldDocs b) k = some x ∧ ∀ b' ∈ post, dget (findAllFieldDocs b') k = none) ∨
      ((∀ b ∈ c.bases, dget (findAllFieldDocs b) k = none) ∧ Describes c k x) := by
  obtain ⟨ps, bs⟩ := c
  simp only [findAllFieldDocs, DocCls.bases]
  rw [findBase_get, ownDocs_iff ps bs]

mutual
theorem findAll_sound : ∀ (c : DocCls) (k x : String), dget (findAllFieldDocs c) k = some x → ∃ a, Ancestor c a ∧ Describes a k x
  | .mk ps bs, k, x, h => by
    rw [C84_lookup] at h
    rcases h with ⟨pre, b, post, e, h, _⟩ | ⟨_, h⟩
    · simp only [DocCls.bases] at e
      obtain ⟨b', hb', a, h1, h2⟩ := findBases_sound bs k x ⟨b, by rw [e]; simp, h⟩
      exact ⟨a, .base hb' h1, h2⟩
    · exact ⟨_, .self, h⟩
termination_by structural c => c
theorem findBases_sound : ∀ (bs : List DocCls) (k x : String), (∃ b ∈ bs, dget (findAllFieldDocs b) k = some x) →
    ∃ b ∈ bs, ∃ a, Ancestor b a ∧ Describes a k x
  | [], _, _, ⟨_, hb, _⟩ => (nomatch hb)
  | b :: bs, k, x, ⟨b', hb', h⟩ => by
    rcases List.mem_cons.1 hb' with e | hb'
    · rw [e] at h
      exact ⟨b, by simp, findAll_sound b k x h⟩
    · obtain ⟨c, hc, h'⟩ := findBases_sound bs k x ⟨b', hb', h⟩
      exact ⟨c, List.mem_cons_of_mem _ hc, h'⟩
termination_by structural bs => bs
end

theorem findAll_some {c a : DocCls} (h : Ancestor c a) {k x : String} (hx : Describes a k x) : ∃ y, dget (findAllFieldDocs c) k = some y := by
  induction h with
  | @self c =>
    by_cases hb : ∀ b ∈ c.bases, dget (findAllFieldDocs b) k = none
    · exact ⟨x, (C84_lookup c k x).2 (.inr ⟨hb, hx⟩)⟩
    · obtain ⟨ps, bs⟩ := c
      simp only [findAllFieldDocs, DocCls.bases] at hb ⊢
      exact findBase_some bs _ k hb
  | @base ps bs b a hb _ ih =>
    obtain ⟨y, hy⟩ := ih hx
    simp only [findAllFieldDocs]
    exact findBase_some bs _ k (fun h => by rw [h b hb] at hy; exact (nomatch hy))
where
  findBase_some : ∀ (bs : List DocCls) (d : List (String × String)) (k : String),
      (¬ ∀ b ∈ bs, dget (findAllFieldDocs b) k = none) → ∃ y, dget (findBaseDocs bs d) k = some y
    | [], _, _, h => absurd (fun _ hb => (nomatch hb)) h
    | b :: bs, d, k, h => by
      simp only [findBaseDocs]
      by_cases hb : ∀ b ∈ bs, dget (findAllFieldDocs b) k = none
      · cases hy : dget (findAllFieldDocs b) k with
        | none => exact absurd (fun c hc => by rcases List.mem_cons.1 hc with rfl | hc; exact hy; exact hb c hc) h
        | some y => exact ⟨y, (findBase_get bs _ k y).2 (.inr ⟨hb, by rw [dget_dupdate _ _ _ (nodup_findAll b), hy]⟩)⟩
      · exact findBase_some bs _ k hb

/-- C84: the description of a field. For every hierarchy of classes: a description is found for a field exactly if a class in the hierarchy
describes it, and what is found is the text that one of them gives; if all of them give the same text (so also if only one describes the
field) it is that. Missing: that the text of the class itself is found when a class it inherits from has another (`C84_own_false`). -/
theorem C84_found_partial (c : DocCls) (k : String) :
    (∀ x, dget (findAllFieldDocs c) k = some x → ∃ a, Ancestor c a ∧ Describes a k x) ∧
    (dget (findAllFieldDocs c) k = none ↔ ∀ a x, Ancestor c a → ¬ Describes a k x) ∧
    (∀ a x, Ancestor c a → Describes a k x → (∀ a' x', Ancestor c a' → Describes a' k x' → x' = x) →
      dget (findAllFieldDocs c) k = some x) := by
  refine ⟨fun x h => findAll_sound c k x h, ⟨?_, ?_⟩, ?_⟩
  · intro h a x ha hx
    obtain ⟨y, hy⟩ := findAll_some ha hx
    rw [h] at hy
    exact (nomatch hy)
  · intro h
    cases hx : dget (findAllFieldDocs c) k with
    | none => rfl
    | some x =>
      obtain ⟨a, h1, h2⟩ := findAll_sound c k x hx
      exact absurd h2 (h a x h1)
  · intro a x ha hx hu
    obtain ⟨y, hy⟩ := findAll_some ha hx
    obtain ⟨a', h1, h2⟩ := findAll_sound c k y hy
    rw [hy, hu a' y h1 h2]

namespace ExHelp

/-- `class Base: lr: float  # "step size"`, `class C(Base)` which describes `lr` again, and `n` -/
def base : DocCls := .mk [("lr", some "step size"), ("x", none)] [.mk [] []]
def cls : DocCls := .mk [("n", some "how many"), ("lr", some "step size of C")] [base]

def docs : String → List (String × String) := fun n => if n = "Opt" then findAllFieldDocs cls else []

/-- `class Opt: lr: float = 0.5; n: int`, `class C: opts: List[Opt]; seed: int = 0` -/
def opt : PyTy := .data "Opt" [.mk "lr" .float (some (.flt (.fin (1/2)))), .mk "n" .int .none] .none
def fs : List Fld := [.mk "opts" (.list opt) .none, .mk "seed" .int (some (.int 0))]

def tx : Texts where
  type := fun t => match t with | .list _ => "List[Opt]" | .prim s => if s = "int" then "int" else "float" | _ => "?"
  value := fun v => match v with | .int _ => "0" | _ => "0.5"

example : findAllFieldDocs cls = [("n", "how many"), ("lr", "step size")] := by decide +kernel

example : Ancestor cls base ∧ Describes base "lr" "step size" ∧ Describes cls "n" "how many" :=
  ⟨.base (by simp) .self, ⟨[], [("x", none)], rfl, by simp⟩, ⟨[], [("lr", some "step size of C")], rfl, by simp⟩⟩

/-- the text of both kinds of output -/
example : (match helpText Ex.lc tx docs (.data "C" fs .none) "" with | .ok ls => ls | _ => []) =
    ["opts: List[Opt]",
     "  lr: float = 0.5                         # step size",
     "  n: int                                  # how many",
     "seed: int = 0"] := by decide +kernel

example : (match helpText Ex.lc tx docs (.data "C" fs .none) "opts" with | .ok ls => ls | _ => []) =
    ["opts: List[Opt]",
     "  lr: float = 0.5                         # step size",
     "  n: int                                  # how many"] := by decide +kernel

theorem tx_oneLine (docs : String → List (String × String)) (ty : PyTy) : tx.OneLineOn docs ty := by
  have h1 : ∀ t, OneLine (tx.type t) := by
    intro t
    cases t with
    | prim s => simp only [tx]; split <;> simp [OneLine]
    | _ => simp [tx, OneLine]
  have h2 : ∀ v, OneLine (tx.value v) := by
    intro v
    cases v <;> simp [tx, OneLine]
  exact fun _ _ _ _ _ _ => ⟨h1 _, h2 _⟩

theorem docs_oneLine (m k d : String) (h : dget (docs m) k = some d) : OneLine d := by
  simp only [docs] at h
  split at h
  · have e : findAllFieldDocs cls = [("n", "how many"), ("lr", "step size")] := by decide +kernel
    rw [e] at h
    simp only [dget] at h
    split at h
    · cases h; simp [OneLine]
    · split at h
      · cases h; simp [OneLine]
      · exact (nomatch h)
  · exact (nomatch h)

theorem fs_ident (p : List String) (m : String) (g : Fld) (h : Declares (.data "C" fs .none) p m g) : Ident g.name := by
  have key : ∀ {n : String} {ms : List Fld}, (∀ f ∈ ms, Ident f.name ∧ ∀ p m g, Declares f.ty p m g → Ident g.name) →
      ∀ {p m g}, Declares (.data n ms .none) p m g → Ident g.name := by
    intro n ms hms p m g h
    cases h with
    | here hf => exact (hms _ hf).1
    | there hf hi => exact (hms _ hf).2 _ _ _ hi
  refine key ?_ h
  intro f hf
  simp only [fs, List.mem_cons, List.not_mem_nil, or_false] at hf
  rcases hf with rfl | rfl
  · refine ⟨by simp [Ident, Fld.name], fun p m g h => ?_⟩
    cases h with
    | list h =>
      refine key ?_ h
      intro f hf
      simp only [List.mem_cons, List.not_mem_nil, or_false] at hf
      rcases hf with rfl | rfl
      · exact ⟨by simp [Ident, Fld.name], fun p m g h => nomatch h⟩
      · exact ⟨by simp [Ident, Fld.name], fun p m g h => nomatch h⟩
  · exact ⟨by simp [Ident, Fld.name], fun p m g h => nomatch h⟩

/-- The hypotheses of the C85 theorems are met. -/
example : (∃ F, materializeF fs = .ok F) ∧ DistinctTy (.data "C" fs .none) ∧ tx.OneLineOn docs (.data "C" fs .none) ∧
    Declares (.data "C" fs .none) ["opts", "lr"] "Opt" (.mk "lr" .float (some (.flt (.fin (1/2))))) :=
  ⟨⟨_, rfl⟩, by simp [DistinctTy, DistinctTyF, DistinctTyF1, DistinctTyHd, fs, opt, Fld.name], tx_oneLine _ _,
   .there (f := .mk "opts" (.list opt) .none) (by simp [fs]) (.list (.here (f := .mk "lr" .float (some (.flt (.fin (1/2))))) (by simp)))⟩

/-- the theorem applies to it, and reads its paths back -/
example : ∃ lines, helpText Ex.lc tx docs (.data "C" fs .none) "" = .ok lines ∧
    ∃ l, (["opts", "lr"], l) ∈ readListing [] (outLines (printed lines)) := by
  obtain ⟨lines, h1, _, h2, _⟩ := C85_listing_partial Ex.lc tx docs "C" fs .none _ rfl
    (by simp [DistinctTy, DistinctTyF, DistinctTyF1, DistinctTyHd, fs, opt, Fld.name]) fs_ident (tx_oneLine _ _) docs_oneLine
  obtain ⟨l, hl, _⟩ := h2 ["opts", "lr"] "Opt" (.mk "lr" .float (some (.flt (.fin (1/2)))))
    (.there (f := .mk "opts" (.list opt) .none) (by simp [fs]) (.list (.here (f := .mk "lr" .float (some (.flt (.fin (1/2))))) (by simp))))
  exact ⟨lines, h1, l, hl⟩

end ExHelp

/-- C84 is false when a class describes an inherited field anew: `help` shows the text of the class it inherits from. -/
theorem C84_own_false : ∃ (c : DocCls) (k own inherited : String), Describes c k own ∧ own ≠ inherited ∧
    dget (findAllFieldDocs c) k = some inherited :=
  ⟨ExHelp.cls, "lr", "step size of C", "step size", ⟨[("n", some "how many")], [], rfl, by simp⟩, by decide, by decide +kernel⟩

/-- C84 is false for two base classes too: the text is that of the second, though Python takes the field itself from the first. -/
theorem C84_order_false : ∃ (a b c : DocCls) (k x y : String), c.bases = [a, b] ∧ Describes a k x ∧ Describes b k y ∧ x ≠ y ∧
    dget (findAllFieldDocs c) k = some y :=
  ⟨.mk [("lr", some "A")] [], .mk [("lr", some "B")] [], .mk [] [.mk [("lr", some "A")] [], .mk [("lr", some "B")] []], "lr", "A", "B",
   rfl, ⟨[], [], rfl, by simp⟩, ⟨[], [], rfl, by simp⟩, by decide, by decide +kernel⟩

/-- C84: a field that has fields itself is listed without its description: the listing is the same whatever the description is. -/
theorem C84_section_false : ∃ (n : String) (fs : List Fld) (docs docs' : String → List (String × String)) (k x : String) (lines : List String),
    dget (docs n) k = some x ∧ dget (docs' n) k = none ∧ (∃ f ∈ fs, f.name = k) ∧
    helpText Ex.lc ExHelp.tx docs (.data n fs .none) "" = .ok lines ∧ helpText Ex.lc ExHelp.tx docs' (.data n fs .none) "" = .ok lines :=
  ⟨"C", ExHelp.fs, fun _ => [("opts", "the optimisers")], fun _ => [], "opts", "the optimisers", _, by decide +kernel, rfl,
   ⟨_, List.mem_cons_self .., rfl⟩, rfl, rfl⟩

/-- C85 is false for a description of two lines: the second line reads as a field that the class does not have. -/
theorem C85_multiline_false : ∃ (fs : List Fld) (docs : String → List (String × String)) (lines : List String) (p : List String) (l : String),
    helpText Ex.lc ExHelp.tx docs (.data "C" fs .none) "" = .ok lines ∧ (p, l) ∈ readListing [] (outLines (printed lines)) ∧
    ∀ m g, ¬ Declares (.data "C" fs .none) p m g := by
  refine ⟨[.mk "n" .int .none], fun _ => [("n", "how many\nlr: see there")], _, ["lr"], "lr: see there", rfl, by decide +kernel, ?_⟩
  intro m g h
  generalize hp : ["lr"] = p at h
  cases h with
  | here hf => simp only [List.mem_cons, List.not_mem_nil, or_false] at hf; subst hf; simp [Fld.name] at hp
  | there hf hi => simp only [List.mem_cons, List.not_mem_nil, or_false] at hf; subst hf; simp [Fld.name] at hp

/-- C84: when all classes that describe a field agree, the listing shows that text on the line of the field: after the type and the
default, behind a `#`. -/
theorem C84_listed (lower : Char → String) (tx : Texts) (cls : String → DocCls) (n : String) (fs : List Fld)
    (ver : Option VerInfo) (F : List (String × SFld)) (hm : materializeF fs = .ok F) (hd : DistinctTy (.data n fs ver))
    (hid : ∀ p m g, Declares (.data n fs ver) p m g → Ident g.name) (htx : tx.OneLineOn (fun m => findAllFieldDocs (cls m)) (.data n fs ver))
    (hdoc : ∀ m a k x, Ancestor (cls m) a → Describes a k x → OneLine x)
    (p : List String) (m : String) (g : Fld) (hg : Declares (.data n fs ver) p m g) (hn : ¬ Nests g.ty) (a : DocCls) (x : String)
    (ha : Ancestor (cls m) a) (hx : Describes a g.name x)
    (hu : ∀ a' x', Ancestor (cls m) a' → Describes a' g.name x' → x' = x) :
    ∃ lines l stem s k, helpText lower tx (fun m => findAllFieldDocs (cls m)) (.data n fs ver) "" = .ok lines ∧
      (p, l) ∈ readListing [] (outLines (printed lines)) ∧ materialize g.ty = .ok s ∧
      Stem tx (String.ofList (List.replicate (2 * (p.length - 1)) ' ') ++ g.name) (s.withDocs fun m => findAllFieldDocs (cls m))
        (schemaDefault g.dflt).1 stem ∧
      l = stem ++ String.ofList (List.replicate k ' ') ++ "  # " ++ x := by
  obtain ⟨lines, h1, _, h2, _⟩ := C85_listing_partial lower tx (fun m => findAllFieldDocs (cls m)) n fs ver F hm hd hid htx (by
    intro m k d h
    obtain ⟨a, k1, k2⟩ := (C84_found_partial (cls m) k).1 d h
    exact hdoc m a k d k1 k2)
  obtain ⟨l, hl, s, k1, _, k2⟩ := h2 p m g hg
  obtain ⟨stem, k3, k4⟩ := k2 hn
  have := (C84_found_partial (cls m) g.name).2.2 a x ha hx hu
  rw [this] at k4
  rcases k4 with ⟨k4, _⟩ | ⟨d, k, k4, k5, _⟩
  · exact (nomatch k4)
  · cases k4
    exact ⟨lines, l, stem, s, k, h1, hl, k1, k3, k5⟩

end HS
