import Verif.Props.Diff
import Verif.Props.Severity
import Verif.Proofs.Compat
import Verif.Model.Help
/-!
# C70: the listing of all fields (`help` without a query)
-/
namespace HS

/-- `g` is the field at a path of names, through dataclasses and lists and Optionals of them -/
inductive FieldIn : PyTy → List String → Fld → Prop
  | here {n : String} {fs : List Fld} {ver : Option VerInfo} {f : Fld} : f ∈ fs → FieldIn (.data n fs ver) [f.name] f
  | there {n : String} {fs : List Fld} {ver : Option VerInfo} {f g : Fld} {p : List String} :
      f ∈ fs → FieldIn f.ty p g → FieldIn (.data n fs ver) (f.name :: p) g
  | list {t : PyTy} {p : List String} {g : Fld} : FieldIn t p g → FieldIn (.list t) p g
  | opt {t : PyTy} {p : List String} {g : Fld} : FieldIn t p g → FieldIn (.union [t, .noneT]) p g

/-- reading an indented listing: a line belongs to the last line before it that is indented less; the full path of each line -/
def readIndented : List String → List PLine → List (List String × PLine)
  | _, [] => []
  | st, l :: ls => (st.take l.depth ++ [l.name], l) :: readIndented (st.take l.depth ++ [l.name]) ls

/-- a dataclass, or lists and Optionals of one -/
inductive Nests : PyTy → Prop
  | data {n : String} {fs : List Fld} {ver : Option VerInfo} : Nests (.data n fs ver)
  | list {t : PyTy} : Nests t → Nests (.list t)
  | opt {t : PyTy} : Nests t → Nests (.union [t, .noneT])

/-- what the line for the field `g` shows: its name, and the default recorded for it, unless that is None or the field has fields itself -/
structure LineOf (g : Fld) (l : PLine) : Prop where
  name : l.name = g.name
  nested : Nests g.ty → l.dflt = none
  leaf : ¬ Nests g.ty → ∀ d, l.dflt = some d ↔ (schemaDefault g.dflt).1 = d ∧ d ≠ .none

/-! ## proofs -/

def finalStack : List String → List PLine → List String
  | st, [] => st
  | st, l :: ls => finalStack (st.take l.depth ++ [l.name]) ls

theorem readIndented_append : ∀ (xs ys : List PLine) (st : List String),
    readIndented st (xs ++ ys) = readIndented st xs ++ readIndented (finalStack st xs) ys
  | [], _, _ => rfl
  | x :: xs, ys, st => by simp only [List.cons_append, readIndented, finalStack, readIndented_append xs ys]

theorem finalStack_append : ∀ (xs ys : List PLine) (st : List String), finalStack st (xs ++ ys) = finalStack (finalStack st xs) ys
  | [], _, _ => rfl
  | x :: xs, ys, st => by simp only [List.cons_append, finalStack, finalStack_append xs ys]

theorem FieldIn.ne {ty : PyTy} {p : List String} {g : Fld} (h : FieldIn ty p g) : p ≠ [] := by
  induction h <;> simp_all

theorem unwrap_struct : ∀ (ty : PyTy) (s : STy), materialize ty = .ok s → (Nests ty ↔ s.unwrap.isStruct = true) := by
  intro ty
  induction h : sizeOf ty using Nat.strongRecOn generalizing ty with
  | _ N ih =>
  intro s hm
  cases ty with
  | int => cases mat_int hm; exact ⟨fun h => (nomatch h), fun h => (nomatch h)⟩
  | str => cases mat_str hm; exact ⟨fun h => (nomatch h), fun h => (nomatch h)⟩
  | bool => cases mat_bool hm; exact ⟨fun h => (nomatch h), fun h => (nomatch h)⟩
  | float => cases mat_float hm; exact ⟨fun h => (nomatch h), fun h => (nomatch h)⟩
  | noneT => exact (mat_noneT hm).elim
  | blob n => exact (mat_blob hm).elim
  | enum n ms => cases mat_enum hm; exact ⟨fun h => (nomatch h), fun h => (nomatch h)⟩
  | literal vs => cases mat_literal hm; exact ⟨fun h => (nomatch h), fun h => (nomatch h)⟩
  | tuple as => obtain ⟨ts, _, rfl⟩ := mat_tuple hm; exact ⟨fun h => (nomatch h), fun h => (nomatch h)⟩
  | dict k v =>
    obtain ⟨_, _, _, _, rfl⟩ := mat_dict hm
    exact ⟨fun h => (nomatch h), fun h => (nomatch h)⟩
  | list a =>
    obtain ⟨t, h1, rfl⟩ := mat_list hm
    have := ih (sizeOf a) (by subst h; simp) a rfl t h1
    exact ⟨fun h => this.1 (by cases h; assumption), fun h => .list (this.2 h)⟩
  | union as =>
    rcases mat_union hm with ⟨u, t, rfl, h1, rfl⟩ | ⟨ho, ts, h1, rfl⟩
    · have := ih (sizeOf u) (by subst h; simp; omega) u rfl t h1
      exact ⟨fun h => this.1 (by cases h; assumption), fun h => .opt (this.2 h)⟩
    · refine ⟨fun h => ?_, fun h => (nomatch h)⟩
      cases h
      exact (nomatch ho)
  | data n fs ver =>
    obtain ⟨t, _, rfl⟩ := mat_data hm
    exact ⟨fun _ => rfl, fun _ => .data⟩

/-- reading the lines of a type -/
structure Reads (st : List String) (d : Nat) (ls : List PLine) (In : List String → Fld → Prop) : Prop where
  stack : (finalStack st ls).take d = st.take d ∧ d ≤ (finalStack st ls).length
  sound : ∀ x ∈ readIndented st ls, ∃ p g, x.1 = st.take d ++ p ∧ In p g ∧ LineOf g x.2
  complete : ∀ p g, In p g → ∃ x ∈ readIndented st ls, x.1 = st.take d ++ p ∧ LineOf g x.2

theorem lineOf_schemaFld {f : Fld} {t : STy} (hm : materialize f.ty = .ok t) (d : Nat) (dv : Val) (hd : dv = (schemaDefault f.dflt).1) :
    LineOf f ⟨d, f.name, shownDefault t dv⟩ := by
  subst hd
  have hu := unwrap_struct f.ty t hm
  refine ⟨rfl, fun h => ?_, fun h dv => ?_⟩
  · have := hu.1 h
    simp only [shownDefault]
    split
    · rfl
    · rename_i hn
      cases hs : t.unwrap <;> rw [hs] at this <;> first | exact absurd hs (hn _ _ _) | exact (nomatch this)
  · have : ¬ t.unwrap.isStruct = true := fun h' => h (hu.2 h')
    simp only [shownDefault]
    split
    · rename_i hs
      rw [hs] at this
      exact absurd rfl this
    · split
      · rename_i he
        rw [he]
        exact ⟨fun h => (nomatch h), fun h => absurd h.1.symm h.2⟩
      · rename_i hne
        simp only [Option.some.injEq]
        exact ⟨fun h => ⟨h, fun hn => hne (h.trans hn)⟩, fun h => h.1⟩

/-- the fields below a list of fields -/
def FieldInF (fs : List Fld) (p : List String) (g : Fld) : Prop :=
  ∃ f ∈ fs, (p = [f.name] ∧ g = f) ∨ ∃ q, p = f.name :: q ∧ FieldIn f.ty q g

theorem fieldIn_data {n : String} {fs : List Fld} {ver : Option VerInfo} {p : List String} {g : Fld} :
    FieldIn (.data n fs ver) p g ↔ FieldInF fs p g := by
  constructor
  · intro h
    cases h with
    | here hf => exact ⟨_, hf, .inl ⟨rfl, rfl⟩⟩
    | there hf hi => exact ⟨_, hf, .inr ⟨_, rfl, hi⟩⟩
  · rintro ⟨f, hf, ⟨rfl, rfl⟩ | ⟨q, rfl, hi⟩⟩
    · exact .here hf
    · exact .there hf hi

theorem take_of_take {st st' : List String} {d : Nat} (h : st.take (d + 1) = st') : st.take d = st'.take d := by
  rw [← h, List.take_take]
  congr 1
  omega

/-- the lines of one field -/
theorem printS_reads {f : Fld} {t : STy} (hm : materialize f.ty = .ok t) (st : List String) (d : Nat) (hd : d ≤ st.length)
    (ih : ∀ st d, d ≤ st.length → Reads st d (printT d t) (FieldIn f.ty)) :
    Reads st d (printS d (schemaFld f t)) (FieldInF [f]) ∧
    ((∀ st d, d ≤ st.length → ((readIndented st (printT d t)).map Prod.fst).Nodup) →
      ((readIndented st (printS d (schemaFld f t))).map Prod.fst).Nodup) := by
  have hpr : printS d (schemaFld f t) = ⟨d, f.name, shownDefault t (schemaDefault f.dflt).1⟩ :: printT (d + 1) t := by
    obtain ⟨n, ty, df⟩ := f
    simp only [schemaFld, printS]
  have hlen : (st.take d ++ [f.name]).length = d + 1 := by simp; omega
  have r := ih (st.take d ++ [f.name]) (d + 1) (by omega)
  have hfull : (st.take d ++ [f.name]).take (d + 1) = st.take d ++ [f.name] := List.take_of_length_le (by omega)
  have hread : readIndented st (printS d (schemaFld f t)) =
      (st.take d ++ [f.name], ⟨d, f.name, shownDefault t (schemaDefault f.dflt).1⟩) ::
        readIndented (st.take d ++ [f.name]) (printT (d + 1) t) := by rw [hpr]; rfl
  have hfin : finalStack st (printS d (schemaFld f t)) = finalStack (st.take d ++ [f.name]) (printT (d + 1) t) := by rw [hpr]; rfl
  refine ⟨⟨?_, ?_, ?_⟩, ?_⟩
  · rw [hfin]
    refine ⟨?_, by have := r.stack.2; omega⟩
    rw [take_of_take (r.stack.1.trans hfull)]
    rw [List.take_append_of_le_length (by simp; omega), List.take_take]
    simp
  · rw [hread]
    intro x hx
    rcases List.mem_cons.1 hx with rfl | hx
    · exact ⟨[f.name], f, rfl, ⟨f, by simp, .inl ⟨rfl, rfl⟩⟩, lineOf_schemaFld hm d _ rfl⟩
    · obtain ⟨p, g, h1, h2, h3⟩ := r.sound x hx
      rw [hfull] at h1
      exact ⟨f.name :: p, g, by rw [h1]; simp, ⟨f, by simp, .inr ⟨p, rfl, h2⟩⟩, h3⟩
  · rw [hread]
    rintro p g ⟨f', hf', h⟩
    rw [List.mem_singleton] at hf'
    subst hf'
    rcases h with ⟨rfl, rfl⟩ | ⟨q, rfl, hi⟩
    · exact ⟨_, List.mem_cons_self .., rfl, lineOf_schemaFld hm d _ rfl⟩
    · obtain ⟨x, hx, h1, h2⟩ := r.complete q g hi
      rw [hfull] at h1
      exact ⟨x, List.mem_cons_of_mem _ hx, by rw [h1]; simp, h2⟩
  · intro hn
    rw [hread, List.map_cons, List.nodup_cons]
    refine ⟨?_, hn _ _ (by omega)⟩
    intro hmem
    obtain ⟨x, hx, he⟩ := List.mem_map.1 hmem
    obtain ⟨p, g, h1, h2, _⟩ := r.sound x hx
    rw [he, hfull] at h1
    have := h2.ne
    simp only [List.append_assoc, List.append_cancel_left_eq] at h1
    simp at h1
    exact this h1

theorem printF_reads : ∀ (fs : List Fld) (F : List (String × SFld)) (_ : materializeF fs = .ok F)
    (_ : ∀ f ∈ fs, ∀ t, materialize f.ty = .ok t → (∀ st d, d ≤ st.length → Reads st d (printT d t) (FieldIn f.ty)) ∧
      (DistinctTy f.ty → ∀ st d, d ≤ st.length → ((readIndented st (printT d t)).map Prod.fst).Nodup))
    (st : List String) (d : Nat), d ≤ st.length →
    Reads st d (printF d F) (FieldInF fs) ∧
      ((fs.map Fld.name).Nodup → DistinctTyF fs → ((readIndented st (printF d F)).map Prod.fst).Nodup)
  | [], F, h, _, st, d, hd => by
    simp only [materializeF] at h
    cases h
    refine ⟨⟨⟨rfl, hd⟩, ?_, ?_⟩, fun _ _ => by simp [printF, readIndented]⟩
    · intro x hx; exact (nomatch hx)
    · rintro p g ⟨f, hf, _⟩; exact (nomatch hf)
  | f :: fs, F, h, ih, st, d, hd => by
    obtain ⟨t, F', h1, h2, rfl⟩ := matF_cons h
    obtain ⟨ih1, ih2⟩ := ih f (by simp) t h1
    obtain ⟨a, a'⟩ := printS_reads h1 st d hd ih1
    have hst := a.stack
    obtain ⟨b, b'⟩ := printF_reads fs F' h2 (fun g hg => ih g (List.mem_cons_of_mem _ hg)) (finalStack st (printS d (schemaFld f t))) d hst.2
    have hpr : printF d ((f.name, schemaFld f t) :: F') = printS d (schemaFld f t) ++ printF d F' := by simp only [printF, printP]
    rw [hpr, readIndented_append]
    refine ⟨⟨?_, ?_, ?_⟩, ?_⟩
    · rw [finalStack_append]
      exact ⟨b.stack.1.trans hst.1, b.stack.2⟩
    · intro x hx
      rw [readIndented_append] at hx
      rcases List.mem_append.1 hx with hx | hx
      · obtain ⟨p, g, k1, ⟨f', hf', k2⟩, k3⟩ := a.sound x hx
        exact ⟨p, g, k1, ⟨f', by simp_all, k2⟩, k3⟩
      · obtain ⟨p, g, k1, ⟨f', hf', k2⟩, k3⟩ := b.sound x hx
        rw [hst.1] at k1
        exact ⟨p, g, k1, ⟨f', List.mem_cons_of_mem _ hf', k2⟩, k3⟩
    · rintro p g ⟨f', hf', k2⟩
      rw [readIndented_append]
      rcases List.mem_cons.1 hf' with rfl | hf'
      · obtain ⟨x, hx, k⟩ := a.complete p g ⟨f', by simp, k2⟩
        exact ⟨x, List.mem_append_left _ hx, k⟩
      · obtain ⟨x, hx, k⟩ := b.complete p g ⟨f', hf', k2⟩
        rw [hst.1] at k
        exact ⟨x, List.mem_append_right _ hx, k⟩
    · intro hn hdf
      simp only [DistinctTyF] at hdf
      simp only [List.map_cons, List.nodup_cons] at hn
      have hf : DistinctTy f.ty := by
        obtain ⟨n, ty, df⟩ := f
        simpa only [DistinctTyF1, Fld.ty] using hdf.1
      rw [List.map_append, List.nodup_append]
      refine ⟨a' (ih2 hf), b' hn.2 hdf.2, ?_⟩
      intro x hx y hy hxy
      obtain ⟨u, hu, rfl⟩ := List.mem_map.1 hx
      obtain ⟨w, hw, rfl⟩ := List.mem_map.1 hy
      obtain ⟨p, g, k1, ⟨f1, hf1, k2⟩, _⟩ := a.sound u hu
      obtain ⟨p', g', j1, ⟨f2, hf2, j2⟩, _⟩ := b.sound w hw
      rw [hst.1] at j1
      rw [k1, j1, List.append_cancel_left_eq] at hxy
      rw [List.mem_singleton] at hf1
      subst hf1
      have hx1 : p.head? = some f1.name := by rcases k2 with ⟨rfl, _⟩ | ⟨q, rfl, _⟩ <;> rfl
      have hx2 : p'.head? = some f2.name := by rcases j2 with ⟨rfl, _⟩ | ⟨q, rfl, _⟩ <;> rfl
      rw [hxy, hx2, Option.some.injEq] at hx1
      exact hn.1 (hx1 ▸ List.mem_map.2 ⟨f2, hf2, rfl⟩)

theorem printT_reads : ∀ (ty : PyTy) (s : STy), materialize ty = .ok s →
    (∀ st d, d ≤ st.length → Reads st d (printT d s) (FieldIn ty)) ∧
      (DistinctTy ty → ∀ st d, d ≤ st.length → ((readIndented st (printT d s)).map Prod.fst).Nodup) := by
  intro ty
  induction h : sizeOf ty using Nat.strongRecOn generalizing ty with
  | _ N ih =>
  intro s hm
  have hnil : ∀ {ty : PyTy} {s : STy}, (∀ d, printT d s = []) → (∀ p g, ¬ FieldIn ty p g) →
      (∀ st d, d ≤ st.length → Reads st d (printT d s) (FieldIn ty)) ∧
      (DistinctTy ty → ∀ st d, d ≤ st.length → ((readIndented st (printT d s)).map Prod.fst).Nodup) := by
    intro ty s hp hf
    refine ⟨fun st d hd => ?_, fun _ st d _ => by rw [hp]; simp [readIndented]⟩
    rw [hp]
    exact ⟨⟨rfl, hd⟩, fun x hx => (nomatch hx), fun p g h => absurd h (hf p g)⟩
  cases ty with
  | int => cases mat_int hm; exact hnil (fun d => by simp only [printT]) (fun p g h => nomatch h)
  | str => cases mat_str hm; exact hnil (fun d => by simp only [printT]) (fun p g h => nomatch h)
  | bool => cases mat_bool hm; exact hnil (fun d => by simp only [printT]) (fun p g h => nomatch h)
  | float => cases mat_float hm; exact hnil (fun d => by simp only [printT]) (fun p g h => nomatch h)
  | noneT => exact (mat_noneT hm).elim
  | blob n => exact (mat_blob hm).elim
  | enum n ms => cases mat_enum hm; exact hnil (fun d => by simp only [printT]) (fun p g h => nomatch h)
  | literal vs => cases mat_literal hm; exact hnil (fun d => by simp only [printT]) (fun p g h => nomatch h)
  | tuple as => obtain ⟨ts, _, rfl⟩ := mat_tuple hm; exact hnil (fun d => by simp only [printT]) (fun p g h => nomatch h)
  | dict k v =>
    obtain ⟨_, _, _, _, rfl⟩ := mat_dict hm
    exact hnil (fun d => by simp only [printT]) (fun p g h => nomatch h)
  | list a =>
    obtain ⟨t, h1, rfl⟩ := mat_list hm
    obtain ⟨r, r'⟩ := ih (sizeOf a) (by subst h; simp) a rfl t h1
    refine ⟨fun st d hd => ?_, fun hx st d hd => ?_⟩
    · have := r st d hd
      simp only [printT]
      exact ⟨this.stack, fun x hx => by obtain ⟨p, g, k1, k2, k3⟩ := this.sound x hx; exact ⟨p, g, k1, .list k2, k3⟩,
        fun p g hi => this.complete p g (by cases hi; assumption)⟩
    · simp only [printT]
      exact r' (by simpa only [DistinctTy] using hx) st d hd
  | union as =>
    rcases mat_union hm with ⟨u, t, rfl, h1, rfl⟩ | ⟨ho, ts, h1, rfl⟩
    · obtain ⟨r, r'⟩ := ih (sizeOf u) (by subst h; simp; omega) u rfl t h1
      refine ⟨fun st d hd => ?_, fun hx st d hd => ?_⟩
      · have := r st d hd
        simp only [printT]
        exact ⟨this.stack, fun x hx => by obtain ⟨p, g, k1, k2, k3⟩ := this.sound x hx; exact ⟨p, g, k1, .opt k2, k3⟩,
          fun p g hi => this.complete p g (by cases hi; assumption)⟩
      · simp only [printT]
        exact r' (by simpa only [DistinctTy, DistinctTyHd] using hx) st d hd
    · refine hnil (fun d => by simp only [printT]) (fun p g h => ?_)
      cases h
      exact (nomatch ho)
  | data n fs ver =>
    obtain ⟨F, h1, rfl⟩ := mat_data hm
    have hsz : ∀ f ∈ fs, sizeOf f.ty < N := by
      intro f hf
      have := List.sizeOf_lt_of_mem hf
      subst h
      obtain ⟨n', ty', d'⟩ := f
      simp only [Fld.ty, PyTy.data.sizeOf_spec, Fld.mk.sizeOf_spec] at this ⊢
      omega
    have key := printF_reads fs F h1 (fun f hf t ht => ih _ (hsz f hf) f.ty rfl t ht)
    refine ⟨fun st d hd => ?_, fun hx st d hd => ?_⟩
    · have := (key st d hd).1
      simp only [printT]
      exact ⟨this.stack, fun x hx => by obtain ⟨p, g, k1, k2, k3⟩ := this.sound x hx; exact ⟨p, g, k1, fieldIn_data.2 k2, k3⟩,
        fun p g hi => this.complete p g (fieldIn_data.1 hi)⟩
    · simp only [printT]
      simp only [DistinctTy] at hx
      exact (key st d hd).2 hx.1 hx.2

/-! ## C70 -/

/-- C70: `help` without a query prints, for every class, a listing which read by its indentation gives the paths of the fields of the class
and of all classes nested in it (also in lists and Optionals): each of them, nothing else, none twice. Each line shows the name of its
field and, for fields that have no fields themselves, the default that is recorded in the schema, unless that is None. -/
theorem C70_listing (lower : Char → String) (n : String) (fs : List Fld) (ver : Option VerInfo) (F : List (String × SFld))
    (hm : materializeF fs = .ok F) (hd : DistinctTy (.data n fs ver)) :
    ∃ lines, helpCmd lower (.data n fs ver) "" = .ok (.schema lines) ∧
      (∀ p g, FieldIn (.data n fs ver) p g → ∃ l, (p, l) ∈ readIndented [] lines ∧ LineOf g l) ∧
      (∀ p l, (p, l) ∈ readIndented [] lines → ∃ g, FieldIn (.data n fs ver) p g ∧ LineOf g l) ∧
      ((readIndented [] lines).map Prod.fst).Nodup := by
  have hmat : materialize (.data n fs ver) = .ok (.struct n F (ver.map VerInfo.version)) := by
    simp only [materialize, hm, bind, Except.bind, pure, Except.pure]
  obtain ⟨r, r'⟩ := printT_reads _ _ hmat
  have hr := r [] 0 (by simp)
  have hn := r' hd [] 0 (by simp)
  simp only [printT] at hr hn
  refine ⟨printF 0 F, ?_, ?_, ?_, hn⟩
  · simp only [helpCmd, hmat, bind, Except.bind, pure, Except.pure]
    rfl
  · intro p g hi
    obtain ⟨x, hx, h1, h2⟩ := hr.complete p g hi
    simp only [List.take_nil, List.nil_append] at h1
    subst h1
    exact ⟨x.2, hx, h2⟩
  · intro p l hx
    obtain ⟨q, g, h1, h2, h3⟩ := hr.sound _ hx
    simp only [List.take_nil, List.nil_append] at h1
    subst h1
    exact ⟨g, h2, h3⟩

namespace ExP

/-- `class Opt: lr: float = 0.5; betas: List[float]`, `class C: opts: List[Opt]; inner: Optional[Opt]; n: int` -/
def opt : PyTy := .data "Opt" [.mk "lr" .float (some (.flt (.fin (1/2)))), .mk "betas" (.list .float) .none] .none
def fs : List Fld := [.mk "opts" (.list opt) .none, .mk "inner" (.union [opt, .noneT]) (some .none), .mk "n" .int .none]

example : DistinctTy (.data "C" fs .none) := by
  simp [DistinctTy, DistinctTyF, DistinctTyF1, DistinctTyHd, fs, opt, Fld.name]

example : (match helpCmd Ex.lc (.data "C" fs .none) "" with
    | .ok (.schema ls) => (readIndented [] ls).map (fun x => (x.1, x.2.dflt.isSome))
    | _ => []) =
    [(["opts"], false), (["opts", "lr"], true), (["opts", "betas"], false), (["inner"], false), (["inner", "lr"], true),
     (["inner", "betas"], false), (["n"], false)] := by
  decide +kernel

example : FieldIn (.data "C" fs .none) ["opts", "lr"] (.mk "lr" .float (some (.flt (.fin (1/2))))) :=
  .there (f := .mk "opts" (.list opt) .none) (by simp [fs])
    (.list (.here (f := .mk "lr" .float (some (.flt (.fin (1/2))))) (List.mem_cons_self ..)))

end ExP

/-- C70 is false for the default None: the listing is the same for a field without default and for one with default None -/
theorem C70_none_false : ∃ (f g : Fld) (lines : List PLine), f.dflt = none ∧ g.dflt = some .none ∧
    helpCmd Ex.lc (.data "C" [f] .none) "" = .ok (.schema lines) ∧ helpCmd Ex.lc (.data "C" [g] .none) "" = .ok (.schema lines) :=
  ⟨.mk "x" (.union [.int, .noneT]) .none, .mk "x" (.union [.int, .noneT]) (some .none), [⟨0, "x", .none⟩], rfl, rfl, rfl, rfl⟩

end HS
