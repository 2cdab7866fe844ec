import Verif.Model.Py
import Verif.Spec.Doc
namespace HS
variable {α : Type}

@[simp] theorem dget_nil (k : String) : dget ([] : List (String × α)) k = none := rfl

@[simp] theorem dget_dset_self (d : List (String × α)) (k : String) (v : α) : dget (dset d k v) k = some v := by
  induction d with
  | nil => simp [dset, dget]
  | cons e d ih =>
    obtain ⟨k', v'⟩ := e
    by_cases h : k' = k <;> simp [dset, dget, h, ih]

theorem dget_dset_ne (d : List (String × α)) {k q : String} (v : α) (h : k ≠ q) :
    dget (dset d k v) q = dget d q := by
  induction d with
  | nil => simp [dset, dget, h]
  | cons e d ih =>
    obtain ⟨k', v'⟩ := e
    by_cases h1 : k' = k
    · subst h1; simp [dset, dget, h]
    · simp [dset, dget, h1, ih]

@[simp] theorem dget_ddel_self (d : List (String × α)) (k : String) : dget (ddel d k) k = none := by
  induction d with
  | nil => rfl
  | cons e d ih =>
    obtain ⟨k', v'⟩ := e
    by_cases h : k' = k <;> simp [ddel, dget, h, ih]

theorem dget_ddel_ne (d : List (String × α)) {k q : String} (h : k ≠ q) : dget (ddel d k) q = dget d q := by
  induction d with
  | nil => rfl
  | cons e d ih =>
    obtain ⟨k', v'⟩ := e
    by_cases h1 : k' = k
    · subst h1; simp [ddel, dget, h, ih]
    · simp [ddel, dget, h1, ih]

theorem dhas_iff (d : List (String × α)) (k : String) : dhas d k = true ↔ ∃ v, dget d k = some v := by
  simp [dhas, Option.isSome_iff_exists]

theorem dhas_false (d : List (String × α)) (k : String) : dhas d k = false ↔ dget d k = none := by
  simp [dhas]

theorem dget_eq_none_iff (d : List (String × α)) (k : String) : dget d k = none ↔ k ∉ dkeys d := by
  induction d with
  | nil => simp [dkeys]
  | cons e d ih =>
    obtain ⟨k', v'⟩ := e
    by_cases h : k' = k
    · simp [dget, dkeys, h]
    · have h' : k ≠ k' := fun e => h e.symm
      simp only [dget, h, if_false, ih, dkeys, List.map_cons, List.mem_cons, h', false_or]

theorem dget_mem {d : List (String × α)} {k : String} {v : α} (h : dget d k = some v) : (k, v) ∈ d := by
  induction d with
  | nil => simp at h
  | cons e d ih =>
    obtain ⟨k', v'⟩ := e
    by_cases h1 : k' = k
    · simp [dget, h1] at h; subst h; subst h1; exact List.mem_cons_self
    · simp [dget, h1] at h; exact List.mem_cons_of_mem _ (ih h)

theorem dget_of_mem {d : List (String × α)} {k : String} {v : α} (hn : (dkeys d).Nodup) (h : (k, v) ∈ d) :
    dget d k = some v := by
  induction d with
  | nil => simp at h
  | cons e d ih =>
    obtain ⟨k', v'⟩ := e
    simp only [dkeys, List.map_cons, List.nodup_cons] at hn
    rcases List.mem_cons.1 h with h | h
    · cases h; simp [dget]
    · have : k' ≠ k := by
        rintro rfl
        exact hn.1 (List.mem_map.2 ⟨(k', v), h, rfl⟩)
      simp [dget, this, ih hn.2 h]

@[simp] theorem dget_append (d e : List (String × α)) (k : String) :
    dget (d ++ e) k = (dget d k).or (dget e k) := by
  induction d with
  | nil => simp
  | cons x d ih =>
    obtain ⟨k', v'⟩ := x
    by_cases h : k' = k <;> simp [dget, h, ih]

theorem dget_map_snd {β : Type} (f : String → α → β) (d : List (String × α)) (k : String) :
    dget (d.map (fun e => (e.1, f e.1 e.2))) k = (dget d k).map (f k) := by
  induction d with
  | nil => rfl
  | cons x d ih =>
    obtain ⟨k', v'⟩ := x
    by_cases h : k' = k
    · subst h; simp [dget]
    · simp [dget, h, ih]

theorem ddel_not_mem (d : List (String × α)) (k : String) (h : dget d k = none) : ddel d k = d := by
  induction d with
  | nil => rfl
  | cons x d ih =>
    obtain ⟨k', v'⟩ := x
    by_cases h1 : k' = k
    · simp [dget, h1] at h
    · simp [dget, h1] at h; simp [ddel, h1, ih h]

/-! `at?` -/

@[simp] theorem at?_nil (v : Val) : v.at? [] = some v := by cases v <;> rfl

@[simp] theorem at?_dict_cons (d : List (String × Val)) (k : String) (ks : List String) :
    (Val.dict d).at? (k :: ks) = (dget d k).bind (fun c => c.at? ks) := rfl

theorem at?_cons_of_not_dict (v : Val) (h : v.isDict = false) (k : String) (ks : List String) :
    v.at? (k :: ks) = none := by
  cases v <;> first | rfl | simp [Val.isDict] at h

theorem at?_append (v : Val) (p q : List String) : v.at? (p ++ q) = (v.at? p).bind (fun c => c.at? q) := by
  induction p generalizing v with
  | nil => simp
  | cons k ks ih =>
    cases hd : v.isDict
    · simp [at?_cons_of_not_dict v hd]
    · cases v <;> simp_all [Val.isDict]
      rename_i d
      cases dget d k
      · rfl
      · rfl

theorem isDict_iff (v : Val) : v.isDict = true ↔ ∃ d, v = .dict d := by
  cases v <;> simp [Val.isDict]

theorem nodup_dset : ∀ (d : List (String × α)) (k : String) (v : α), (dkeys d).Nodup → (dkeys (dset d k v)).Nodup := by
  intro d
  induction d with
  | nil => intro k v _; simp [dset, dkeys]
  | cons a d ih =>
    intro k v h
    simp only [dkeys, List.map_cons, List.nodup_cons] at h
    simp only [dset]
    split
    · rename_i e
      simp only [dkeys, List.map_cons, List.nodup_cons]
      exact ⟨by rw [← e]; exact h.1, h.2⟩
    · rename_i hne
      simp only [dkeys, List.map_cons, List.nodup_cons]
      refine ⟨?_, ih k v h.2⟩
      intro hm
      obtain ⟨x, hx, hxe⟩ := List.mem_map.1 hm
      have : ∀ (d : List (String × α)) (x : String × α), x ∈ dset d k v → x.1 = k ∨ x ∈ d := by
        intro d
        induction d with
        | nil => intro x hx; simp [dset] at hx; subst hx; exact Or.inl rfl
        | cons b d ih =>
          intro x hx
          simp only [dset] at hx
          split at hx
          · rcases List.mem_cons.1 hx with rfl | hx
            · exact Or.inl rfl
            · exact Or.inr (List.mem_cons_of_mem _ hx)
          · rcases List.mem_cons.1 hx with rfl | hx
            · exact Or.inr (by simp)
            · exact (ih x hx).imp id (List.mem_cons_of_mem _)
      rcases this d x hx with h' | h'
      · exact hne (by rw [← hxe, h'])
      · exact h.1 (List.mem_map.2 ⟨x, h', hxe⟩)

theorem nodup_ddel (d : List (String × α)) (k : String) (h : (dkeys d).Nodup) : (dkeys (ddel d k)).Nodup := by
  have hs : ∀ d : List (String × α), (dkeys (ddel d k)).Sublist (dkeys d) := by
    intro d
    induction d with
    | nil => exact List.Sublist.refl _
    | cons e d ih =>
      obtain ⟨k', v⟩ := e
      simp only [ddel]
      split
      · exact ih.cons _
      · exact ih.cons_cons _
  exact h.sublist (hs d)

end HS
