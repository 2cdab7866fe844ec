import Verif.Proofs.Serde
/-!
# Lemmas about the dataclass branch of `from_dict`
-/
namespace HS

/-- the dataclass branch on a dict, for a class without version -/
theorem fromDict_data_dict (c : DCfg) (n : String) (fs : List Fld) (ig : Bool) (path : String) (d : List (String × Val)) :
    fromDict c (.data n fs .none) ig path (.dict d)
      = (do
        let (kwargs, es) ← itemsLoop (fun k x => fdField c fs k (fieldPath path k) x) ig d
        let kvs ← fillFields kwargs fs
        return (.inst n kvs, es)) := by
  simp [fromDict, asRawDict, bind, Except.bind, pure, Except.pure]

theorem fdField_some_iff (c : DCfg) (k path : String) (v : Val) : ∀ fs : List Fld,
    (fdField c fs k path v).isSome = true ↔ ∃ f ∈ fs, f.name = k := by
  intro fs
  induction fs with
  | nil => simp [fdField]
  | cons g fs ih =>
    cases g with
    | mk n t d =>
      by_cases hn : n = k
      · simp [fdField, fdFld, hn, Fld.name]
      · simp [fdField, fdFld, hn, Fld.name] at ih ⊢; exact ih

theorem itemsLoop_keys {f : String → Val → Option Res} {ig : Bool} : ∀ {d kw es},
    itemsLoop f ig d = .ok (kw, es) → ∀ {k v}, (k, v) ∈ kw →
      k ≠ NAME_KEY ∧ ∃ x es', (k, x) ∈ d ∧ x.isWeak = false ∧ f k x = some (.ok (v, es')) := by
  intro d
  induction d with
  | nil => intro kw es h k v hm; simp [itemsLoop] at h; simp [h.1] at hm
  | cons a d ih =>
    obtain ⟨k0, x0⟩ := a
    intro kw es h k v hm
    simp only [itemsLoop] at h
    split at h
    · obtain ⟨h1, x, es', h2, h3⟩ := ih h hm
      exact ⟨h1, x, es', List.mem_cons_of_mem _ h2, h3⟩
    · split at h
      · obtain ⟨h1, x, es', h2, h3⟩ := ih h hm
        exact ⟨h1, x, es', List.mem_cons_of_mem _ h2, h3⟩
      · split at h
        · split at h
          · obtain ⟨h1, x, es', h2, h3⟩ := ih h hm
            exact ⟨h1, x, es', List.mem_cons_of_mem _ h2, h3⟩
          · simp at h
        · rename_i hk hw _ r hf
          simp only [bind, Except.bind] at h
          split at h
          · simp at h
          · rename_i wes
            obtain ⟨w, es0⟩ := wes
            split at h
            · simp at h
            · rename_i x hx
              obtain ⟨ws, es1⟩ := x
              simp only [pure, Except.pure, Except.ok.injEq, Prod.mk.injEq] at h
              obtain ⟨rfl, rfl⟩ := h
              rcases List.mem_cons.1 hm with hm | hm
              · cases hm
                exact ⟨hk, x0, es0, by simp, by simpa using hw, by simpa using hf⟩
              · obtain ⟨h1, x, es', h2, h3⟩ := ih hx hm
                exact ⟨h1, x, es', List.mem_cons_of_mem _ h2, h3⟩

/-- every entry that is not skipped ends up in the result -/
theorem itemsLoop_present {f : String → Val → Option Res} {ig : Bool} : ∀ {d kw es},
    itemsLoop f ig d = .ok (kw, es) → ∀ {k x}, (k, x) ∈ d → k ≠ NAME_KEY → x.isWeak = false → (f k x).isSome = true →
      ∃ v es', (k, v) ∈ kw ∧ f k x = some (.ok (v, es')) := by
  intro d
  induction d with
  | nil => intro kw es h k v hm; simp at hm
  | cons a d ih =>
    obtain ⟨k0, x0⟩ := a
    intro kw es h k x hm hk hw hf
    simp only [itemsLoop] at h
    rcases List.mem_cons.1 hm with hm | hm
    · cases hm
      rw [if_neg hk, if_neg (by simp [hw])] at h
      obtain ⟨r, hr⟩ := Option.isSome_iff_exists.1 hf
      simp only [hr, bind, Except.bind] at h
      cases r with
      | error e => simp at h
      | ok wes =>
        obtain ⟨w, es0⟩ := wes
        simp only at h
        split at h
        · simp at h
        · rename_i y hy
          simp only [pure, Except.pure, Except.ok.injEq, Prod.mk.injEq] at h
          obtain ⟨rfl, rfl⟩ := h
          exact ⟨w, es0, by simp, hr⟩
    · split at h
      · exact ih h hm hk hw hf
      · split at h
        · exact ih h hm hk hw hf
        · split at h
          · split at h
            · exact ih h hm hk hw hf
            · simp at h
          · simp only [bind, Except.bind] at h
            split at h
            · simp at h
            · split at h
              · simp at h
              · rename_i y hy
                simp only [pure, Except.pure, Except.ok.injEq, Prod.mk.injEq] at h
                obtain ⟨rfl, rfl⟩ := h
                obtain ⟨v, es', h1, h2⟩ := ih hy hm hk hw hf
                exact ⟨v, es', List.mem_cons_of_mem _ h1, h2⟩

theorem itemsLoop_nodup {f : String → Val → Option Res} {ig : Bool} : ∀ {d kw es},
    itemsLoop f ig d = .ok (kw, es) → (dkeys d).Nodup → (dkeys kw).Nodup := by
  intro d
  induction d with
  | nil => intro kw es h _; simp [itemsLoop] at h; simp [h.1, dkeys]
  | cons a d ih =>
    obtain ⟨k0, x0⟩ := a
    intro kw es h hn
    simp only [dkeys, List.map_cons, List.nodup_cons] at hn
    simp only [itemsLoop] at h
    split at h
    · exact ih h hn.2
    · split at h
      · exact ih h hn.2
      · split at h
        · split at h
          · exact ih h hn.2
          · simp at h
        · simp only [bind, Except.bind] at h
          split at h
          · simp at h
          · split at h
            · simp at h
            · rename_i y hy
              simp only [pure, Except.pure, Except.ok.injEq, Prod.mk.injEq] at h
              obtain ⟨rfl, rfl⟩ := h
              simp only [dkeys, List.map_cons, List.nodup_cons]
              refine ⟨?_, ih hy hn.2⟩
              intro hm
              obtain ⟨⟨k, v⟩, hkv, hke⟩ := List.mem_map.1 hm
              obtain ⟨_, x, _, hx, _⟩ := itemsLoop_keys hy hkv
              exact hn.1 (List.mem_map.2 ⟨(k, x), hx, hke⟩)

theorem fillFields_keys {kw : List (String × Val)} : ∀ {fs kvs}, fillFields kw fs = .ok kvs →
    dkeys kvs = fs.map Fld.name := by
  intro fs
  induction fs with
  | nil => intro kvs h; simp [fillFields] at h; simp [← h, dkeys]
  | cons f fs ih =>
    intro kvs h
    simp only [fillFields, bind, Except.bind] at h
    split at h
    · simp at h
    · split at h
      · simp at h
      · rename_i rest hrest
        simp only [pure, Except.pure, Except.ok.injEq] at h
        subst h
        simp only [dkeys, List.map_cons]
        congr 1
        exact ih hrest

theorem fillFields_value {kw : List (String × Val)} : ∀ {fs kvs}, fillFields kw fs = .ok kvs →
    (fs.map Fld.name).Nodup → ∀ f ∈ fs, ∃ v, dget kvs f.name = some v ∧ fieldValue kw f = .ok v := by
  intro fs
  induction fs with
  | nil => intro kvs _ _ f hf; simp at hf
  | cons g fs ih =>
    intro kvs h hn f hf
    simp only [fillFields, bind, Except.bind] at h
    split at h
    · simp at h
    · rename_i v hv
      split at h
      · simp at h
      · rename_i rest hrest
        simp only [pure, Except.pure, Except.ok.injEq] at h
        subst h
        simp only [List.map_cons, List.nodup_cons] at hn
        rcases List.mem_cons.1 hf with rfl | hf
        · exact ⟨v, by simp [dget], hv⟩
        · obtain ⟨w, h1, h2⟩ := ih hrest hn.2 f hf
          refine ⟨w, ?_, h2⟩
          have : g.name ≠ f.name := by
            intro e; exact hn.1 (List.mem_map.2 ⟨f, hf, e.symm⟩)
          simp [dget, this, h1]

theorem fillFields_ok_iff (kw : List (String × Val)) : ∀ fs : List Fld,
    (∃ kvs, fillFields kw fs = .ok kvs) ↔ ∀ f ∈ fs, ∃ v, fieldValue kw f = .ok v := by
  intro fs
  induction fs with
  | nil => simp [fillFields]
  | cons g fs ih =>
    simp only [fillFields]
    constructor
    · rintro ⟨kvs, h⟩
      simp only [bind, Except.bind] at h
      split at h
      · simp at h
      · rename_i v hv
        split at h
        · simp at h
        · rename_i rest hrest
          intro f hf
          rcases List.mem_cons.1 hf with rfl | hf
          · exact ⟨v, hv⟩
          · exact (ih.1 ⟨rest, hrest⟩) f hf
    · intro h
      obtain ⟨v, hv⟩ := h g (by simp)
      obtain ⟨rest, hrest⟩ := ih.2 (fun f hf => h f (List.mem_cons_of_mem _ hf))
      exact ⟨(g.name, v) :: rest, by simp [hv, hrest, bind, Except.bind, pure, Except.pure]⟩

theorem fillFields_error {kw : List (String × Val)} : ∀ {fs e}, fillFields kw fs = .error e → e = .typeError := by
  intro fs
  induction fs with
  | nil => intro e h; simp [fillFields] at h
  | cons g fs ih =>
    intro e h
    simp only [fillFields, bind, Except.bind] at h
    split at h
    · rename_i e' he
      simp only [Except.error.injEq] at h
      subst h
      simp only [fieldValue] at he
      split at he
      · simp at he
      · split at he
        · simp at he
        · split at he <;> simp_all
    · split at h
      · rename_i e' he
        simp only [Except.error.injEq] at h
        subst h
        exact ih he
      · simp [pure, Except.pure] at h

end HS
