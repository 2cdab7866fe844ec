import Verif.Spec.Diff
import Verif.Proofs.Dict
/-!
# Lemmas on `_find_changes`
-/
namespace HS

/-- leaves of the struct field `(k, f)` -/
def LeafAt (k : String) (f : SFld) (r : List String) (g : SFld) : Prop :=
  (r = [k] ∧ g = f ∧ f.type.isStruct = false) ∨ ∃ r', r = k :: r' ∧ Leaf f.type r' g

theorem leaf_struct {n : String} {fs : List (String × SFld)} {v : Option Int} {r : List String} {g : SFld} :
    Leaf (.struct n fs v) r g ↔ ∃ k f, (k, f) ∈ fs ∧ LeafAt k f r g := by
  constructor
  · rintro ⟨h, hl⟩
    cases h with
    | here hm => exact ⟨_, _, hm, .inl ⟨rfl, rfl, hl⟩⟩
    | under hm hn => exact ⟨_, _, hm, .inr ⟨_, rfl, hn, hl⟩⟩
  · rintro ⟨k, f, hm, h | ⟨r', rfl, hn, hl⟩⟩
    · obtain ⟨rfl, rfl, hl⟩ := h
      exact ⟨.here hm, hl⟩
    · exact ⟨.under hm hn, hl⟩

theorem leaf_isStruct {s : STy} {r : List String} {g : SFld} (h : Leaf s r g) : s.isStruct = true := by
  cases h.1 <;> rfl

theorem node_isStruct {s : STy} {r : List String} {g : SFld} (h : Node s r g) : s.isStruct = true := by
  cases h <;> rfl

theorem leaf_ne_nil {s : STy} {g : SFld} (h : Leaf s [] g) : False := by cases h.1

theorem node_ne_nil {s : STy} {g : SFld} (h : Node s [] g) : False := by cases h

mutual
theorem allNew_iff : ∀ (s : STy) (path : List String) (c : Change),
    c ∈ allNew path s ↔ ∃ r g, Leaf s r g ∧ c = .fieldAdded (path ++ r) g.type g.dflt g.hasDefault
  | .struct n fs v, path, c => by
    rw [allNew, allNewF_iff fs path c]
    constructor
    · rintro ⟨k, f, hm, r, g, hl, rfl⟩
      exact ⟨r, g, leaf_struct.2 ⟨k, f, hm, hl⟩, rfl⟩
    · rintro ⟨r, g, hl, rfl⟩
      obtain ⟨k, f, hm, hl⟩ := leaf_struct.1 hl
      exact ⟨k, f, hm, r, g, hl, rfl⟩
  | .prim _, path, c => by simp only [allNew, List.not_mem_nil, false_iff]; rintro ⟨r, g, h, _⟩; cases h.1
  | .list _, path, c => by simp only [allNew, List.not_mem_nil, false_iff]; rintro ⟨r, g, h, _⟩; cases h.1
  | .tuple _, path, c => by simp only [allNew, List.not_mem_nil, false_iff]; rintro ⟨r, g, h, _⟩; cases h.1
  | .dict _ _, path, c => by simp only [allNew, List.not_mem_nil, false_iff]; rintro ⟨r, g, h, _⟩; cases h.1
  | .union _, path, c => by simp only [allNew, List.not_mem_nil, false_iff]; rintro ⟨r, g, h, _⟩; cases h.1
  | .enum _ _, path, c => by simp only [allNew, List.not_mem_nil, false_iff]; rintro ⟨r, g, h, _⟩; cases h.1
  | .literal _, path, c => by simp only [allNew, List.not_mem_nil, false_iff]; rintro ⟨r, g, h, _⟩; cases h.1
  | .option _, path, c => by simp only [allNew, List.not_mem_nil, false_iff]; rintro ⟨r, g, h, _⟩; cases h.1
  | .nothing, path, c => by simp only [allNew, List.not_mem_nil, false_iff]; rintro ⟨r, g, h, _⟩; cases h.1
termination_by structural x => x
theorem allNewF_iff : ∀ (fs : List (String × SFld)) (path : List String) (c : Change),
    c ∈ allNewF path fs ↔ ∃ k f, (k, f) ∈ fs ∧ ∃ r g, LeafAt k f r g ∧ c = .fieldAdded (path ++ r) g.type g.dflt g.hasDefault
  | [], path, c => by simp [allNewF]
  | e :: fs, path, c => by
    rw [allNewF, List.mem_append, allNewF_iff fs path c, allNewP_iff e path c]
    constructor
    · rintro (h | ⟨k, f, hm, h⟩)
      · exact ⟨e.1, e.2, by simp, h⟩
      · exact ⟨k, f, by simp [hm], h⟩
    · rintro ⟨k, f, hm, h⟩
      rcases List.mem_cons.1 hm with rfl | hm
      · exact .inl h
      · exact .inr ⟨k, f, hm, h⟩
termination_by structural x => x
theorem allNewP_iff : ∀ (e : String × SFld) (path : List String) (c : Change),
    c ∈ allNewP path e ↔ ∃ r g, LeafAt e.1 e.2 r g ∧ c = .fieldAdded (path ++ r) g.type g.dflt g.hasDefault
  | (k, f), path, c => by
    rw [allNewP]; exact allNewS_iff f k path c
termination_by structural x => x
theorem allNewS_iff : ∀ (f : SFld) (k : String) (path : List String) (c : Change),
    c ∈ allNewS path k f ↔ ∃ r g, LeafAt k f r g ∧ c = .fieldAdded (path ++ r) g.type g.dflt g.hasDefault
  | .mk nm t d h doc, k, path, c => by
    have ih := allNew_iff t (path ++ [k]) c
    rw [allNewS]
    cases ht : t.isStruct with
    | true =>
      rw [if_pos rfl, ih]
      constructor
      · rintro ⟨r, g, hl, rfl⟩
        exact ⟨k :: r, g, .inr ⟨r, rfl, hl⟩, by simp⟩
      · rintro ⟨r, g, h1 | ⟨r', rfl, hl⟩, rfl⟩
        · have := h1.2.2
          simp only [SFld.type] at this
          rw [ht] at this
          exact (nomatch this)
        · exact ⟨r', g, hl, by simp⟩
    | false =>
      rw [if_neg (by simp)]
      simp only [List.mem_singleton]
      constructor
      · rintro rfl
        exact ⟨[k], _, .inl ⟨rfl, rfl, ht⟩, rfl⟩
      · rintro ⟨r, g, h1 | ⟨r', rfl, hl⟩, rfl⟩
        · obtain ⟨rfl, rfl, _⟩ := h1
          rfl
        · have := leaf_isStruct hl
          simp only [SFld.type] at this
          rw [ht] at this
          exact (nomatch this)
termination_by structural x => x
end

mutual
theorem allGone_iff : ∀ (s : STy) (path : List String) (c : Change),
    c ∈ allGone path s ↔ ∃ r g, Leaf s r g ∧ c = .fieldRemoved (path ++ r) g.type g.dflt g.hasDefault
  | .struct n fs v, path, c => by
    rw [allGone, allGoneF_iff fs path c]
    constructor
    · rintro ⟨k, f, hm, r, g, hl, rfl⟩
      exact ⟨r, g, leaf_struct.2 ⟨k, f, hm, hl⟩, rfl⟩
    · rintro ⟨r, g, hl, rfl⟩
      obtain ⟨k, f, hm, hl⟩ := leaf_struct.1 hl
      exact ⟨k, f, hm, r, g, hl, rfl⟩
  | .prim _, path, c => by simp only [allGone, List.not_mem_nil, false_iff]; rintro ⟨r, g, h, _⟩; cases h.1
  | .list _, path, c => by simp only [allGone, List.not_mem_nil, false_iff]; rintro ⟨r, g, h, _⟩; cases h.1
  | .tuple _, path, c => by simp only [allGone, List.not_mem_nil, false_iff]; rintro ⟨r, g, h, _⟩; cases h.1
  | .dict _ _, path, c => by simp only [allGone, List.not_mem_nil, false_iff]; rintro ⟨r, g, h, _⟩; cases h.1
  | .union _, path, c => by simp only [allGone, List.not_mem_nil, false_iff]; rintro ⟨r, g, h, _⟩; cases h.1
  | .enum _ _, path, c => by simp only [allGone, List.not_mem_nil, false_iff]; rintro ⟨r, g, h, _⟩; cases h.1
  | .literal _, path, c => by simp only [allGone, List.not_mem_nil, false_iff]; rintro ⟨r, g, h, _⟩; cases h.1
  | .option _, path, c => by simp only [allGone, List.not_mem_nil, false_iff]; rintro ⟨r, g, h, _⟩; cases h.1
  | .nothing, path, c => by simp only [allGone, List.not_mem_nil, false_iff]; rintro ⟨r, g, h, _⟩; cases h.1
termination_by structural x => x
theorem allGoneF_iff : ∀ (fs : List (String × SFld)) (path : List String) (c : Change),
    c ∈ allGoneF path fs ↔ ∃ k f, (k, f) ∈ fs ∧ ∃ r g, LeafAt k f r g ∧ c = .fieldRemoved (path ++ r) g.type g.dflt g.hasDefault
  | [], path, c => by simp [allGoneF]
  | e :: fs, path, c => by
    rw [allGoneF, List.mem_append, allGoneF_iff fs path c, allGoneP_iff e path c]
    constructor
    · rintro (h | ⟨k, f, hm, h⟩)
      · exact ⟨e.1, e.2, by simp, h⟩
      · exact ⟨k, f, by simp [hm], h⟩
    · rintro ⟨k, f, hm, h⟩
      rcases List.mem_cons.1 hm with rfl | hm
      · exact .inl h
      · exact .inr ⟨k, f, hm, h⟩
termination_by structural x => x
theorem allGoneP_iff : ∀ (e : String × SFld) (path : List String) (c : Change),
    c ∈ allGoneP path e ↔ ∃ r g, LeafAt e.1 e.2 r g ∧ c = .fieldRemoved (path ++ r) g.type g.dflt g.hasDefault
  | (k, f), path, c => by
    rw [allGoneP]; exact allGoneS_iff f k path c
termination_by structural x => x
theorem allGoneS_iff : ∀ (f : SFld) (k : String) (path : List String) (c : Change),
    c ∈ allGoneS path k f ↔ ∃ r g, LeafAt k f r g ∧ c = .fieldRemoved (path ++ r) g.type g.dflt g.hasDefault
  | .mk nm t d h doc, k, path, c => by
    have ih := allGone_iff t (path ++ [k]) c
    rw [allGoneS]
    cases ht : t.isStruct with
    | true =>
      rw [if_pos rfl, ih]
      constructor
      · rintro ⟨r, g, hl, rfl⟩
        exact ⟨k :: r, g, .inr ⟨r, rfl, hl⟩, by simp⟩
      · rintro ⟨r, g, h1 | ⟨r', rfl, hl⟩, rfl⟩
        · have := h1.2.2
          simp only [SFld.type] at this
          rw [ht] at this
          exact (nomatch this)
        · exact ⟨r', g, hl, by simp⟩
    | false =>
      rw [if_neg (by simp)]
      simp only [List.mem_singleton]
      constructor
      · rintro rfl
        exact ⟨[k], _, .inl ⟨rfl, rfl, ht⟩, rfl⟩
      · rintro ⟨r, g, h1 | ⟨r', rfl, hl⟩, rfl⟩
        · obtain ⟨rfl, rfl, _⟩ := h1
          rfl
        · have := leaf_isStruct hl
          simp only [SFld.type] at this
          rw [ht] at this
          exact (nomatch this)
termination_by structural x => x
end

theorem removedFields_iff (path : List String) (news olds : List (String × SFld)) (c : Change) :
    c ∈ removedFields path news olds ↔ ∃ k f, (k, f) ∈ olds ∧ dhas news k = false ∧ c ∈ allGoneS path k f := by
  induction olds with
  | nil => simp [removedFields]
  | cons e olds ih =>
    obtain ⟨k, f⟩ := e
    rw [removedFields, List.mem_append, ih]
    constructor
    · rintro (h | ⟨k', f', hm, h⟩)
      · split at h
        · exact (nomatch h)
        · rename_i hd
          exact ⟨k, f, by simp, by simpa using hd, h⟩
      · exact ⟨k', f', by simp [hm], h⟩
    · rintro ⟨k', f', hm, hd, h⟩
      rcases List.mem_cons.1 hm with he | hm
      · cases he
        left
        rw [hd]
        exact h
      · exact .inr ⟨k', f', hm, hd, h⟩

theorem findFields_iff (path : List String) (olds fs : List (String × SFld)) (cs : List Change)
    (h : findFields path olds fs = .ok cs) (c : Change) :
    c ∈ cs ↔ ∃ k f cs1, (k, f) ∈ fs ∧ findField1 path olds k f = .ok cs1 ∧ c ∈ cs1 := by
  induction fs generalizing cs with
  | nil => cases h; simp
  | cons e fs ih =>
    obtain ⟨k, f⟩ := e
    simp only [findFields, findFieldP, bind, Except.bind, pure, Except.pure] at h
    cases h1 : findField1 path olds k f with
    | error e => rw [h1] at h; exact (nomatch h)
    | ok cs1 =>
      rw [h1] at h
      cases h2 : findFields path olds fs with
      | error e => rw [h2] at h; exact (nomatch h)
      | ok cs2 =>
        rw [h2] at h
        cases h
        rw [List.mem_append, ih cs2 h2]
        constructor
        · rintro (h | ⟨k', f', cs', hm, h⟩)
          · exact ⟨k, f, cs1, by simp, h1, h⟩
          · exact ⟨k', f', cs', by simp [hm], h⟩
        · rintro ⟨k', f', cs', hm, h3, h⟩
          rcases List.mem_cons.1 hm with he | hm
          · cases he
            rw [h1] at h3
            cases h3
            exact .inl h
          · exact .inr ⟨k', f', cs', hm, h3, h⟩

/-- all the fields have been compared -/
theorem findFields_ok (path : List String) (olds fs : List (String × SFld)) :
    (∃ cs, findFields path olds fs = .ok cs) ↔ ∀ k f, (k, f) ∈ fs → ∃ cs1, findField1 path olds k f = .ok cs1 := by
  induction fs with
  | nil => simp [findFields]
  | cons e fs ih =>
    obtain ⟨k, f⟩ := e
    simp only [findFields, findFieldP, bind, Except.bind, pure, Except.pure]
    constructor
    · rintro ⟨cs, h⟩ k' f' hm
      cases h1 : findField1 path olds k f with
      | error e => rw [h1] at h; exact (nomatch h)
      | ok cs1 =>
        rw [h1] at h
        cases h2 : findFields path olds fs with
        | error e => rw [h2] at h; exact (nomatch h)
        | ok cs2 =>
          rcases List.mem_cons.1 hm with he | hm
          · cases he; exact ⟨_, h1⟩
          · exact ih.1 ⟨_, h2⟩ k' f' hm
    · intro h
      obtain ⟨cs1, h1⟩ := h k f (by simp)
      obtain ⟨cs2, h2⟩ := ih.2 (fun k' f' hm => h k' f' (by simp [hm]))
      exact ⟨cs1 ++ cs2, by rw [h1, h2]⟩

/-! ## looking up fields -/

theorem dget_none_iff {β : Type} {fs : List (String × β)} {k : String} : dget fs k = .none ↔ ∀ f, (k, f) ∉ fs := by
  induction fs with
  | nil => simp [dget]
  | cons e fs ih =>
    obtain ⟨k', g⟩ := e
    simp only [dget]
    by_cases hk : k' = k
    · subst hk
      simp only [if_true]
      constructor
      · intro h; exact (nomatch h)
      · intro h; exact absurd (by simp) (h g)
    · rw [if_neg hk]
      simp only [List.mem_cons, Prod.mk.injEq, not_or]
      rw [ih]
      constructor
      · exact fun h f => ⟨fun hh => hk hh.1.symm, h f⟩
      · exact fun h f => (h f).2

theorem mem_unique {β : Type} {fs : List (String × β)} {k : String} {f g : β} (hn : (fs.map Prod.fst).Nodup) (h : (k, f) ∈ fs)
    (h' : (k, g) ∈ fs) : f = g := by
  have h1 := dget_of_mem hn h
  have h2 := dget_of_mem hn h'
  rw [h1] at h2
  exact Option.some.inj h2

theorem dhas_false_iff {β : Type} {fs : List (String × β)} {k : String} : dhas fs k = false ↔ dget fs k = .none := by
  unfold dhas
  cases dget fs k <;> simp

/-- a leaf below a given key -/
theorem leafAt_of_mem {n : String} {fs : List (String × SFld)} {v : Option Int} (hn : (fs.map Prod.fst).Nodup) {k : String}
    {f : SFld} (h : (k, f) ∈ fs) {r : List String} {g : SFld} (hl : Leaf (.struct n fs v) (k :: r) g) : LeafAt k f (k :: r) g := by
  obtain ⟨k', f', hm, hl⟩ := leaf_struct.1 hl
  have : k' = k := by
    rcases hl with h1 | ⟨r', h1, _⟩
    · simp only [List.cons.injEq] at h1; exact h1.1.1.symm
    · simp only [List.cons.injEq] at h1; exact h1.1.symm
  subst this
  rw [mem_unique hn h hm]
  exact hl

theorem node_at {n : String} {fs : List (String × SFld)} {v : Option Int} (hn : (fs.map Prod.fst).Nodup) {k : String}
    {f : SFld} (h : (k, f) ∈ fs) {r : List String} {g : SFld} (hl : Node (.struct n fs v) (k :: r) g) :
    (r = [] ∧ g = f) ∨ Node f.type r g := by
  cases hl with
  | here hm => exact .inl ⟨rfl, mem_unique hn hm h⟩
  | under hm hn' => rw [mem_unique hn h hm]; exact .inr hn'

/-! ## inversion -/

theorem twin_inv {old new o n : STy} {q : List String} (h : Twin old new q o n) :
    (q = [] ∧ o = old ∧ n = new) ∨ (∃ a b, old = .list a ∧ new = .list b ∧ Twin a b q o n) ∨
    (∃ a b, old = .option a ∧ new = .option b ∧ Twin a b q o n) ∨
    (∃ p f g q', q = p ++ q' ∧ Leaf old p f ∧ Leaf new p g ∧ Twin f.type g.type q' o n) := by
  cases h with
  | root => exact .inl ⟨rfl, rfl, rfl⟩
  | list h => exact .inr (.inl ⟨_, _, rfl, rfl, h⟩)
  | option h => exact .inr (.inr (.inl ⟨_, _, rfl, rfl, h⟩))
  | leaf h1 h2 h3 => exact .inr (.inr (.inr ⟨_, _, _, _, rfl, h1, h2, h3⟩))

theorem kind_struct {t : STy} (h : t.isStruct = true) : t.kind = 7 := by
  cases t <;> first | rfl | exact (nomatch h)

theorem local_kind_ne {q : List String} {o n : STy} {c : Change} (hk : o.kind ≠ n.kind) (h : Local q o n c) :
    c = .typeChanged q o n := by
  cases h with
  | added h1 h2 _ => exact absurd (by rw [kind_struct h1, kind_struct (leaf_isStruct h2)]) hk
  | removed h1 h2 _ => exact absurd (by rw [kind_struct h1, kind_struct (leaf_isStruct h2)]) hk
  | defaultRemoved h1 h2 => exact absurd (by rw [kind_struct (node_isStruct h1), kind_struct (node_isStruct h2)]) hk
  | defaultChanged h1 h2 => exact absurd (by rw [kind_struct (node_isStruct h1), kind_struct (node_isStruct h2)]) hk
  | kind _ => rfl
  | _ => exact absurd rfl hk

theorem twin_kind_ne {old new o n : STy} {q : List String} (hk : old.kind ≠ new.kind) (h : Twin old new q o n) :
    q = [] ∧ o = old ∧ n = new := by
  rcases twin_inv h with h | ⟨a, b, rfl, rfl, _⟩ | ⟨a, b, rfl, rfl, _⟩ | ⟨p, f, g, q', _, h1, h2, _⟩
  · exact h
  · exact absurd rfl hk
  · exact absurd rfl hk
  · exact absurd (by rw [kind_struct (leaf_isStruct h1), kind_struct (leaf_isStruct h2)]) hk

/-- the characterization for a pair of different classes -/
theorem diff_kind_ne {old new : STy} (path : List String) (hk : old.kind ≠ new.kind) (c : Change) :
    c ∈ [Change.typeChanged path old new] ↔ ∃ q o n, Twin old new q o n ∧ Local (path ++ q) o n c := by
  simp only [List.mem_singleton]
  constructor
  · rintro rfl
    exact ⟨[], old, new, .root, by rw [List.append_nil]; exact .kind hk⟩
  · rintro ⟨q, o, n, ht, hl⟩
    obtain ⟨rfl, rfl, rfl⟩ := twin_kind_ne hk ht
    rw [List.append_nil] at hl
    exact local_kind_ne hk hl

/-- pairs that are not lists, Optionals or structs have no twins below them -/
theorem diff_flat {old new : STy} (path : List String) (h1 : new.kind ≠ 1) (h7 : new.kind ≠ 7) (h8 : new.kind ≠ 8)
    (cs : List Change) (hl : ∀ c, c ∈ cs ↔ Local path old new c) (c : Change) :
    c ∈ cs ↔ ∃ q o n, Twin old new q o n ∧ Local (path ++ q) o n c := by
  rw [hl c]
  constructor
  · intro h
    exact ⟨[], old, new, .root, by rw [List.append_nil]; exact h⟩
  · rintro ⟨q, o, n, ht, hl'⟩
    rcases twin_inv ht with ⟨rfl, rfl, rfl⟩ | ⟨a, b, rfl, rfl, _⟩ | ⟨a, b, rfl, rfl, _⟩ | ⟨p, f, g, q', _, h1, h2, _⟩
    · rw [List.append_nil] at hl'; exact hl'
    · exact absurd rfl h1
    · exact absurd rfl h8
    · exact absurd (kind_struct (leaf_isStruct h2)) h7

theorem local_prim {q : List String} {a b : String} {c : Change} :
    Local q (.prim a) (.prim b) c ↔ a ≠ b ∧ c = .typeChanged q (.prim a) (.prim b) := by
  constructor
  · intro h
    cases h with
    | added h1 h2 _ => exact (nomatch h1)
    | removed h1 h2 _ => exact (nomatch h1)
    | defaultRemoved h1 h2 => cases h1
    | defaultChanged h1 h2 => cases h1
    | kind h => exact absurd rfl h
    | prim h => exact ⟨h, rfl⟩
  · rintro ⟨h, rfl⟩
    exact .prim h

theorem local_list {q : List String} {a b : STy} {c : Change} : ¬ Local q (.list a) (.list b) c := by
  intro h
  cases h with
  | added h1 h2 _ => exact (nomatch h1)
  | removed h1 h2 _ => exact (nomatch h1)
  | defaultRemoved h1 h2 => cases h1
  | defaultChanged h1 h2 => cases h1
  | kind h => exact absurd rfl h

theorem local_option {q : List String} {a b : STy} {c : Change} : ¬ Local q (.option a) (.option b) c := by
  intro h
  cases h with
  | added h1 h2 _ => exact (nomatch h1)
  | removed h1 h2 _ => exact (nomatch h1)
  | defaultRemoved h1 h2 => cases h1
  | defaultChanged h1 h2 => cases h1
  | kind h => exact absurd rfl h

theorem dget_none_mem {β : Type} {fs : List (String × β)} {k : String} : dget fs k = .none ↔ k ∉ fs.map Prod.fst :=
  dget_eq_none_iff fs k

theorem local_enum {q : List String} {on nn : String} {ovs nvs : List (String × Val)} {c : Change} :
    c ∈ enumChanges q nn ovs nvs ↔ Local q (.enum on ovs) (.enum nn nvs) c := by
  unfold enumChanges
  simp only [List.mem_append, List.mem_flatMap]
  constructor
  · rintro (⟨kv, hm, h⟩ | ⟨kv, hm, h⟩)
    · split at h
      · rename_i hd
        simp only [List.mem_singleton] at h
        subst h
        exact .variantAdded hm (dget_none_mem.1 hd)
      · rename_i w hd
        split at h
        · exact (nomatch h)
        · rename_i he
          simp only [List.mem_singleton] at h
          subst h
          exact .variantChanged hm hd (by simpa using he)
    · split at h
      · exact (nomatch h)
      · rename_i hd
        simp only [List.mem_singleton] at h
        subst h
        refine .variantRemoved hm (dget_none_mem.1 (dhas_false_iff.1 ?_))
        simpa using hd
  · intro h
    cases h with
    | added h1 h2 _ => exact (nomatch h1)
    | removed h1 h2 _ => exact (nomatch h1)
    | defaultRemoved h1 h2 => cases h1
    | defaultChanged h1 h2 => cases h1
    | kind h => exact absurd rfl h
    | variantAdded hm hk =>
      refine .inl ⟨_, hm, ?_⟩
      rw [dget_none_mem.2 hk]
      simp
    | variantRemoved hm hk =>
      refine .inr ⟨_, hm, ?_⟩
      rw [dhas_false_iff.2 (dget_none_mem.2 hk)]
      simp
    | variantChanged hm hd he =>
      refine .inl ⟨_, hm, ?_⟩
      rw [hd]
      simp only
      rw [he]
      simp

theorem local_literal {q : List String} {ovs nvs : List Val} {c : Change} :
    c ∈ literalChanges q ovs nvs ↔ Local q (.literal ovs) (.literal nvs) c := by
  unfold literalChanges
  simp only [List.mem_append]
  constructor
  · rintro (h | h) <;> split at h
    · exact (nomatch h)
    · rename_i he
      simp only [List.mem_singleton] at h
      subst h
      exact .literalAdded (by simpa using he)
    · exact (nomatch h)
    · rename_i he
      simp only [List.mem_singleton] at h
      subst h
      exact .literalRemoved (by simpa using he)
  · intro h
    cases h with
    | added h1 h2 _ => exact (nomatch h1)
    | removed h1 h2 _ => exact (nomatch h1)
    | defaultRemoved h1 h2 => cases h1
    | defaultChanged h1 h2 => cases h1
    | kind h => exact absurd rfl h
    | literalAdded h => left; rw [if_neg (by simpa using h)]; simp
    | literalRemoved h => right; rw [if_neg (by simpa using h)]; simp

theorem defaultChanges_iff (path : List String) (g f : SFld) (c : Change) : c ∈ defaultChanges path g f ↔
    (g.hasDefault = true ∧ f.hasDefault = false ∧ c = .defaultRemoved path g.dflt) ∨
    (g.hasDefault = true ∧ f.hasDefault = true ∧ pyEq g.dflt f.dflt = false ∧ c = .defaultChanged path g.dflt f.dflt) := by
  unfold defaultChanges
  cases hg : g.hasDefault <;> cases hf : f.hasDefault <;> simp

theorem field1_cases (path : List String) (ofs : List (String × SFld)) (k : String) (f : SFld) (cs : List Change)
    (h : findField1 path ofs k f = .ok cs) :
    (dget ofs k = .none ∧ cs = allNewS path k f) ∨
    ∃ g, dget ofs k = some g ∧
      ((f.type.isStruct = true ∧ g.type.isStruct = false ∧
          cs = .fieldRemoved (path ++ [k]) g.type g.dflt g.hasDefault :: allNew (path ++ [k]) f.type) ∨
       (f.type.isStruct = false ∧ g.type.isStruct = true ∧
          cs = .fieldAdded (path ++ [k]) f.type f.dflt f.hasDefault :: allGone (path ++ [k]) g.type) ∨
       (f.type.isStruct = g.type.isStruct ∧ ∃ cs1, findChanges (path ++ [k]) f.type g.type = .ok cs1 ∧
          cs = cs1 ++ defaultChanges (path ++ [k]) g f)) := by
  obtain ⟨nm, t, d, hd, doc⟩ := f
  rw [findField1] at h
  cases hg : dget ofs k with
  | none =>
    rw [hg] at h
    cases h
    exact .inl ⟨rfl, rfl⟩
  | some g =>
    rw [hg] at h
    right
    refine ⟨g, rfl, ?_⟩
    simp only at h
    cases h1 : t.isStruct <;> cases h2 : g.type.isStruct <;> simp only [h1, h2] at h
    · right; right
      simp only [Bool.not_false, Bool.and_true, Bool.false_eq_true, if_false, bind, Except.bind, pure,
        Except.pure] at h
      cases h3 : findChanges (path ++ [k]) t g.type with
      | error e => rw [h3] at h; exact (nomatch h)
      | ok cs1 => rw [h3] at h; cases h; exact ⟨h1, cs1, h3, rfl⟩
    · right; left
      cases h
      exact ⟨h1, rfl, rfl⟩
    · left
      cases h
      exact ⟨h1, rfl, rfl⟩
    · right; right
      simp only [Bool.not_true, Bool.and_false, Bool.false_eq_true, if_false, bind, Except.bind, pure,
        Except.pure] at h
      cases h3 : findChanges (path ++ [k]) t g.type with
      | error e => rw [h3] at h; exact (nomatch h)
      | ok cs1 => rw [h3] at h; cases h; exact ⟨h1, cs1, h3, rfl⟩

end HS
