import Verif.Proofs.Advice
/-!
# Lemmas: what a reported change says about the two schemas, and which rules it leads to
-/
namespace HS

/-! ## what a change says about the field -/

theorem append_ne_self {a r : List String} (h : r ≠ []) : a ++ r ≠ a := by
  intro he
  exact h (List.append_right_eq_self.1 he)

theorem full_own {full : List String} {new old : STy} {cs : List Change} (ho : WFS old) (hn : WFS new)
    (h : findChanges full new old = .ok cs) {c : Change} (hc : c ∈ cs) (hp : c.path = full) :
    c.structural = false ∧ (∀ p a b, c ≠ .defaultChanged p a b) ∧ ∀ p a, c ≠ .defaultRemoved p a := by
  obtain ⟨q, o, n, _, hl⟩ := (findChanges_iff _ new old full cs (Nat.lt_succ_self _) ho hn h c).1 hc
  have key : ∀ r : List String, (r = [] → False) → full ++ q ++ r = full → False := by
    intro r hr he
    rw [List.append_assoc] at he
    exact append_ne_self (by intro h; exact hr (List.append_eq_nil_iff.1 h).2) he
  cases hl with
  | added _ hlf _ => exact (key _ (fun h => by subst h; exact leaf_ne_nil hlf) hp).elim
  | removed _ hlf _ => exact (key _ (fun h => by subst h; exact leaf_ne_nil hlf) hp).elim
  | defaultRemoved hnd _ _ _ _ => exact (key _ (fun h => by subst h; exact node_ne_nil hnd) hp).elim
  | defaultChanged hnd _ _ _ _ _ => exact (key _ (fun h => by subst h; exact node_ne_nil hnd) hp).elim
  | _ => exact ⟨rfl, fun _ _ _ h => (nomatch h), fun _ _ h => (nomatch h)⟩

theorem allNew_path {full : List String} {t : STy} {c : Change} (h : c ∈ allNew full t) :
    c.structural = true ∧ c.path ≠ full ∧ full <+: c.path ∧ ∃ p t d b, c = .fieldAdded p t d b := by
  obtain ⟨r, g, hl, rfl⟩ := (allNew_iff _ _ _).1 h
  refine ⟨rfl, append_ne_self ?_, List.prefix_append _ _, _, _, _, _, rfl⟩
  rintro rfl
  exact leaf_ne_nil hl

theorem allGone_path {full : List String} {t : STy} {c : Change} (h : c ∈ allGone full t) :
    c.structural = true ∧ c.path ≠ full ∧ full <+: c.path ∧ ∃ p t d b, c = .fieldRemoved p t d b := by
  obtain ⟨r, g, hl, rfl⟩ := (allGone_iff _ _ _).1 h
  refine ⟨rfl, append_ne_self ?_, List.prefix_append _ _, _, _, _, _, rfl⟩
  rintro rfl
  exact leaf_ne_nil hl

/-- a change reported for the field itself: what it says about the field -/
theorem slot_at {full : List String} {y x : Option SFld} {ds : List Change} (hy : ∀ f, y = some f → WFS f.type)
    (hx : ∀ g, x = some g → WFS g.type) (h : slotChanges full y x = .ok ds) {c : Change} (hc : c ∈ ds) (hp : c.path = full) :
    (∃ g, x = some g ∧ g.type.isStruct = false ∧ c = .fieldAdded full g.type g.dflt g.hasDefault ∧
      (y = .none ∨ ∃ f, y = some f ∧ f.type.isStruct = true ∧ ∀ e ∈ allGone full f.type, e ∈ ds)) ∨
    (∃ f, y = some f ∧ f.type.isStruct = false ∧ c = .fieldRemoved full f.type f.dflt f.hasDefault ∧
      (x = .none ∨ ∃ g, x = some g ∧ g.type.isStruct = true ∧ ∀ e ∈ allNew full g.type, e ∈ ds)) ∨
    (∃ f g cs, y = some f ∧ x = some g ∧ f.type.isStruct = g.type.isStruct ∧ findChanges full g.type f.type = .ok cs ∧
      ds = cs ++ defaultChanges full f g) := by
  cases y with
  | none =>
    cases x with
    | none => simp only [slotChanges] at h; cases h; exact (nomatch hc)
    | some g =>
      simp only [slotChanges] at h
      cases h
      cases hg : g.type.isStruct with
      | true => rw [hg, if_pos rfl] at hc; exact absurd hp (allNew_path hc).2.1
      | false =>
        rw [hg, if_neg (by simp)] at hc
        exact .inl ⟨g, rfl, hg, List.mem_singleton.1 hc, .inl rfl⟩
  | some f =>
    cases x with
    | none =>
      simp only [slotChanges] at h
      cases h
      cases hf : f.type.isStruct with
      | true => rw [hf, if_pos rfl] at hc; exact absurd hp (allGone_path hc).2.1
      | false =>
        rw [hf, if_neg (by simp)] at hc
        exact .inr (.inl ⟨f, rfl, hf, List.mem_singleton.1 hc, .inl rfl⟩)
    | some g =>
      simp only [slotChanges] at h
      cases hf : f.type.isStruct with
      | true =>
        cases hg : g.type.isStruct with
        | true =>
          rw [hf, hg] at h
          simp only [Bool.not_true, Bool.and_false, Bool.false_eq_true, if_false, bind, Except.bind, pure, Except.pure] at h
          cases h1 : findChanges full g.type f.type with
          | error e => rw [h1] at h; exact (nomatch h)
          | ok cs =>
            rw [h1] at h
            cases h
            exact .inr (.inr ⟨f, g, cs, rfl, rfl, by rw [hf, hg], h1, rfl⟩)
        | false =>
          rw [hf, hg] at h
          cases h
          rcases List.mem_cons.1 hc with rfl | hc
          · exact .inl ⟨g, rfl, hg, rfl, .inr ⟨f, rfl, hf, fun e he => List.mem_cons_of_mem _ he⟩⟩
          · exact absurd hp (allGone_path hc).2.1
      | false =>
        cases hg : g.type.isStruct with
        | true =>
          rw [hf, hg] at h
          cases h
          rcases List.mem_cons.1 hc with rfl | hc
          · exact .inr (.inl ⟨f, rfl, hf, rfl, .inr ⟨g, rfl, hg, fun e he => List.mem_cons_of_mem _ he⟩⟩)
          · exact absurd hp (allNew_path hc).2.1
        | false =>
          rw [hf, hg] at h
          simp only [Bool.not_false, Bool.and_true, Bool.false_eq_true, if_false, bind, Except.bind, pure, Except.pure] at h
          cases h1 : findChanges full g.type f.type with
          | error e => rw [h1] at h; exact (nomatch h)
          | ok cs =>
            rw [h1] at h
            cases h
            exact .inr (.inr ⟨f, g, cs, rfl, rfl, by rw [hf, hg], h1, rfl⟩)

theorem fieldAt_new {new old : STy} {p : List String} {x y : Option SFld} (h : Open new old p x y) {g : SFld} (hx : x = some g) :
    DeepField new p g := by
  induction h with
  | here => exact .here (dget_mem hx)
  | @under nn nfs nv on ofs ov k k' p x y hw hop ih =>
    have := ih hx
    cases hk : dget nfs k with
    | none =>
      rw [hk] at this
      simp only [slotTy, STy.unwrap] at this
      cases this with
      | here hm => exact (nomatch hm)
      | under hm _ => exact (nomatch hm)
    | some f => rw [hk] at this; exact .under (dget_mem hk) this

theorem fieldAt_old {new old : STy} {p : List String} {x y : Option SFld} (h : Open new old p x y) {f : SFld} (hy : y = some f) :
    DeepField old p f := by
  induction h with
  | here => exact .here (dget_mem hy)
  | @under nn nfs nv on ofs ov k k' p x y hw hop ih =>
    have := ih hy
    cases hk : dget ofs k with
    | none =>
      rw [hk] at this
      simp only [slotTy, STy.unwrap] at this
      cases this with
      | here hm => exact (nomatch hm)
      | under hm _ => exact (nomatch hm)
    | some f => rw [hk] at this; exact .under (dget_mem hk) this

theorem NoEmpty.unwrap {t : STy} (h : NoEmpty t) : NoEmpty t.unwrap := by
  induction h with
  | list _ ih => exact ih
  | option _ ih => exact ih
  | struct h1 h2 _ => exact .struct h1 h2
  | prim => exact .prim
  | tuple => exact .tuple
  | dict => exact .dict
  | union => exact .union
  | enum => exact .enum
  | literal => exact .literal
  | nothing => exact .nothing

theorem noEmpty_fieldAt {s : STy} {p : List String} {f : SFld} (h : DeepField s p f) (hn : NoEmpty s) : NoEmpty f.type := by
  induction h with
  | here hm => cases hn with | struct _ h => exact h _ _ hm
  | under hm _ ih => cases hn with | struct _ h => exact ih (h _ _ hm).unwrap

theorem noEmpty_leaf {s : STy} (h : NoEmpty s) : s.isStruct = true → ∃ r g, Leaf s r g := by
  induction h with
  | @struct n fs v hne _ ih =>
    intro _
    cases fs with
    | nil => exact absurd rfl hne
    | cons kf fs =>
      obtain ⟨k, f⟩ := kf
      cases hf : f.type.isStruct with
      | false => exact ⟨[k], f, .here (by simp), hf⟩
      | true =>
        obtain ⟨r, g, h1, h2⟩ := ih k f (by simp) hf
        exact ⟨k :: r, g, .under (by simp) h1, h2⟩
  | _ => intro h; exact (nomatch h)

/-! ## which changes are still in the report -/

theorem matching_split {α : Type} (cfg : RenameCfg α) (cs : List α) {c : α} (hc : c ∈ cs) :
    c ∈ findRenames cfg cs ∨ ∃ a r, cfg.isAdded a = true ∧ cfg.isRemoved r = true ∧ cfg.renamed a r ∈ findRenames cfg cs ∧
      (c = a ∨ c = r) := by
  obtain ⟨ms, hm⟩ := C29_matching cfg cs
  obtain ⟨i, hi, rfl⟩ := List.mem_iff_getElem.1 hc
  by_cases h1 : i ∈ ms.map (·.1.1)
  · right
    obtain ⟨m, hmm, rfl⟩ := List.mem_map.1 h1
    obtain ⟨h2, h3, h4, h5⟩ := hm.mem m hmm
    refine ⟨m.2.2, m.1.2, h5, h3, ?_, .inr ?_⟩
    · rw [hm.result]; exact List.mem_append_right _ (List.mem_map.2 ⟨m, hmm, rfl⟩)
    · rw [List.getElem?_eq_getElem hi] at h2; exact Option.some.inj h2
  by_cases h2 : i ∈ ms.map (·.2.1)
  · right
    obtain ⟨m, hmm, rfl⟩ := List.mem_map.1 h2
    obtain ⟨h2, h3, h4, h5⟩ := hm.mem m hmm
    refine ⟨m.2.2, m.1.2, h5, h3, ?_, .inl ?_⟩
    · rw [hm.result]; exact List.mem_append_right _ (List.mem_map.2 ⟨m, hmm, rfl⟩)
    · rw [List.getElem?_eq_getElem hi] at h4; exact Option.some.inj h4
  left
  rw [hm.result]
  apply List.mem_append_left
  refine List.mem_map.2 ⟨(cs[i], i), ?_, rfl⟩
  simp only [List.mem_filter, decide_eq_true_eq]
  exact ⟨List.mem_zipIdx_iff_getElem?.2 (List.getElem?_eq_some_iff.2 ⟨hi, rfl⟩), h1, h2⟩

theorem field_added {lower : Char → String} {a : Change} (h : (fieldRenameCfg lower).isAdded a = true) :
    ∃ p t d b, a = .fieldAdded p t d b := by
  cases a <;> first | exact ⟨_, _, _, _, rfl⟩ | exact Bool.noConfusion h

theorem field_removed {lower : Char → String} {a : Change} (h : (fieldRenameCfg lower).isRemoved a = true) :
    ∃ p t d b, a = .fieldRemoved p t d b := by
  cases a <;> first | exact ⟨_, _, _, _, rfl⟩ | exact Bool.noConfusion h

theorem enum_added {lower : Char → String} {a : Change} (h : (enumRenameCfg lower).isAdded a = true) :
    ∃ p t d b, a = .variantAdded p t d b := by
  cases a <;> first | exact ⟨_, _, _, _, rfl⟩ | exact Bool.noConfusion h

theorem enum_removed {lower : Char → String} {a : Change} (h : (enumRenameCfg lower).isRemoved a = true) :
    ∃ p t d b, a = .variantRemoved p t d b := by
  cases a <;> first | exact ⟨_, _, _, _, rfl⟩ | exact Bool.noConfusion h

/-- the change of the report that stands for a change found by the comparison -/
def Rep (c d : Change) : Prop :=
  c = d ∨ ∃ p q, d = .fieldRenamed p q ∧ ((∃ t v b, c = .fieldRemoved p t v b) ∨ ∃ t v b, c = .fieldAdded q t v b)

theorem rep_field (lower : Char → String) {cs : List Change} {c : Change} (hc : c ∈ cs) :
    ∃ d ∈ findRenames (fieldRenameCfg lower) cs, Rep c d := by
  rcases matching_split (fieldRenameCfg lower) cs hc with h | ⟨a, r, h1, h2, h3, h4⟩
  · exact ⟨c, h, .inl rfl⟩
  · obtain ⟨ap, at', ad, ab, rfl⟩ := field_added h1
    obtain ⟨rp, rt, rd, rb, rfl⟩ := field_removed h2
    refine ⟨.fieldRenamed rp ap, h3, .inr ⟨rp, ap, rfl, ?_⟩⟩
    rcases h4 with rfl | rfl
    · exact .inr ⟨_, _, _, rfl⟩
    · exact .inl ⟨_, _, _, rfl⟩

theorem easy_not_enum {old new : STy} {c : Change} (h : Easy old new c) :
    (∀ p e o n, c ≠ .variantRenamed p e o n) ∧ (∀ p e v a b, c ≠ .variantValueChanged p e v a b) ∧
      ∀ p e v a, c ≠ .variantRemoved p e v a := by
  cases h with
  | compatible h1 h2 h3 =>
    refine ⟨h3, ?_, ?_⟩
    · rintro p e v a b rfl; exact (nomatch h2)
    · rintro p e v a rfl; exact (nomatch h1)
  | _ => exact ⟨fun _ _ _ _ h => (nomatch h), fun _ _ _ _ _ h => (nomatch h), fun _ _ _ _ h => (nomatch h)⟩

theorem enum_renames_none (lower : Char → String) {old new : STy} {mid : List Change}
    (h : ∀ c ∈ findRenames (enumRenameCfg lower) mid, Easy old new c) : findRenames (enumRenameCfg lower) mid = mid := by
  apply C29_no_pair
  intro a ha r hr h1 h2 s hs
  exfalso
  rcases matching_split (enumRenameCfg lower) mid hr with h3 | ⟨a', r', h3, h4, h5, _⟩
  · obtain ⟨p, t, d, b, rfl⟩ := enum_removed h2
    exact (easy_not_enum (h _ h3)).2.2 _ _ _ _ rfl
  · have he := easy_not_enum (h _ h5)
    obtain ⟨p, t, d, b, rfl⟩ := enum_added h3
    obtain ⟨p', t', d', b', rfl⟩ := enum_removed h4
    by_cases hb : pyEq b' b = true
    · refine he.1 p t d' d ?_
      simp only [enumRenameCfg, hb, if_true]
    · refine he.2.1 p' t d' b' b ?_
      simp only [enumRenameCfg, hb]
      rfl

/-- renames are not found by the comparison -/
theorem raw_no_rename {new old : STy} {cs : List Change} (ho : WFS old) (hn : WFS new) (h : findChanges [] new old = .ok cs)
    (p q : List String) : .fieldRenamed p q ∉ cs := by
  intro hc
  obtain ⟨_, o, n, _, hl⟩ := (findChanges_iff _ new old [] cs (Nat.lt_succ_self _) ho hn h _).1 hc
  cases hl

theorem pairwise_distinct {α : Type} {R : α → α → Prop} {l : List α} (h : l.Pairwise R) (hs : ∀ a b, R a b → R b a) {a b : α}
    (ha : a ∈ l) (hb : b ∈ l) (hne : a ≠ b) : R a b := by
  obtain ⟨i, hi, rfl⟩ := List.mem_iff_getElem.1 ha
  obtain ⟨j, hj, rfl⟩ := List.mem_iff_getElem.1 hb
  rw [List.pairwise_iff_getElem] at h
  rcases Nat.lt_trichotomy i j with h1 | h1 | h1
  · exact h i j hi hj h1
  · subst h1; exact absurd rfl hne
  · exact hs _ _ (h j i hj hi h1)

theorem Incomp.symm {p q : List String} (h : Incomp p q) : Incomp q p := ⟨h.2, h.1⟩

theorem fix_places {c : Change} {r : Rule} (h : c.fix = some r) : r.places = c.places := by
  cases c <;> simp only [Change.fix] at h
  case fieldAdded p t d b =>
    cases b
    · cases t <;> first | (cases h; rfl) | (simp at h)
    · simp at h
  case typeChanged p o n =>
    cases n with
    | list i =>
      by_cases hb : styEq i o = true
      · simp only [hb, if_true] at h; cases h; rfl
      · simp only [hb, Bool.false_eq_true, if_false] at h; exact (nomatch h)
    | literal vs => simp only [Bool.false_eq_true, if_false] at h; cases h; rfl
    | _ => simp at h
  all_goals first | (cases h; rfl) | exact (nomatch h)

/-- the assumptions on the report -/
structure Advised (lower : Char → String) (old new : STy) (cs report : List Change) : Prop where
  newStruct : new.isStruct = true
  oldStruct : old.isStruct = true
  wfsNew : WFS new
  wfsOld : WFS old
  found : findChanges [] new old = .ok cs
  reported : report = findRenames (enumRenameCfg lower) (findRenames (fieldRenameCfg lower) cs)
  easy : ∀ c ∈ report, Easy old new c
  noEmpty : NoEmpty old
  apart : ((report.filter Change.marked).flatMap Change.places).Pairwise Incomp

namespace Advised
variable {lower : Char → String} {old new : STy} {cs report : List Change}

theorem report_eq (h : Advised lower old new cs report) : report = findRenames (fieldRenameCfg lower) cs := by
  rw [h.reported]
  apply enum_renames_none (old := old) (new := new)
  rw [← h.reported]
  exact h.easy

theorem apart' (h : Advised lower old new cs report) :
    report.Pairwise (fun c d => c.marked = true → d.marked = true → ∀ p ∈ c.places, ∀ q ∈ d.places, Incomp p q) ∧
      ∀ c ∈ report, c.marked = true → c.places.Pairwise Incomp := by
  have := h.apart
  rw [List.pairwise_flatMap, List.pairwise_filter] at this
  refine ⟨this.2, fun c hc hm => this.1 c (List.mem_filter.2 ⟨hc, hm⟩)⟩

theorem rep (h : Advised lower old new cs report) {c : Change} (hc : c ∈ cs) (hm : c.marked = true) :
    ∃ d ∈ report, d.marked = true ∧ c.path ∈ d.places ∧ Rep c d := by
  obtain ⟨d, hd, hr⟩ := rep_field lower hc
  rw [← h.report_eq] at hd
  refine ⟨d, hd, ?_, ?_, hr⟩
  · rcases hr with rfl | ⟨p, q, rfl, _⟩
    · exact hm
    · rfl
  · rcases hr with rfl | ⟨p, q, rfl, ⟨t, v, b, rfl⟩ | ⟨t, v, b, rfl⟩⟩
    · cases c <;> first | exact List.mem_singleton.2 rfl | exact List.mem_cons_self ..
    · simp [Change.places, Change.path]
    · simp [Change.places, Change.path]

/-- two changes of the same field, or of a field within the other one's, are the same change -/
theorem uniq (h : Advised lower old new cs report) {c e : Change} (hc : c ∈ cs) (hcm : c.marked = true) (he : e ∈ cs)
    (hem : e.marked = true) (hp : c.path <+: e.path) : c.path = e.path ∧ (e = c ∨ c.structural = true) := by
  obtain ⟨d1, hd1, hm1, hp1, hr1⟩ := h.rep hc hcm
  obtain ⟨d2, hd2, hm2, hp2, hr2⟩ := h.rep he hem
  by_cases hdd : d1 = d2
  · subst hdd
    rcases hr1 with rfl | ⟨p, q, rfl, h1⟩
    · rcases hr2 with rfl | ⟨p, q, rfl, _⟩
      · exact ⟨rfl, .inl rfl⟩
      · exact absurd hc (raw_no_rename h.wfsOld h.wfsNew h.found p q)
    · have hin := h.apart'.2 _ hd1 hm1
      simp only [Change.places, List.pairwise_cons, forall_eq, List.mem_cons, List.not_mem_nil,
        or_false] at hin hp1 hp2
      refine ⟨?_, .inr ?_⟩
      · rcases hp1 with h1 | h1 <;> rcases hp2 with h2 | h2 <;> rw [h1, h2] at hp ⊢
        · exact absurd hp hin.1.1
        · exact absurd hp hin.1.2
      · rcases h1 with ⟨t, v, b, rfl⟩ | ⟨t, v, b, rfl⟩ <;> rfl
  · have := pairwise_distinct h.apart'.1 (fun a b hab h1 h2 p hp q hq => (hab h2 h1 q hq p hp).symm) hd1 hd2 hdd hm1 hm2 _ hp1 _ hp2
    exact absurd hp this.1

theorem marked_of_structural {c : Change} (h : c.structural = true) : c.marked = true := by
  unfold Change.marked; rw [h]; simp

/-- where the change is -/
theorem opened (h : Advised lower old new cs report) {c : Change} (hc : c ∈ cs) (hcm : c.marked = true) :
    ∃ x y ds, Open new old c.path x y ∧ slotChanges c.path y x = .ok ds ∧ c ∈ ds ∧ (∀ e ∈ ds, e ∈ cs ∧ c.path <+: e.path) ∧
      (∀ f, y = some f → WFS f.type) ∧ ∀ g, x = some g → WFS g.type := by
  obtain ⟨p, x, y, hop, hp⟩ := open_of_change c.path.length h.newStruct h.oldStruct h.wfsNew h.wfsOld h.found hc (by simp)
    (fun d hd hds hpre => (h.uniq hd (marked_of_structural hds) hc hcm hpre).1)
  rw [List.nil_append] at hp
  rw [← hp] at hop
  obtain ⟨ds, h1, h2⟩ := open_get hop h.wfsNew h.wfsOld h.found
  rw [List.nil_append] at h1 h2
  exact ⟨x, y, ds, hop, h1, (h2 c).2 ⟨hc, List.prefix_refl _⟩, fun e he => (h2 e).1 he, open_wfs_old hop h.wfsOld,
    open_wfs_new hop h.wfsNew⟩

theorem unmarked (h : Advised lower old new cs report) {c : Change} (hc : c ∈ cs) (hcm : c.marked = false) : c.severity = .info := by
  simp only [Change.marked, Bool.or_eq_false_iff] at hcm
  have hr : c ∈ report := by
    obtain ⟨d, hd, hr⟩ := rep_field lower hc
    rw [← h.report_eq] at hd
    rcases hr with rfl | ⟨p, q, rfl, ⟨t, v, b, rfl⟩ | ⟨t, v, b, rfl⟩⟩
    · exact hd
    · exact (nomatch hcm.2)
    · exact (nomatch hcm.2)
  have he := h.easy c hr
  cases he with
  | compatible h1 _ _ => exact h1
  | removed => exact (nomatch hcm.2)
  | renamed _ => exact (nomatch hcm.1)
  | default _ _ => exact (nomatch hcm.1)
  | option => exact (nomatch hcm.1)
  | list => exact (nomatch hcm.1)
  | literal _ _ => simp only [Change.fix] at hcm; exact (nomatch hcm.1)

/-- nothing is left of a removed field -/
theorem removed_slot (h : Advised lower old new cs report) {p : List String} {t : STy} {v : Val} {b : Bool}
    (hc : .fieldRemoved p t v b ∈ cs) :
    ∃ x f ds, Open new old p x (some f) ∧ f.type = t ∧ f.dflt = v ∧ f.hasDefault = b ∧ f.type.isStruct = false ∧
      slotChanges p .none x = .ok ds ∧ AllInfo ds := by
  obtain ⟨x, y, ds, hop, hs, hcd, hds, hwy, hwx⟩ := h.opened hc rfl
  rcases slot_at hwy hwx hs hcd rfl with ⟨g, _, _, h2, _⟩ | ⟨f, rfl, hf, h2, h3⟩ | ⟨f, g, cs1, rfl, rfl, _, h2, rfl⟩
  · exact (nomatch h2)
  · simp only [Change.fieldRemoved.injEq] at h2
    rcases h3 with rfl | ⟨g, rfl, hg, hall⟩
    · exact ⟨.none, f, [], hop, h2.2.1.symm, h2.2.2.1.symm, h2.2.2.2.symm, hf, rfl, fun _ h => nomatch h⟩
    · refine ⟨some g, f, allNew p g.type, hop, h2.2.1.symm, h2.2.2.1.symm, h2.2.2.2.symm, hf, ?_, ?_⟩
      · simp only [slotChanges, hg, if_true]
      · intro e he
        obtain ⟨h4, h5, h6, _⟩ := allNew_path he
        exact absurd (h.uniq hc rfl (hds e (hall e he)).1 (marked_of_structural h4) h6).1.symm h5
  · exfalso
    rcases List.mem_append.1 hcd with hcd | hcd
    · exact absurd (full_own (hwy f rfl) (hwx g rfl) h2 hcd rfl).1 (by simp [Change.structural])
    · rcases (defaultChanges_iff _ _ _ _).1 hcd with ⟨_, _, h⟩ | ⟨_, _, _, h⟩ <;> exact (nomatch h)

/-- an added field is not in the old schema -/
theorem added_slot (h : Advised lower old new cs report) {p : List String} {t : STy} {v : Val} {b : Bool}
    (hc : .fieldAdded p t v b ∈ cs) :
    ∃ g, Open new old p (some g) .none ∧ g.type = t ∧ g.dflt = v ∧ g.hasDefault = b ∧ g.type.isStruct = false := by
  have hmark : (Change.fieldAdded p t v b).marked = true := marked_of_structural rfl
  obtain ⟨x, y, ds, hop, hs, hcd, hds, hwy, hwx⟩ := h.opened hc hmark
  rcases slot_at hwy hwx hs hcd rfl with ⟨g, rfl, hg, h2, h3⟩ | ⟨f, _, _, h2, _⟩ | ⟨f, g, cs1, rfl, rfl, _, h2, rfl⟩
  · simp only [Change.fieldAdded.injEq] at h2
    rcases h3 with rfl | ⟨f, rfl, hf, hall⟩
    · exact ⟨g, hop, h2.2.1.symm, h2.2.2.1.symm, h2.2.2.2.symm, hg⟩
    · exfalso
      obtain ⟨r, l, hl⟩ := noEmpty_leaf (noEmpty_fieldAt (fieldAt_old hop rfl) h.noEmpty) hf
      have he := (allGone_iff f.type p _).2 ⟨r, l, hl, rfl⟩
      obtain ⟨h4, h5, h6, _⟩ := allGone_path he
      exact absurd (h.uniq hc hmark (hds _ (hall _ he)).1 (marked_of_structural h4) h6).1.symm h5
  · exact (nomatch h2)
  · exfalso
    rcases List.mem_append.1 hcd with hcd | hcd
    · exact absurd (full_own (hwy f rfl) (hwx g rfl) h2 hcd rfl).1 (by simp [Change.structural])
    · rcases (defaultChanges_iff _ _ _ _).1 hcd with ⟨_, _, h⟩ | ⟨_, _, _, h⟩ <;> exact (nomatch h)

theorem slot_nonstruct {full : List String} {f g : SFld} (hf : f.type.isStruct = false) (hg : g.type.isStruct = false) {ds : List Change}
    (h : findChanges full g.type f.type = .ok ds) : slotChanges full (some f) (some g) = .ok (ds ++ defaultChanges full f g) := by
  simp only [slotChanges, hf, hg, Bool.not_false, Bool.and_true, Bool.false_eq_true, if_false, h]
  rfl

theorem slot_same {full : List String} {f g : SFld} (hst : f.type.isStruct = g.type.isStruct) {ds : List Change}
    (h : findChanges full g.type f.type = .ok ds) : slotChanges full (some f) (some g) = .ok (ds ++ defaultChanges full f g) := by
  have hb : (g.type.isStruct && !f.type.isStruct) = false := by rw [hst]; cases g.type.isStruct <;> rfl
  have hb' : (f.type.isStruct && !g.type.isStruct) = false := by rw [hst]; cases g.type.isStruct <;> rfl
  simp only [slotChanges, hb, hb', Bool.false_eq_true, if_false, h]
  rfl

theorem defaultChanges_same (full : List String) (f g : SFld) (h1 : f.hasDefault = g.hasDefault) (h2 : pyEq f.dflt g.dflt = true) :
    defaultChanges full f g = [] := by
  simp [defaultChanges, h1, h2]

/-- a change found by the comparison that is not about the set of fields is reported -/
theorem in_report (h : Advised lower old new cs report) {c : Change} (hc : c ∈ report) :
    c ∈ cs ∨ ∃ p q, c = .fieldRenamed p q := by
  rw [h.report_eq] at hc
  rcases C29_origin _ _ _ hc with hc | ⟨a, _, r, _, h1, h2, h3, _⟩
  · exact .inl hc
  · obtain ⟨ap, at', ad, ab, rfl⟩ := field_added h1
    obtain ⟨rp, rt, rd, rb, rfl⟩ := field_removed h2
    exact .inr ⟨rp, ap, h3⟩

theorem pend (h : Advised lower old new cs report) {c : Change} (hc : c ∈ report) {r : Rule} (hr : c.fix = some r) : Pend new old r := by
  have heasy := h.easy c hc
  have hmark : c.marked = true := by unfold Change.marked; rw [hr]; rfl
  cases heasy with
  | compatible _ h2 _ => rw [h2] at hr; exact (nomatch hr)
  | @removed p t d b =>
    cases hr
    have hcs : .fieldRemoved p t d b ∈ cs := (h.in_report hc).resolve_right (by rintro ⟨_, _, h⟩; exact (nomatch h))
    obtain ⟨x, f, ds, hop, _, _, _, _, hs, hi⟩ := h.removed_slot hcs
    exact .delete hop hs hi
  | @renamed p q hty =>
    cases hr
    obtain ⟨rt, rd, b, at', ad, hrm, had, _, hd⟩ := C29_field_rename lower cs p q (h.report_eq ▸ hc)
      (raw_no_rename h.wfsOld h.wfsNew h.found p q)
    obtain ⟨x, f, ds, hop, h1, h2, h3, h4, hs, hi⟩ := h.removed_slot hrm
    obtain ⟨g, hop', h1', h2', h3', h4'⟩ := h.added_slot had
    have hinc : Incomp p q := by
      have := h.apart'.2 _ hc hmark
      simp only [Change.places, List.pairwise_cons, List.mem_singleton, forall_eq] at this
      exact this.1
    obtain ⟨es, hes, hei⟩ := hty f g (fieldAt_old hop rfl) (fieldAt_new hop' rfl)
    refine .rename hop hs hi hop' hinc (open_wfs_old hop h.wfsOld f rfl) (slot_nonstruct h4 h4' hes) ?_
    rw [defaultChanges_same _ _ _ (by rw [h3, h3']) (by rw [h2, h2']; exact hd), List.append_nil]
    exact hei
  | @default p a b ha hb =>
    cases hr
    have hcs : .defaultChanged p a b ∈ cs := (h.in_report hc).resolve_right (by rintro ⟨_, _, h⟩; exact (nomatch h))
    obtain ⟨x, y, ds, hop, hs, hcd, hds, hwy, hwx⟩ := h.opened hcs rfl
    rcases slot_at hwy hwx hs hcd rfl with ⟨g, _, _, h2, _⟩ | ⟨f, _, _, h2, _⟩ | ⟨f, g, cs1, rfl, rfl, hst, h2, rfl⟩
    · exact (nomatch h2)
    · exact (nomatch h2)
    · have hown : ∀ e ∈ cs1, e.severity = .info := by
        intro e he
        cases hem : e.marked with
        | false => exact h.unmarked (hds e (List.mem_append_left _ he)).1 hem
        | true =>
          exfalso
          obtain ⟨h3, h4⟩ := h.uniq hcs rfl (hds e (List.mem_append_left _ he)).1 hem (hds e (List.mem_append_left _ he)).2
          rcases h4 with rfl | h4
          · exact (full_own (hwy f rfl) (hwx g rfl) h2 he rfl).2.1 _ _ _ rfl
          · exact (nomatch h4)
      have hdef : .defaultChanged p a b ∈ defaultChanges p f g := by
        rcases List.mem_append.1 hcd with hcd | hcd
        · exact absurd rfl ((full_own (hwy f rfl) (hwx g rfl) h2 hcd rfl).2.1 _ _ _)
        · exact hcd
      rcases (defaultChanges_iff _ _ _ _).1 hdef with ⟨_, _, h⟩ | ⟨h3, h4, _, h5⟩
      · exact (nomatch h)
      · simp only [Change.defaultChanged.injEq] at h5
        obtain ⟨_, rfl, rfl⟩ := h5
        obtain ⟨n, t, d, hd, doc⟩ := f
        refine .changeDefault (ds := cs1) hop (hwy _ rfl) ha ?_ hown
        change findChanges p g.type t = .ok cs1 at h2
        change t.isStruct = g.type.isStruct at hst
        have hz : defaultChanges p (.mk n t g.dflt hd doc) g = [] := by
          refine defaultChanges_same _ _ _ ?_ hb
          change hd = g.hasDefault
          change hd = true at h3
          rw [h3, h4]
        have := slot_same (f := .mk n t g.dflt hd doc) hst h2
        rw [hz, List.append_nil] at this
        exact this
  | @option p t d =>
    cases hr
    have hcs : .fieldAdded p (.option t) d false ∈ cs := (h.in_report hc).resolve_right (by rintro ⟨_, _, h⟩; exact (nomatch h))
    obtain ⟨g, hop, h1, h2, h3, h4⟩ := h.added_slot hcs
    refine .addDefault hop (slot_nonstruct rfl h4 (ds := [.typeChanged p .nothing (.option t)]) ?_) ?_
    · rw [h1]; rfl
    · intro e he
      rcases List.mem_append.1 he with he | he
      · rw [List.mem_singleton.1 he]
        simp only [Change.severity, isSubtype, if_true]
      · rcases (defaultChanges_iff _ _ _ _).1 he with ⟨h5, _⟩ | ⟨h5, _⟩ <;> exact Bool.noConfusion h5
  | @list p t d =>
    cases hr
    have hcs : .fieldAdded p (.list t) d false ∈ cs := (h.in_report hc).resolve_right (by rintro ⟨_, _, h⟩; exact (nomatch h))
    obtain ⟨g, hop, h1, h2, h3, h4⟩ := h.added_slot hcs
    refine .addDefault hop (slot_nonstruct rfl h4 (ds := [.typeChanged p .nothing (.list t)]) ?_) ?_
    · rw [h1]; rfl
    · intro e he
      rcases List.mem_append.1 he with he | he
      · rw [List.mem_singleton.1 he]
        simp only [Change.severity, isSubtype, if_true]
      · rcases (defaultChanges_iff _ _ _ _).1 he with ⟨h5, _⟩ | ⟨h5, _⟩ <;> exact Bool.noConfusion h5
  | @literal p o vs hg hv =>
    simp only [Change.fix, Bool.false_eq_true, if_false] at hr
    cases hr
    have hcs : .typeChanged p o (.literal vs) ∈ cs := (h.in_report hc).resolve_right (by rintro ⟨_, _, h⟩; exact (nomatch h))
    obtain ⟨x, y, ds, hop, hs, hcd, hds, hwy, hwx⟩ := h.opened hcs hmark
    rcases slot_at hwy hwx hs hcd rfl with ⟨g, _, _, h2, _⟩ | ⟨f, _, _, h2, _⟩ | ⟨f, g, cs1, rfl, rfl, hst, h2, rfl⟩
    · exact (nomatch h2)
    · exact (nomatch h2)
    · have hlit := hg g (fieldAt_new hop rfl)
      have hdef : defaultChanges p f g = [] := by
        rw [List.eq_nil_iff_forall_not_mem]
        intro e he
        have hem : e.marked = true ∧ ∀ p o n, e ≠ .typeChanged p o n := by
          rcases (defaultChanges_iff _ _ _ _).1 he with ⟨_, _, rfl⟩ | ⟨_, _, _, rfl⟩ <;>
            exact ⟨rfl, fun _ _ _ h => (nomatch h)⟩
        obtain ⟨h3, h4⟩ := h.uniq hcs hmark (hds e (List.mem_append_right _ he)).1 hem.1 (hds e (List.mem_append_right _ he)).2
        rcases h4 with rfl | h4
        · exact hem.2 _ _ _ rfl
        · exact (nomatch h4)
      have hself : findChanges p (.literal vs) (.literal vs) = .ok [] := by
        have hfil : vs.filter (fun v => !(pyMem v vs)) = [] := by
          rw [List.filter_eq_nil_iff]
          intro v hvm
          have : pyMem v vs = true := List.any_eq_true.2 ⟨v, hvm, hv v hvm⟩
          simp [this]
        simp only [findChanges, literalChanges, hfil]
        rfl
      obtain ⟨n, t, d, hd, doc⟩ := f
      have hls : g.type.isStruct = false := by rw [hlit]; rfl
      refine .checkValue hop (slot_nonstruct (f := .mk n (.literal vs) d hd doc) rfl hls (ds := []) (by rw [hlit]; exact hself)) ?_
      have : defaultChanges p (.mk n (.literal vs) d hd doc) g = defaultChanges p (.mk n t d hd doc) g := rfl
      rw [this, hdef]
      exact fun _ h => (nomatch h)

theorem settled (h : Advised lower old new cs report) :
    ∃ old' cs', applyRulesSchema (proposedFixes report) old = .ok old' ∧ old'.isStruct = old.isStruct ∧ findChanges [] new old' = .ok cs' ∧ AllInfo cs' := by
  refine rules_settle new h.wfsNew (proposedFixes report) old cs h.wfsOld h.found ?_ ?_ ?_
  · intro r hr
    obtain ⟨c, hc, hf⟩ := List.mem_filterMap.1 hr
    exact h.pend hc hf
  · unfold proposedFixes
    rw [List.pairwise_filterMap]
    refine h.apart'.1.imp ?_
    intro c d hcd r hr r' hr' p hp q hq
    rw [fix_places hr] at hp
    rw [fix_places hr'] at hq
    exact hcd (by unfold Change.marked; rw [hr]; rfl) (by unfold Change.marked; rw [hr']; rfl) p hp q hq
  · intro c hc
    cases hm : c.marked with
    | false => exact .inl (h.unmarked hc hm)
    | true =>
      obtain ⟨d, hd, hdm, hp, _⟩ := h.rep hc hm
      cases hf : d.fix with
      | some r =>
        exact .inr ⟨r, List.mem_filterMap.2 ⟨d, hd, hf⟩, c.path, by rw [fix_places hf]; exact hp, List.prefix_refl _⟩
      | none =>
        left
        have he := h.easy d hd
        cases he with
        | compatible h1 h2 h3 =>
          rename_i hrep
          rcases hrep with rfl | ⟨p, q, rfl, _⟩
          · exact h1
          · exact (nomatch h1)
        | removed => exact (nomatch hf)
        | renamed _ => exact (nomatch hf)
        | default _ _ => exact (nomatch hf)
        | option => exact (nomatch hf)
        | list => exact (nomatch hf)
        | literal _ _ => simp only [Change.fix] at hf; exact (nomatch hf)

end Advised

end HS
