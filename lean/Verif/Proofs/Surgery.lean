import Verif.Proofs.DiffMain
import Verif.Model.SchemaRewrite
import Verif.Proofs.Apply
import Verif.Proofs.Valid
import Verif.Spec.Advice
/-!
# Lemmas: what changing one field of the old schema does to the checker's report
-/
namespace HS

/-- the path of a change -/
def Change.path : Change → List String
  | .fieldAdded p _ _ _ => p
  | .fieldRemoved p _ _ _ => p
  | .fieldRenamed p _ => p
  | .defaultChanged p _ _ => p
  | .defaultRemoved p _ => p
  | .typeChanged p _ _ => p
  | .variantValueChanged p _ _ _ _ => p
  | .variantRemoved p _ _ _ => p
  | .variantAdded p _ _ _ => p
  | .variantRenamed p _ _ _ => p
  | .literalAdded p _ => p
  | .literalRemoved p _ => p

/-! ## the report, field by field -/

/-- the changes found for one field: in the old and the new schema -/
def slotChanges (full : List String) : Option SFld → Option SFld → Except Err (List Change)
  | .none, .none => .ok []
  | .none, some g => .ok (if g.type.isStruct then allNew full g.type else [.fieldAdded full g.type g.dflt g.hasDefault])
  | some f, .none => .ok (if f.type.isStruct then allGone full f.type else [.fieldRemoved full f.type f.dflt f.hasDefault])
  | some f, some g =>
    if g.type.isStruct && !f.type.isStruct then .ok (.fieldRemoved full f.type f.dflt f.hasDefault :: allNew full g.type)
    else if f.type.isStruct && !g.type.isStruct then .ok (.fieldAdded full g.type g.dflt g.hasDefault :: allGone full f.type)
    else do
      let cs ← findChanges full g.type f.type
      return cs ++ defaultChanges full f g

theorem findField1_slot (path : List String) (olds : List (String × SFld)) (k : String) (g : SFld) :
    findField1 path olds k g = slotChanges (path ++ [k]) (dget olds k) (some g) := by
  obtain ⟨nm, t, d, h, doc⟩ := g
  simp only [findField1]
  cases dget olds k with
  | none => simp only [slotChanges, allNewS]; rfl
  | some f => simp only [slotChanges]; rfl

theorem allGoneS_slot (path : List String) (k : String) (f : SFld) :
    slotChanges (path ++ [k]) (some f) .none = .ok (allGoneS path k f) := by
  obtain ⟨nm, t, d, h, doc⟩ := f
  simp only [slotChanges, allGoneS]; rfl

theorem findChanges_struct_iff {path : List String} {nn on : String} {nfs ofs : List (String × SFld)} {nv ov : Option Int}
    {cs : List Change} (hn : (dkeys nfs).Nodup) (ho : (dkeys ofs).Nodup)
    (h : findChanges path (.struct nn nfs nv) (.struct on ofs ov) = .ok cs) (c : Change) :
    c ∈ cs ↔ ∃ k ds, slotChanges (path ++ [k]) (dget ofs k) (dget nfs k) = .ok ds ∧ c ∈ ds := by
  simp only [findChanges, bind, Except.bind, pure, Except.pure] at h
  cases h1 : findFields path ofs nfs with
  | error e => rw [h1] at h; exact (nomatch h)
  | ok ds0 =>
    rw [h1] at h
    cases h
    rw [List.mem_append, findFields_iff _ _ _ _ h1, removedFields_iff]
    constructor
    · rintro (⟨k, f, cs1, hm, h2, h3⟩ | ⟨k, f, hm, h2, h3⟩)
      · rw [findField1_slot] at h2
        exact ⟨k, cs1, by rw [dget_of_mem hn hm]; exact h2, h3⟩
      · refine ⟨k, _, ?_, h3⟩
        rw [dget_of_mem ho hm, (dhas_false nfs k).1 h2, allGoneS_slot]
    · rintro ⟨k, ds, h2, h3⟩
      cases hk : dget nfs k with
      | some g =>
        rw [hk] at h2
        exact .inl ⟨k, g, ds, dget_mem hk, by rw [findField1_slot]; exact h2, h3⟩
      | none =>
        rw [hk] at h2
        cases hf : dget ofs k with
        | none => rw [hf] at h2; cases h2; exact (nomatch h3)
        | some f =>
          rw [hf, allGoneS_slot] at h2
          cases h2
          exact .inr ⟨k, f, dget_mem hf, (dhas_false nfs k).2 hk, h3⟩

theorem findChanges_struct_ok {path : List String} {nn on : String} {nfs ofs : List (String × SFld)} {nv ov : Option Int}
    (hn : (dkeys nfs).Nodup) :
    (∃ cs, findChanges path (.struct nn nfs nv) (.struct on ofs ov) = .ok cs) ↔
      ∀ k, ∃ ds, slotChanges (path ++ [k]) (dget ofs k) (dget nfs k) = .ok ds := by
  have : (∃ cs, findChanges path (.struct nn nfs nv) (.struct on ofs ov) = .ok cs) ↔ ∃ cs, findFields path ofs nfs = .ok cs := by
    simp only [findChanges, bind, Except.bind, pure, Except.pure]
    cases findFields path ofs nfs with
    | error e => simp
    | ok q => simp
  rw [this, findFields_ok]
  constructor
  · intro h k
    cases hk : dget nfs k with
    | some g =>
      obtain ⟨cs1, h1⟩ := h k g (dget_mem hk)
      rw [findField1_slot] at h1
      exact ⟨_, h1⟩
    | none => cases dget ofs k <;> exact ⟨_, rfl⟩
  · intro h k f hm
    obtain ⟨ds, h1⟩ := h k
    rw [dget_of_mem hn hm] at h1
    exact ⟨ds, by rw [findField1_slot]; exact h1⟩

/-! ## paths -/

theorem local_path {q : List String} {o n : STy} {c : Change} (h : Local q o n c) : q <+: c.path := by
  cases h <;> first | exact List.prefix_append _ _ | exact List.prefix_refl _

theorem findChanges_path {path : List String} {new old : STy} {cs : List Change} (ho : WFS old) (hn : WFS new)
    (h : findChanges path new old = .ok cs) {c : Change} (hc : c ∈ cs) : path <+: c.path := by
  obtain ⟨q, o, n, _, hl⟩ := (findChanges_iff _ new old path cs (Nat.lt_succ_self _) ho hn h c).1 hc
  exact (List.prefix_append _ _).trans (local_path hl)

theorem slot_path {full : List String} {y x : Option SFld} {ds : List Change} (hy : ∀ f, y = some f → WFS f.type)
    (hx : ∀ g, x = some g → WFS g.type) (h : slotChanges full y x = .ok ds) {c : Change} (hc : c ∈ ds) : full <+: c.path := by
  have hnew : ∀ t, c ∈ allNew full t → full <+: c.path := by
    intro t h
    obtain ⟨r, g, _, rfl⟩ := (allNew_iff _ _ _).1 h
    exact List.prefix_append _ _
  have hgone : ∀ t, c ∈ allGone full t → full <+: c.path := by
    intro t h
    obtain ⟨r, g, _, rfl⟩ := (allGone_iff _ _ _).1 h
    exact List.prefix_append _ _
  cases y with
  | none =>
    cases x with
    | none => simp only [slotChanges] at h; cases h; exact (nomatch hc)
    | some g =>
      simp only [slotChanges] at h
      cases h
      split at hc
      · exact hnew _ hc
      · rw [List.mem_singleton.1 hc]; exact List.prefix_refl _
  | some f =>
    cases x with
    | none =>
      simp only [slotChanges] at h
      cases h
      split at hc
      · exact hgone _ hc
      · rw [List.mem_singleton.1 hc]; exact List.prefix_refl _
    | some g =>
      simp only [slotChanges, bind, Except.bind, pure, Except.pure] at h
      split at h
      · cases h
        rcases List.mem_cons.1 hc with rfl | hc
        · exact List.prefix_refl _
        · exact hnew _ hc
      · split at h
        · cases h
          rcases List.mem_cons.1 hc with rfl | hc
          · exact List.prefix_refl _
          · exact hgone _ hc
        · cases h1 : findChanges full g.type f.type with
          | error e => rw [h1] at h; exact (nomatch h)
          | ok q =>
            rw [h1] at h
            cases h
            rcases List.mem_append.1 hc with hc | hc
            · exact findChanges_path (hy f rfl) (hx g rfl) h1 hc
            · rcases (defaultChanges_iff _ _ _ _).1 hc with ⟨_, _, rfl⟩ | ⟨_, _, _, rfl⟩ <;> exact List.prefix_refl _

/-! ## well-formedness -/

theorem WFS.keys {n : String} {fs : List (String × SFld)} {v : Option Int} (h : WFS (.struct n fs v)) : (dkeys fs).Nodup := by
  cases h with | struct h _ => exact h

theorem WFS.fld {n : String} {fs : List (String × SFld)} {v : Option Int} (h : WFS (.struct n fs v)) {k : String} {f : SFld}
    (hk : dget fs k = some f) : WFS f.type := by
  cases h with | struct _ h => exact h _ _ (dget_mem hk)

theorem wfs_of_dget {n : String} {fs : List (String × SFld)} {v : Option Int} (h1 : (dkeys fs).Nodup)
    (h2 : ∀ k f, dget fs k = some f → WFS f.type) : WFS (.struct n fs v) :=
  .struct h1 (fun k f hm => h2 k f (dget_of_mem h1 hm))

theorem WFS.dset {n : String} {fs : List (String × SFld)} {v : Option Int} (h : WFS (.struct n fs v)) {f : SFld} (hf : WFS f.type)
    (k : String) : WFS (.struct n (dset fs k f) v) := by
  refine wfs_of_dget (nodup_dset _ _ _ h.keys) ?_
  intro k' f' hk
  by_cases he : k = k'
  · subst he; rw [dget_dset_self] at hk; cases hk; exact hf
  · rw [dget_dset_ne _ _ he] at hk; exact h.fld hk

theorem WFS.ddel {n : String} {fs : List (String × SFld)} {v : Option Int} (h : WFS (.struct n fs v)) (k : String) :
    WFS (.struct n (ddel fs k) v) := by
  refine wfs_of_dget (nodup_ddel _ _ h.keys) ?_
  intro k' f' hk
  by_cases he : k = k'
  · subst he; rw [dget_ddel_self] at hk; exact (nomatch hk)
  · rw [dget_ddel_ne _ he] at hk; exact h.fld hk

/-! ## one field is changed -/

theorem prefix_snoc_ne {path c : List String} {k k' : String} (h : path ++ [k] <+: c) (h' : path ++ [k'] <+: c) : k = k' := by
  obtain ⟨a, rfl⟩ := h
  obtain ⟨b, hb⟩ := h'
  simp only [List.append_assoc, List.singleton_append, List.append_cancel_left_eq, List.cons.injEq] at hb
  exact hb.1.symm

theorem struct_get {path : List String} {nn on : String} {nfs ofs : List (String × SFld)} {nv ov : Option Int} {cs : List Change}
    (hn : WFS (.struct nn nfs nv)) (ho : WFS (.struct on ofs ov))
    (h : findChanges path (.struct nn nfs nv) (.struct on ofs ov) = .ok cs) (k : String) :
    ∃ ds, slotChanges (path ++ [k]) (dget ofs k) (dget nfs k) = .ok ds ∧ ∀ c, c ∈ ds ↔ c ∈ cs ∧ path ++ [k] <+: c.path := by
  obtain ⟨ds, hds⟩ := (findChanges_struct_ok hn.keys).1 ⟨cs, h⟩ k
  refine ⟨ds, hds, fun c => ⟨fun hc => ⟨?_, ?_⟩, ?_⟩⟩
  · exact (findChanges_struct_iff hn.keys ho.keys h c).2 ⟨k, ds, hds, hc⟩
  · exact slot_path (fun f hf => ho.fld hf) (fun g hg => hn.fld hg) hds hc
  · rintro ⟨hc, hp⟩
    obtain ⟨k', ds', h1, h2⟩ := (findChanges_struct_iff hn.keys ho.keys h c).1 hc
    have := prefix_snoc_ne hp (slot_path (fun f hf => ho.fld hf) (fun g hg => hn.fld hg) h1 h2)
    subst this
    rw [hds] at h1
    cases h1
    exact h2

theorem struct_update {path : List String} {nn on on' : String} {nfs ofs ofs' : List (String × SFld)} {nv ov ov' : Option Int}
    {cs : List Change} (hn : WFS (.struct nn nfs nv)) (ho : WFS (.struct on ofs ov)) (ho' : WFS (.struct on' ofs' ov'))
    (h : findChanges path (.struct nn nfs nv) (.struct on ofs ov) = .ok cs) {k : String}
    (heq : ∀ k', k ≠ k' → dget ofs' k' = dget ofs k') {ds : List Change}
    (hs : slotChanges (path ++ [k]) (dget ofs' k) (dget nfs k) = .ok ds) :
    ∃ cs', findChanges path (.struct nn nfs nv) (.struct on' ofs' ov') = .ok cs' ∧
      ∀ c, c ∈ cs' ↔ (c ∈ cs ∧ ¬ path ++ [k] <+: c.path) ∨ c ∈ ds := by
  obtain ⟨cs', h'⟩ : ∃ cs', findChanges path (.struct nn nfs nv) (.struct on' ofs' ov') = .ok cs' := by
    rw [findChanges_struct_ok hn.keys]
    intro k'
    by_cases he : k = k'
    · subst he; exact ⟨ds, hs⟩
    · rw [heq k' he]; exact (findChanges_struct_ok hn.keys).1 ⟨cs, h⟩ k'
  refine ⟨cs', h', fun c => ?_⟩
  rw [findChanges_struct_iff hn.keys ho'.keys h' c, findChanges_struct_iff hn.keys ho.keys h c]
  constructor
  · rintro ⟨k', ds', h1, h2⟩
    by_cases he : k = k'
    · subst he; rw [hs] at h1; cases h1; exact .inr h2
    · rw [heq k' he] at h1
      exact .inl ⟨⟨k', ds', h1, h2⟩, fun hp => he (prefix_snoc_ne hp (slot_path (fun f hf => ho.fld hf) (fun g hg => hn.fld hg) h1 h2))⟩
  · rintro (⟨⟨k', ds', h1, h2⟩, hp⟩ | hc)
    · have he : k ≠ k' := by
        rintro rfl
        exact hp (slot_path (fun f hf => ho.fld hf) (fun g hg => hn.fld hg) h1 h2)
      exact ⟨k', ds', by rw [heq k' he]; exact h1, h2⟩
    · exact ⟨k, ds, hs, hc⟩

/-! ## the same containers around two structs -/

/-- the two types are structs in the same containers -/
inductive SameWrap : STy → STy → Prop
  | struct {nn nfs nv on ofs ov} : SameWrap (.struct nn nfs nv) (.struct on ofs ov)
  | list {n o} : SameWrap n o → SameWrap (.list n) (.list o)
  | option {n o} : SameWrap n o → SameWrap (.option n) (.option o)

theorem SameWrap.find {n o : STy} (h : SameWrap n o) (path : List String) :
    findChanges path n o = findChanges path n.unwrap o.unwrap := by
  induction h with
  | struct => rfl
  | list _ ih => rw [findChanges]; exact ih
  | option _ ih => rw [findChanges]; exact ih

theorem SameWrap.isStruct {n o : STy} (h : SameWrap n o) : n.isStruct = o.isStruct := by cases h <;> rfl

theorem SameWrap.left {n o : STy} (h : SameWrap n o) : n.unwrap.isStruct = true := by
  induction h with
  | struct => rfl
  | list _ ih => exact ih
  | option _ ih => exact ih

theorem SameWrap.right {n o : STy} (h : SameWrap n o) : o.unwrap.isStruct = true := by
  induction h with
  | struct => rfl
  | list _ ih => exact ih
  | option _ ih => exact ih

theorem unwrap_of_struct {t : STy} (h : t.isStruct = true) : t.unwrap = t := by cases t <;> first | rfl | exact (nomatch h)

theorem SameWrap.rewrap {n o t : STy} (h : SameWrap n o) (ht : t.isStruct = true) :
    SameWrap n (t.rewrap o) ∧ (t.rewrap o).unwrap = t := by
  induction h with
  | struct =>
    cases t <;> first | exact ⟨.struct, rfl⟩ | exact (nomatch ht)
  | list _ ih => exact ⟨.list ih.1, ih.2⟩
  | option _ ih => exact ⟨.option ih.1, ih.2⟩

theorem WFS.unwrap {t : STy} (h : WFS t) : WFS t.unwrap := by
  induction h with
  | list _ ih => exact ih
  | option _ ih => exact ih
  | struct h1 h2 _ => exact .struct h1 h2
  | prim => exact .prim
  | tuple => exact .tuple
  | dict => exact .dict
  | union => exact .union
  | enum => exact .enum
  | literal => exact .literal
  | nothing => exact .nothing

theorem SameWrap.wfs {n o t : STy} (h : SameWrap n o) (ht : WFS t) : WFS (t.rewrap o) := by
  induction h with
  | struct => exact ht
  | list _ ih => exact .list ih
  | option _ ih => exact .option ih

theorem SameWrap.rewrap_unwrap {n o : STy} (h : SameWrap n o) : o.unwrap.rewrap o = o := by
  induction h with
  | struct => rfl
  | list _ ih => exact congrArg STy.list ih
  | option _ ih => exact congrArg STy.option ih

/-! ## a field below a field -/

/-- the type of a field; an absent field counts as a struct without fields -/
def slotTy : Option SFld → STy
  | some f => f.type
  | .none => .struct "" [] (some 0)

theorem slotTy_some (f : SFld) : slotTy (some f) = f.type := rfl

theorem wfs_slotTy {y : Option SFld} (h : ∀ f, y = some f → WFS f.type) : WFS (slotTy y) := by
  cases y with
  | some f => exact h f rfl
  | none => exact .struct List.nodup_nil (by simp)

/-- what is reported on the defaults of a field -/
def slotDef (full : List String) : Option SFld → Option SFld → List Change
  | some f, some g => defaultChanges full f g
  | _, _ => []

theorem slotDef_path {full : List String} {y x : Option SFld} {c : Change} (h : c ∈ slotDef full y x) : c.path = full := by
  cases y <;> cases x <;> simp only [slotDef, List.not_mem_nil] at h
  rcases (defaultChanges_iff _ _ _ _).1 h with ⟨_, _, rfl⟩ | ⟨_, _, _, rfl⟩ <;> rfl

theorem findFields_nil (path : List String) : ∀ nfs, findFields path [] nfs = .ok (allNewF path nfs) := by
  intro nfs
  induction nfs with
  | nil => rw [findFields, allNewF]
  | cons p fs ih =>
    obtain ⟨k, f⟩ := p
    rw [findFields, findFieldP, findField1_slot, ih, allNewF, allNewP]
    obtain ⟨nm, t, d, hd, doc⟩ := f
    simp only [dget, slotChanges, allNewS]
    rfl

theorem removedFields_nil (path : List String) : ∀ ofs, removedFields path [] ofs = allGoneF path ofs := by
  intro ofs
  induction ofs with
  | nil => rw [removedFields, allGoneF]
  | cons p fs ih =>
    obtain ⟨k, f⟩ := p
    rw [removedFields, ih, allGoneF, allGoneP]
    rfl

theorem findChanges_nil_old (path : List String) (nn on : String) (nfs : List (String × SFld)) (nv ov : Option Int) :
    findChanges path (.struct nn nfs nv) (.struct on [] ov) = .ok (allNewF path nfs) := by
  simp only [findChanges, findFields_nil, removedFields, bind, Except.bind, pure, Except.pure, List.append_nil]

theorem findChanges_nil_new (path : List String) (nn on : String) (ofs : List (String × SFld)) (nv ov : Option Int) :
    findChanges path (.struct nn [] nv) (.struct on ofs ov) = .ok (allGoneF path ofs) := by
  simp only [findChanges, findFields, removedFields_nil, bind, Except.bind, pure, Except.pure, List.nil_append]

theorem slot_sameWrap (full : List String) (y x : Option SFld) (h : SameWrap (slotTy x) (slotTy y)) :
    slotChanges full y x = (do
      let cs ← findChanges full (slotTy x).unwrap (slotTy y).unwrap
      return cs ++ slotDef full y x) := by
  cases y with
  | none =>
    cases x with
    | none => rfl
    | some g =>
      obtain ⟨nm, t, d, hd, doc⟩ := g
      simp only [slotTy, SFld.type] at h ⊢
      cases h
      simp only [slotChanges, SFld.type, STy.isStruct, if_true, STy.unwrap, findChanges_nil_old, slotDef, allNew, bind, Except.bind,
        pure, Except.pure, List.append_nil]
  | some f =>
    cases x with
    | none =>
      obtain ⟨nm, t, d, hd, doc⟩ := f
      simp only [slotTy, SFld.type] at h ⊢
      cases h
      simp only [slotChanges, SFld.type, STy.isStruct, if_true, STy.unwrap, findChanges_nil_new, slotDef, allGone, bind, Except.bind,
        pure, Except.pure, List.append_nil]
    | some g =>
      simp only [slotTy] at h ⊢
      simp only [slotChanges, slotDef, h.isStruct]
      rw [← h.find]
      cases f.type.isStruct <;> rfl

/-- `Open new old p x y`: the path `p` leads, through structs in the same containers in both schemas, to the field `x` of the
new and `y` of the old schema (either may be absent, as may be the structs above them) -/
inductive Open : STy → STy → List String → Option SFld → Option SFld → Prop
  | here {nn nfs nv on ofs ov k} : Open (.struct nn nfs nv) (.struct on ofs ov) [k] (dget nfs k) (dget ofs k)
  | under {nn nfs nv on ofs ov k k' p x y} : SameWrap (slotTy (dget nfs k)) (slotTy (dget ofs k)) →
      Open (slotTy (dget nfs k)).unwrap (slotTy (dget ofs k)).unwrap (k' :: p) x y →
      Open (.struct nn nfs nv) (.struct on ofs ov) (k :: k' :: p) x y

/-- put a field, or none, at a path of the schema -/
def putSchema (z : Option SFld) : STy → List String → STy
  | .struct n fs v, [k] => .struct n (match z with | some f => dset fs k f | .none => ddel fs k) v
  | .struct n fs v, k :: k' :: ks =>
    let f := (dget fs k).getD (freshField k)
    .struct n (dset fs k (f.setType ((putSchema z f.type.unwrap (k' :: ks)).rewrap f.type))) v
  | s, _ => s

theorem putSchema_isStruct (z : Option SFld) (s : STy) (p : List String) : (putSchema z s p).isStruct = s.isStruct := by
  unfold putSchema; split <;> rfl

theorem getD_type (y : Option SFld) (k : String) : (y.getD (freshField k)).type = slotTy y := by cases y <;> rfl

theorem insertSchema_eq (f : SFld) : ∀ (p : List String) (s : STy), p ≠ [] → insertSchema f s p = .ok (putSchema (some f) s p) := by
  intro p
  induction p with
  | nil => intro s h; exact absurd rfl h
  | cons k ks ih =>
    intro s _
    cases ks with
    | nil => cases s <;> rfl
    | cons k' ks =>
      cases s <;> try rfl
      rename_i n fs v
      simp only [insertSchema, putSchema, ih _ (List.cons_ne_nil _ _), bind, Except.bind, pure, Except.pure]

theorem open_ne_nil {new old : STy} {p : List String} {x y : Option SFld} (h : Open new old p x y) : p ≠ [] := by cases h <;> simp

theorem open_isStruct {new old : STy} {p : List String} {x y : Option SFld} (h : Open new old p x y) :
    new.isStruct = true ∧ old.isStruct = true := by cases h <;> exact ⟨rfl, rfl⟩

theorem removeSchema_some {new old : STy} {p : List String} {x y : Option SFld} (h : Open new old p x y) :
    ∀ f, y = some f → removeSchema old p = .ok (putSchema .none old p, some f) := by
  induction h with
  | here => intro f hf; simp only [removeSchema, hf, putSchema]
  | @under nn nfs nv on ofs ov k k' p x y hw hop ih =>
    intro f hf
    have := ih f hf
    cases hk : dget ofs k with
    | none =>
      rw [hk] at this
      simp only [slotTy, STy.unwrap] at this
      cases p <;> simp only [removeSchema, dget] at this <;> exact (nomatch this)
    | some g =>
      rw [hk] at this
      simp only [slotTy] at this
      simp only [removeSchema, hk, this, putSchema, bind, Except.bind, pure, Except.pure, Option.getD_some]

theorem removeSchema_none {new old : STy} {p : List String} {x y : Option SFld} (h : Open new old p x y) :
    y = .none → removeSchema old p = .ok (old, .none) := by
  induction h with
  | here => intro hf; simp only [removeSchema, hf]
  | @under nn nfs nv on ofs ov k k' p x y hw hop ih =>
    intro hf
    have := ih hf
    cases hk : dget ofs k with
    | none => simp only [removeSchema, hk]
    | some g =>
      rw [hk] at this hw
      simp only [slotTy] at this hw
      have he : g.setType g.type = g := by cases g; rfl
      simp only [removeSchema, hk, this, bind, Except.bind, pure, Except.pure, hw.rewrap_unwrap, he, dset_same hk]

/-! ## the report after one field is put -/

theorem slotDef_setType (full : List String) (y x : Option SFld) (k : String) (t : STy) :
    slotDef full (some ((y.getD (freshField k)).setType t)) x = slotDef full y x := by
  cases x with
  | none => cases y <;> rfl
  | some g =>
    cases y with
    | none =>
      obtain ⟨n, u, d, h, doc⟩ := g
      cases h <;> rfl
    | some f => cases f; rfl

theorem not_prefix_self {full p : List String} (hp : p ≠ []) : ¬ full ++ p <+: full := by
  intro h
  have := h.length_le
  rw [List.length_append] at this
  have := List.length_pos_iff.2 hp
  omega

theorem prefix_append_of {a b c : List String} (h : a ++ b <+: c) : a <+: c := (List.prefix_append _ _).trans h

theorem open_put {new old : STy} {p : List String} {x y : Option SFld} (h : Open new old p x y) (hn : WFS new) (ho : WFS old)
    {z : Option SFld} (hz : ∀ f, z = some f → WFS f.type) {ds : List Change} :
    ∀ {path : List String} {cs : List Change}, findChanges path new old = .ok cs → slotChanges (path ++ p) z x = .ok ds →
      WFS (putSchema z old p) ∧ ∃ cs', findChanges path new (putSchema z old p) = .ok cs' ∧
        ∀ c, c ∈ cs' ↔ (c ∈ cs ∧ ¬ path ++ p <+: c.path) ∨ c ∈ ds := by
  induction h with
  | @here nn nfs nv on ofs ov k =>
    intro path cs hcs hds
    have hwf : WFS (putSchema z (.struct on ofs ov) [k]) := by
      cases z with
      | none => exact ho.ddel k
      | some f => exact ho.dset (hz f rfl) k
    refine ⟨hwf, ?_⟩
    simp only [putSchema] at hwf ⊢
    refine struct_update hn ho hwf hcs ?_ ?_
    · intro k' hk'
      cases z with
      | none => exact dget_ddel_ne _ hk'
      | some f => exact dget_dset_ne _ _ hk'
    · cases z with
      | none => simp only [dget_ddel_self]; exact hds
      | some f => simp only [dget_dset_self]; exact hds
  | @under nn nfs nv on ofs ov k k' p x y hw hop ih =>
    intro path cs hcs hds
    have hwn := wfs_slotTy (fun g hg => hn.fld (k := k) hg)
    have hwo := wfs_slotTy (fun g hg => ho.fld (k := k) hg)
    obtain ⟨es, hes, hmem⟩ := struct_get hn ho hcs k
    rw [slot_sameWrap _ _ _ hw] at hes
    simp only [bind, Except.bind, pure, Except.pure] at hes
    cases h1 : findChanges (path ++ [k]) (slotTy (dget nfs k)).unwrap (slotTy (dget ofs k)).unwrap with
    | error e => rw [h1] at hes; exact (nomatch hes)
    | ok cs1 =>
      rw [h1] at hes
      cases hes
      have hpath : path ++ k :: k' :: p = path ++ [k] ++ (k' :: p) := by simp
      rw [hpath] at hds
      obtain ⟨hwf1, cs2, h2, hm2⟩ := ih hwn.unwrap hwo.unwrap h1 hds
      simp only [putSchema, getD_type]
      have hst : (putSchema z (slotTy (dget ofs k)).unwrap (k' :: p)).isStruct = true := by
        rw [putSchema_isStruct]; exact hw.right
      obtain ⟨hw2, hu2⟩ := hw.rewrap hst
      have hwf2 := hw.wfs hwf1
      have hwf3 : WFS (.struct on (dset ofs k (((dget ofs k).getD (freshField k)).setType
          ((putSchema z (slotTy (dget ofs k)).unwrap (k' :: p)).rewrap (slotTy (dget ofs k))))) ov) :=
        ho.dset (by rw [setType_type]; exact hwf2) k
      refine ⟨hwf3, ?_⟩
      obtain ⟨cs3, h3, hm3⟩ := struct_update (ds := cs2 ++ slotDef (path ++ [k]) (dget ofs k) (dget nfs k)) hn ho hwf3 hcs
        (fun k' hk' => dget_dset_ne _ _ hk') (by
          rw [dget_dset_self, slot_sameWrap]
          · rw [slotTy_some, setType_type, hu2, slotDef_setType, h2]; rfl
          · rw [slotTy_some, setType_type]
            exact hw2)
      refine ⟨cs3, h3, fun c => ?_⟩
      rw [hm3, List.mem_append, hm2, hpath]
      have hm := hmem c
      rw [List.mem_append] at hm
      constructor
      · rintro (⟨hc, hp⟩ | (⟨hc, hp⟩ | hc) | hc)
        · exact .inl ⟨hc, fun h => hp (prefix_append_of h)⟩
        · exact .inl ⟨(hm.1 (.inl hc)).1, hp⟩
        · exact .inr hc
        · refine .inl ⟨(hm.1 (.inr hc)).1, ?_⟩
          rw [slotDef_path hc]
          exact not_prefix_self (by simp)
      · rintro (⟨hc, hp⟩ | hc)
        · by_cases hf : path ++ [k] <+: c.path
          · rcases hm.2 ⟨hc, hf⟩ with h | h
            · exact .inr (.inl (.inl ⟨h, hp⟩))
            · exact .inr (.inr h)
          · exact .inl ⟨hc, hf⟩
        · exact .inr (.inl (.inr hc))

theorem open_get {new old : STy} {p : List String} {x y : Option SFld} (h : Open new old p x y) (hn : WFS new) (ho : WFS old) :
    ∀ {path : List String} {cs : List Change}, findChanges path new old = .ok cs →
      ∃ ds, slotChanges (path ++ p) y x = .ok ds ∧ ∀ c, c ∈ ds ↔ c ∈ cs ∧ path ++ p <+: c.path := by
  induction h with
  | here => intro path cs hcs; exact struct_get hn ho hcs _
  | @under nn nfs nv on ofs ov k k' p x y hw hop ih =>
    intro path cs hcs
    have hwn := wfs_slotTy (fun g hg => hn.fld (k := k) hg)
    have hwo := wfs_slotTy (fun g hg => ho.fld (k := k) hg)
    obtain ⟨es, hes, hmem⟩ := struct_get hn ho hcs k
    rw [slot_sameWrap _ _ _ hw] at hes
    simp only [bind, Except.bind, pure, Except.pure] at hes
    cases h1 : findChanges (path ++ [k]) (slotTy (dget nfs k)).unwrap (slotTy (dget ofs k)).unwrap with
    | error e => rw [h1] at hes; exact (nomatch hes)
    | ok cs1 =>
      rw [h1] at hes
      cases hes
      obtain ⟨ds, hds, hm⟩ := ih hwn.unwrap hwo.unwrap h1
      have hpath : path ++ k :: k' :: p = path ++ [k] ++ (k' :: p) := by simp
      rw [hpath]
      refine ⟨ds, hds, fun c => ?_⟩
      rw [hm]
      have hmc := hmem c
      rw [List.mem_append] at hmc
      constructor
      · rintro ⟨hc, hp⟩; exact ⟨(hmc.1 (.inl hc)).1, hp⟩
      · rintro ⟨hc, hp⟩
        rcases hmc.2 ⟨hc, prefix_append_of hp⟩ with h | h
        · exact ⟨h, hp⟩
        · rw [slotDef_path h] at hp
          exact absurd hp (not_prefix_self (by simp))

/-! ## which paths are open -/

theorem open_det {new old : STy} {p : List String} {x y x' y' : Option SFld} (h : Open new old p x y) (h' : Open new old p x' y') :
    x = x' ∧ y = y' := by
  induction h with
  | here => cases h'; exact ⟨rfl, rfl⟩
  | under hw hop ih => cases h' with | under _ hop' => exact ih hop'

theorem open_here_of {nn on k : String} {nfs ofs : List (String × SFld)} {nv ov : Option Int} {x y : Option SFld}
    (hx : dget nfs k = x) (hy : dget ofs k = y) : Open (.struct nn nfs nv) (.struct on ofs ov) [k] x y := by
  subst hx; subst hy; exact .here

theorem open_under_of {nn on k k' : String} {nfs ofs ofs' : List (String × SFld)} {nv ov' : Option Int} {p : List String}
    {x y : Option SFld} (he : dget ofs' k = dget ofs k) (hw : SameWrap (slotTy (dget nfs k)) (slotTy (dget ofs k)))
    (hop : Open (slotTy (dget nfs k)).unwrap (slotTy (dget ofs k)).unwrap (k' :: p) x y) :
    Open (.struct nn nfs nv) (.struct on ofs' ov') (k :: k' :: p) x y := by
  rw [← he] at hw hop
  exact .under hw hop

theorem open_put_same {new old : STy} {p : List String} {x y : Option SFld} (h : Open new old p x y) (z : Option SFld) :
    Open new (putSchema z old p) p x z := by
  induction h with
  | here =>
    simp only [putSchema]
    refine open_here_of rfl ?_
    cases z with
    | none => exact dget_ddel_self _ _
    | some f => exact dget_dset_self _ _ _
  | @under nn nfs nv on ofs ov k k' p x y hw hop ih =>
    have hst : (putSchema z (slotTy (dget ofs k)).unwrap (k' :: p)).isStruct = true := by
      rw [putSchema_isStruct]; exact hw.right
    obtain ⟨hw2, hu2⟩ := hw.rewrap hst
    simp only [putSchema, getD_type]
    refine .under ?_ ?_
    · rw [dget_dset_self, slotTy_some, setType_type]; exact hw2
    · rw [dget_dset_self, slotTy_some, setType_type, hu2]; exact ih

theorem open_put_other {new old : STy} {p q : List String} {x y x' y' : Option SFld} (h : Open new old p x y) (z : Option SFld)
    (h' : Open new old q x' y') (h1 : ¬ p <+: q) (h2 : ¬ q <+: p) : Open new (putSchema z old p) q x' y' := by
  induction h generalizing q with
  | @here nn nfs nv on ofs ov k =>
    have hne : ∀ k2, k ≠ k2 → dget (match z with | some f => dset ofs k f | .none => ddel ofs k) k2 = dget ofs k2 := by
      intro k2 hk
      cases z with
      | none => exact dget_ddel_ne _ hk
      | some f => exact dget_dset_ne _ _ hk
    simp only [putSchema]
    cases h' with
    | @here _ _ _ _ _ _ k2 =>
      exact open_here_of rfl (hne k2 (fun he => h1 (he ▸ List.prefix_refl _)))
    | @under _ _ _ _ _ _ k2 k3 q _ _ hw hop =>
      refine open_under_of (hne k2 (fun he => h1 ?_)) hw hop
      subst he
      exact List.prefix_append [k] _
  | @under nn nfs nv on ofs ov k k' p x y hw hop ih =>
    have hst : (putSchema z (slotTy (dget ofs k)).unwrap (k' :: p)).isStruct = true := by
      rw [putSchema_isStruct]; exact hw.right
    obtain ⟨hw2, hu2⟩ := hw.rewrap hst
    simp only [putSchema, getD_type]
    cases h' with
    | @here _ _ _ _ _ _ k2 =>
      refine open_here_of rfl (dget_dset_ne _ _ (fun he => h2 ?_))
      subst he
      exact List.prefix_append [k] _
    | @under _ _ _ _ _ _ k2 k3 q _ _ hw' hop' =>
      by_cases he : k = k2
      · subst he
        refine .under ?_ ?_
        · rw [dget_dset_self, slotTy_some, setType_type]; exact hw2
        · rw [dget_dset_self, slotTy_some, setType_type, hu2]
          refine ih hop' (fun h => h1 ?_) (fun h => h2 ?_)
          · obtain ⟨r, hr⟩ := h; exact ⟨r, by rw [List.cons_append, hr]⟩
          · obtain ⟨r, hr⟩ := h; exact ⟨r, by rw [List.cons_append, hr]⟩
      · exact open_under_of (dget_dset_ne _ _ he) hw' hop'

/-! ## where a change is -/

theorem sameWrap_or_here {o n : STy} : ∀ {full : List String} {cs : List Change}, findChanges full n o = .ok cs →
    o.isStruct = false ∨ n.isStruct = false → SameWrap n o ∨ ∀ c ∈ cs, c.path = full := by
  induction n using STy.unwrap.induct generalizing o with
  | case1 t ih =>
    intro full cs h _
    cases o with
    | list u =>
      rw [findChanges] at h
      by_cases hb : u.isStruct = false ∨ t.isStruct = false
      · rcases ih h hb with h | h
        · exact .inl (.list h)
        · exact .inr h
      · cases u <;> cases t <;> first | exact .inl (.list .struct) | exact absurd (.inl rfl) hb | exact absurd (.inr rfl) hb
    | _ => simp only [findChanges] at h; cases h; right; intro c hc; rw [List.mem_singleton.1 hc]; rfl
  | case2 t ih =>
    intro full cs h _
    cases o with
    | option u =>
      rw [findChanges] at h
      by_cases hb : u.isStruct = false ∨ t.isStruct = false
      · rcases ih h hb with h | h
        · exact .inl (.option h)
        · exact .inr h
      · cases u <;> cases t <;> first | exact .inl (.option .struct) | exact absurd (.inl rfl) hb | exact absurd (.inr rfl) hb
    | _ => simp only [findChanges] at h; cases h; right; intro c hc; rw [List.mem_singleton.1 hc]; rfl
  | case3 n h1 h2 =>
    intro full cs h hs
    right
    intro c hc
    cases n with
    | list t => exact absurd rfl (h1 t)
    | option t => exact absurd rfl (h2 t)
    | struct nn nfs nv =>
      have hs : o.isStruct = false := hs.resolve_right (by simp [STy.isStruct])
      cases o <;> first | (simp only [findChanges] at h; cases h; rw [List.mem_singleton.1 hc]; rfl) | exact Bool.noConfusion hs
    | prim s =>
      cases o with
      | prim s' =>
        simp only [findChanges] at h; cases h
        split at hc
        · exact (nomatch hc)
        · rw [List.mem_singleton.1 hc]; rfl
      | _ => simp only [findChanges] at h; cases h; rw [List.mem_singleton.1 hc]; rfl
    | enum nn nvs =>
      cases o with
      | enum on ovs =>
        simp only [findChanges] at h; cases h
        simp only [enumChanges, List.mem_append, List.mem_flatMap] at hc
        rcases hc with ⟨kv, _, hc⟩ | ⟨kv, _, hc⟩
        · split at hc
          · rw [List.mem_singleton.1 hc]; rfl
          · split at hc
            · exact (nomatch hc)
            · rw [List.mem_singleton.1 hc]; rfl
        · split at hc
          · exact (nomatch hc)
          · rw [List.mem_singleton.1 hc]; rfl
      | _ => simp only [findChanges] at h; cases h; rw [List.mem_singleton.1 hc]; rfl
    | literal nvs =>
      cases o with
      | literal ovs =>
        simp only [findChanges] at h; cases h
        simp only [literalChanges, List.mem_append] at hc
        rcases hc with hc | hc
        · split at hc
          · exact (nomatch hc)
          · rw [List.mem_singleton.1 hc]; rfl
        · split at hc
          · exact (nomatch hc)
          · rw [List.mem_singleton.1 hc]; rfl
      | _ => simp only [findChanges] at h; cases h; rw [List.mem_singleton.1 hc]; rfl
    | tuple ns => cases o <;> simp only [findChanges] at h <;> cases h; all_goals (rw [List.mem_singleton.1 hc]; rfl)
    | dict k v => cases o <;> simp only [findChanges] at h <;> cases h; all_goals (rw [List.mem_singleton.1 hc]; rfl)
    | union ns => cases o <;> simp only [findChanges] at h <;> cases h; all_goals (rw [List.mem_singleton.1 hc]; rfl)
    | nothing => cases o <;> simp only [findChanges] at h <;> cases h; all_goals (rw [List.mem_singleton.1 hc]; rfl)

/-- a field holds the same containers around structs in both schemas, or all changes are reported for the field itself, or it
has become a struct or ceased to be one -/
theorem slot_cases {full : List String} {y x : Option SFld} {ds : List Change} (h : slotChanges full y x = .ok ds) :
    SameWrap (slotTy x) (slotTy y) ∨ (∀ c ∈ ds, c.path = full) ∨ ∃ d ∈ ds, d.structural = true ∧ d.path = full := by
  cases y with
  | none =>
    cases x with
    | none => left; exact .struct
    | some g =>
      simp only [slotChanges] at h
      cases h
      cases hg : g.type.isStruct with
      | true =>
        left
        obtain ⟨nm, t, d, hd, doc⟩ := g
        cases t <;> first | exact .struct | exact (nomatch hg)
      | false =>
        right; left
        intro c hc
        rw [if_neg (by simp)] at hc
        rw [List.mem_singleton.1 hc]; rfl
  | some f =>
    cases x with
    | none =>
      simp only [slotChanges] at h
      cases h
      cases hg : f.type.isStruct with
      | true =>
        left
        obtain ⟨nm, t, d, hd, doc⟩ := f
        cases t <;> first | exact .struct | exact (nomatch hg)
      | false =>
        right; left
        intro c hc
        rw [if_neg (by simp)] at hc
        rw [List.mem_singleton.1 hc]; rfl
    | some g =>
      simp only [slotChanges] at h
      cases hf : f.type.isStruct with
      | true =>
        cases hg : g.type.isStruct with
        | true =>
          left
          obtain ⟨nm, t, d, hd, doc⟩ := g
          obtain ⟨nm', t', d', hd', doc'⟩ := f
          cases t <;> cases t' <;> first | exact .struct | exact Bool.noConfusion hf | exact Bool.noConfusion hg
        | false =>
          rw [hf, hg] at h
          cases h
          exact .inr (.inr ⟨_, List.mem_cons_self .., rfl, rfl⟩)
      | false =>
        cases hg : g.type.isStruct with
        | true =>
          rw [hf, hg] at h
          cases h
          exact .inr (.inr ⟨_, List.mem_cons_self .., rfl, rfl⟩)
        | false =>
          rw [hf, hg] at h
          simp only [Bool.not_false, Bool.and_true, Bool.false_eq_true, if_false, bind, Except.bind, pure, Except.pure] at h
          cases h1 : findChanges full g.type f.type with
          | error e => rw [h1] at h; exact (nomatch h)
          | ok q =>
            rw [h1] at h
            cases h
            rcases sameWrap_or_here h1 (.inl hf) with h | h
            · exact .inl h
            · right; left
              intro c hc
              rcases List.mem_append.1 hc with hc | hc
              · exact h c hc
              · rcases (defaultChanges_iff _ _ _ _).1 hc with ⟨_, _, rfl⟩ | ⟨_, _, _, rfl⟩ <;> rfl

theorem open_of_change (N : Nat) : ∀ {new old : STy} {path : List String} {cs : List Change}, new.isStruct = true →
    old.isStruct = true → WFS new → WFS old → findChanges path new old = .ok cs → ∀ {c : Change}, c ∈ cs →
    c.path.length ≤ path.length + N →
    (∀ d ∈ cs, d.structural = true → d.path <+: c.path → d.path = c.path) →
    ∃ p x y, Open new old p x y ∧ c.path = path ++ p := by
  induction N with
  | zero =>
    intro new old path cs hns hos hn ho h c hc hlen _
    exfalso
    cases new with
    | struct nn nfs nv =>
      cases old with
      | struct on ofs ov =>
        obtain ⟨k, ds, h1, h2⟩ := (findChanges_struct_iff hn.keys ho.keys h c).1 hc
        have := (slot_path (fun f hf => ho.fld hf) (fun g hg => hn.fld hg) h1 h2).length_le
        rw [List.length_append] at this
        simp only [List.length_cons, List.length_nil] at this
        omega
      | _ => exact (nomatch hos)
    | _ => exact (nomatch hns)
  | succ N ih =>
    intro new old path cs hns hos hn ho h c hc hlen hpre
    cases new with
    | struct nn nfs nv =>
      cases old with
      | struct on ofs ov =>
        obtain ⟨k, ds, h1, h2⟩ := (findChanges_struct_iff hn.keys ho.keys h c).1 hc
        have hfull := slot_path (fun f hf => ho.fld hf) (fun g hg => hn.fld hg) h1 h2
        by_cases hhere : c.path = path ++ [k]
        · exact ⟨[k], _, _, .here, hhere⟩
        rcases slot_cases h1 with hw | hall | ⟨d, hd, hds, hdp⟩
        · rw [slot_sameWrap _ _ _ hw] at h1
          simp only [bind, Except.bind, pure, Except.pure] at h1
          cases h3 : findChanges (path ++ [k]) (slotTy (dget nfs k)).unwrap (slotTy (dget ofs k)).unwrap with
          | error e => rw [h3] at h1; exact (nomatch h1)
          | ok cs1 =>
            rw [h3] at h1
            cases h1
            rcases List.mem_append.1 h2 with h2 | h2
            · have hlen' : c.path.length ≤ (path ++ [k]).length + N := by
                rw [List.length_append, List.length_singleton]; omega
              obtain ⟨p, x, y, hop, hp⟩ := ih hw.left hw.right (wfs_slotTy (fun g hg => hn.fld hg)).unwrap
                (wfs_slotTy (fun g hg => ho.fld hg)).unwrap h3 h2 hlen' (by
                  intro d hd
                  refine hpre d ((findChanges_struct_iff hn.keys ho.keys h d).2 ⟨k, cs1 ++ slotDef (path ++ [k]) (dget ofs k) (dget nfs k), ?_, List.mem_append_left _ hd⟩)
                  rw [slot_sameWrap _ _ _ hw, h3]; rfl)
              cases p with
              | nil => exact absurd rfl (open_ne_nil hop)
              | cons k' p => exact ⟨k :: k' :: p, x, y, .under hw hop, by rw [hp]; simp⟩
            · exact absurd (slotDef_path h2) hhere
        · exact absurd (hall c h2) hhere
        · exfalso
          apply hhere
          rw [← hdp]
          refine (hpre d ?_ hds ?_).symm
          · exact (findChanges_struct_iff hn.keys ho.keys h d).2 ⟨k, ds, h1, hd⟩
          · rw [hdp]; exact hfull
      | _ => exact (nomatch hos)
    | _ => exact (nomatch hns)

end HS
