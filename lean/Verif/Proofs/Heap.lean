import Verif.Model.Heap
/-!
# Rules on dict objects do what rules on trees do
-/
namespace HS

/-! ## documents as trees of objects -/

/-- a value together with the addresses of its dict objects -/
inductive OTree where
  | leaf (v : Val)
  | node (a : Nat) (kvs : List (String × OTree))

/-- the value as Python sees it -/
def OTree.root : OTree → HVal
  | .leaf v => .leaf v
  | .node a _ => .ref a

def rootD (d : List (String × OTree)) : List (String × HVal) := d.map fun p => (p.1, p.2.root)

mutual
/-- the contents -/
def OTree.tree : OTree → Val
  | .leaf v => v
  | .node _ kvs => .dict (treeD kvs)
termination_by structural x => x
def treeD : List (String × OTree) → List (String × Val)
  | [] => []
  | p :: kvs => treeP p :: treeD kvs
termination_by structural x => x
def treeP : String × OTree → String × Val
  | (k, t) => (k, t.tree)
termination_by structural x => x
end

mutual
/-- how often an address is used -/
def OTree.cnt (x : Nat) : OTree → Nat
  | .leaf _ => 0
  | .node a kvs => (if a = x then 1 else 0) + cntD x kvs
termination_by structural t => t
def cntD (x : Nat) : List (String × OTree) → Nat
  | [] => 0
  | p :: kvs => cntP x p + cntD x kvs
termination_by structural t => t
def cntP (x : Nat) : String × OTree → Nat
  | (_, t) => t.cnt x
termination_by structural t => t
end

mutual
/-- the memory holds this value -/
def Stored (m : Nat → List (String × HVal)) : OTree → Prop
  | .leaf v => v.isDict = false
  | .node a kvs => m a = rootD kvs ∧ StoredD m kvs
termination_by structural t => t
def StoredD (m : Nat → List (String × HVal)) : List (String × OTree) → Prop
  | [] => True
  | p :: kvs => StoredP m p ∧ StoredD m kvs
termination_by structural t => t
def StoredP (m : Nat → List (String × HVal)) : String × OTree → Prop
  | (_, t) => Stored m t
termination_by structural t => t
end

theorem treeD_map : ∀ d, treeD d = d.map fun p => (p.1, p.2.tree)
  | [] => rfl
  | (k, t) :: d => by rw [treeD, treeP, treeD_map d]; rfl

theorem dget_vmap {α β : Type} (f : α → β) (k : String) : ∀ d : List (String × α),
    dget (d.map fun p => (p.1, f p.2)) k = (dget d k).map f
  | [] => rfl
  | (k', v) :: d => by
    simp only [List.map_cons, dget]
    split
    · rfl
    · exact dget_vmap f k d

theorem dset_vmap {α β : Type} (f : α → β) (k : String) (w : α) : ∀ d : List (String × α),
    dset (d.map fun p => (p.1, f p.2)) k (f w) = (dset d k w).map fun p => (p.1, f p.2)
  | [] => rfl
  | (k', v) :: d => by
    simp only [List.map_cons, dset]
    split
    · rfl
    · rw [List.map_cons, dset_vmap f k w d]

theorem ddel_vmap {α β : Type} (f : α → β) (k : String) : ∀ d : List (String × α),
    ddel (d.map fun p => (p.1, f p.2)) k = (ddel d k).map fun p => (p.1, f p.2)
  | [] => rfl
  | (k', v) :: d => by
    simp only [List.map_cons, ddel]
    split
    · exact ddel_vmap f k d
    · rw [List.map_cons, ddel_vmap f k d]

theorem dset_noop {α : Type} {k : String} {w : α} : ∀ {d : List (String × α)}, dget d k = some w → dset d k w = d
  | [], h => nomatch h
  | (k', v) :: d, h => by
    simp only [dget] at h
    simp only [dset]
    split at h
    · rename_i e; cases h; cases e; simp
    · rename_i e; rw [if_neg e, dset_noop h]

theorem dget_dset_same' {α : Type} {k : String} {w : α} : ∀ {d : List (String × α)}, dget (dset d k w) k = some w
  | [] => by simp [dset, dget]
  | (k', v) :: d => by
    simp only [dset]
    split
    · simp [dget]
    · rename_i e; simp only [dget, if_neg e]; exact dget_dset_same'

theorem dset_twice' {α : Type} {k : String} {u w : α} : ∀ {d : List (String × α)}, dset (dset d k u) k w = dset d k w
  | [] => by simp [dset]
  | (k', v) :: d => by
    by_cases e : k' = k
    · simp [dset, e]
    · simp only [dset, if_neg e]; rw [dset_twice']

theorem rootD_dget (d : List (String × OTree)) (k : String) : dget (rootD d) k = (dget d k).map OTree.root := dget_vmap _ _ _
theorem rootD_dset (d : List (String × OTree)) (k : String) (w : OTree) : dset (rootD d) k w.root = rootD (dset d k w) := dset_vmap _ _ _ _
theorem rootD_ddel (d : List (String × OTree)) (k : String) : ddel (rootD d) k = rootD (ddel d k) := ddel_vmap _ _ _
theorem treeD_dget (d : List (String × OTree)) (k : String) : dget (treeD d) k = (dget d k).map OTree.tree := by
  rw [treeD_map]; exact dget_vmap _ _ _
theorem treeD_dset (d : List (String × OTree)) (k : String) (w : OTree) : dset (treeD d) k w.tree = treeD (dset d k w) := by
  rw [treeD_map, treeD_map]; exact dset_vmap _ _ _ _
theorem treeD_ddel (d : List (String × OTree)) (k : String) : ddel (treeD d) k = treeD (ddel d k) := by
  rw [treeD_map, treeD_map]; exact ddel_vmap _ _ _

theorem cntD_ddel {x : Nat} {k : String} {c : OTree} : ∀ {d}, dget d k = some c → cntD x (ddel d k) + c.cnt x ≤ cntD x d
  | [], h => nomatch h
  | (k', v) :: d, h => by
    simp only [dget] at h
    simp only [ddel, cntD, cntP]
    split at h
    · rename_i e
      cases h
      simp only [e, if_true]
      have : ∀ d : List (String × OTree), cntD x (ddel d k) ≤ cntD x d := by
        intro d
        induction d with
        | nil => simp [ddel]
        | cons p d ih =>
          obtain ⟨k'', v''⟩ := p
          simp only [ddel]
          split
          · simp only [cntD]; omega
          · simp only [cntD]; omega
      have := this d
      omega
    · rename_i e
      simp only [e, if_false, cntD, cntP]
      have := cntD_ddel (x := x) h
      omega

theorem cntD_dset_some {x : Nat} {k : String} {c w : OTree} : ∀ {d}, dget d k = some c →
    cntD x (dset d k w) + c.cnt x = cntD x d + w.cnt x
  | [], h => nomatch h
  | (k', v) :: d, h => by
    simp only [dget] at h
    simp only [dset]
    split at h
    · rename_i e
      cases h
      simp only [e, if_true, cntD, cntP]; omega
    · rename_i e
      simp only [e, if_false, cntD, cntP]
      have := cntD_dset_some (x := x) (w := w) h
      omega

theorem cntD_dset_none {x : Nat} {k : String} {w : OTree} : ∀ {d}, dget d k = none → cntD x (dset d k w) = cntD x d + w.cnt x
  | [], _ => by simp [dset, cntD, cntP]
  | (k', v) :: d, h => by
    simp only [dget] at h
    simp only [dset]
    split at h
    · exact nomatch h
    · rename_i e
      simp only [e, if_false, cntD, cntP]
      have := cntD_dset_none (x := x) (w := w) h
      omega

theorem cnt_le_cntD {x : Nat} {k : String} {c : OTree} {d : List (String × OTree)} (h : dget d k = some c) : c.cnt x ≤ cntD x d := by
  have := cntD_ddel (x := x) h; omega

theorem StoredD_dget {m : Nat → List (String × HVal)} {k : String} {c : OTree} : ∀ {d}, StoredD m d → dget d k = some c → Stored m c
  | [], _, h => nomatch h
  | (k', v) :: d, hs, h => by
    simp only [dget] at h
    simp only [StoredD, StoredP] at hs
    split at h
    · cases h; exact hs.1
    · exact StoredD_dget hs.2 h

theorem StoredD_dset {m : Nat → List (String × HVal)} {k : String} {w : OTree} (hw : Stored m w) : ∀ {d}, StoredD m d → StoredD m (dset d k w)
  | [], _ => by simp [dset, StoredD, StoredP, hw]
  | (k', v) :: d, hs => by
    simp only [StoredD, StoredP] at hs
    simp only [dset]
    split
    · exact ⟨hw, hs.2⟩
    · exact ⟨hs.1, StoredD_dset hw hs.2⟩

theorem StoredD_ddel {m : Nat → List (String × HVal)} {k : String} : ∀ {d}, StoredD m d → StoredD m (ddel d k)
  | [], _ => trivial
  | (k', v) :: d, hs => by
    simp only [StoredD, StoredP] at hs
    simp only [ddel]
    split
    · exact StoredD_ddel hs.2
    · exact ⟨hs.1, StoredD_ddel hs.2⟩

mutual
theorem Stored.frame {m m' : Nat → List (String × HVal)} : ∀ (t : OTree), (∀ x, 0 < t.cnt x → m' x = m x) → Stored m t → Stored m' t
  | .leaf _, _, h => h
  | .node a kvs, hf, h => by
    simp only [Stored] at h ⊢
    refine ⟨by rw [hf a (by simp only [OTree.cnt, if_true]; omega), h.1], StoredD.frame kvs (fun x hx => hf x ?_) h.2⟩
    simp only [OTree.cnt]; omega
termination_by structural t => t
theorem StoredD.frame {m m' : Nat → List (String × HVal)} : ∀ (d : List (String × OTree)), (∀ x, 0 < cntD x d → m' x = m x) →
    StoredD m d → StoredD m' d
  | [], _, _ => trivial
  | p :: d, hf, h => by
    simp only [StoredD] at h ⊢
    exact ⟨StoredP.frame p (fun x hx => hf x (by simp only [cntD]; omega)) h.1,
      StoredD.frame d (fun x hx => hf x (by simp only [cntD]; omega)) h.2⟩
termination_by structural d => d
theorem StoredP.frame {m m' : Nat → List (String × HVal)} : ∀ (p : String × OTree), (∀ x, 0 < cntP x p → m' x = m x) →
    StoredP m p → StoredP m' p
  | (_, t), hf, h => Stored.frame t hf h
termination_by structural p => p
end

/-- one entry is replaced, and the memory changed only in its objects -/
theorem StoredD_change {m m' : Nat → List (String × HVal)} {k : String} {c w : OTree} (hw : Stored m' w) :
    ∀ {d}, (∀ x, c.cnt x = 0 → 0 < cntD x d → m' x = m x) → StoredD m d → dget d k = some c → (∀ x, cntD x d ≤ 1) →
      StoredD m' (dset d k w)
  | [], _, _, h, _ => nomatch h
  | (k', v) :: d, hf, hs, h, hsep => by
    simp only [dget] at h
    simp only [StoredD, StoredP] at hs
    simp only [cntD, cntP] at hsep hf
    simp only [dset]
    split at h
    · rename_i e
      cases h
      simp only [e, if_true]
      refine ⟨hw, StoredD.frame d (fun x hx => hf x ?_ (by omega)) hs.2⟩
      have := hsep x
      omega
    · rename_i e
      simp only [e, if_false]
      refine ⟨Stored.frame v (fun x hx => hf x ?_ (by omega)) hs.1,
        StoredD_change hw (fun x h0 hx => hf x h0 (by omega)) hs.2 h (fun x => by have := hsep x; omega)⟩
      have := hsep x
      have := cnt_le_cntD (x := x) h
      omega

/-! ## removing -/

def optCnt (x : Nat) : Option OTree → Nat
  | some t => t.cnt x
  | .none => 0

structure RemOut (h : Heap) (t : OTree) (h' : Heap) (t' : OTree) (r : Option OTree) : Prop where
  root : t'.root = t.root
  st : Stored h'.mem t'
  str : ∀ v, r = some v → Stored h'.mem v
  next : h'.next = h.next
  cnt : ∀ x, t'.cnt x + optCnt x r ≤ t.cnt x
  frame : ∀ x, t.cnt x = 0 → h'.mem x = h.mem x

theorem RemOut.refl {h : Heap} {t : OTree} (hs : Stored h.mem t) : RemOut h t h t none :=
  { root := rfl, st := hs, str := fun _ e => (nomatch e), next := rfl, cnt := fun _ => Nat.le_refl _, frame := fun _ _ => rfl }

theorem getItem_leaf {v : Val} (h : v.isDict = false) (k : String) : pyGetItem k v = .error .typeError := by
  cases v <;> first | rfl | exact (nomatch h)

theorem isNone_root (t : OTree) : t.root.isNone = t.tree.isNone := by
  cases t <;> rfl

theorem remove_ok : ∀ (p : List String) (t : OTree) (h : Heap), Stored h.mem t → (∀ x, t.cnt x ≤ 1) →
    (∃ e, removePath t.tree p = .error e ∧ removeH h t.root p = .error e) ∨
    ∃ h' t' r, removePath t.tree p = .ok (t'.tree, r.map OTree.tree) ∧ removeH h t.root p = .ok (h', r.map OTree.root) ∧ RemOut h t h' t' r
  | [], t, h, _, _ => .inl ⟨.assertionError, by cases t <;> rfl, by cases t <;> rfl⟩
  | [k], .leaf v, h, hs, _ => by
    refine .inr ⟨h, .leaf v, none, ?_, rfl, RemOut.refl hs⟩
    simp only [Stored] at hs
    cases v <;> first | rfl | exact (nomatch hs)
  | [k], .node a d, h, hs, hsep => by
    have hs' := hs
    simp only [Stored] at hs
    simp only [OTree.tree, OTree.root, removePath, removeH, hs.1, treeD_dget, rootD_dget]
    cases hd : dget d k with
    | none => exact .inr ⟨h, .node a d, none, rfl, rfl, RemOut.refl hs'⟩
    | some c =>
      refine .inr ⟨h.upd a (ddel (rootD d) k), .node a (ddel d k), some c, ?_, rfl, rfl, ?_, ?_, rfl, ?_, ?_⟩
      · simp only [Option.map_some, OTree.tree, treeD_ddel]
      · have hfr : ∀ x, 0 < cntD x (ddel d k) → (h.upd a (ddel (rootD d) k)).mem x = h.mem x := by
          intro x hx
          have h1 := hsep x
          simp only [OTree.cnt] at h1
          have h2 := cntD_ddel (x := x) hd
          have : x ≠ a := by rintro rfl; simp at h1; omega
          simp [Heap.upd, this]
        refine ⟨by simp [Heap.upd, rootD_ddel], StoredD.frame _ hfr (StoredD_ddel hs.2)⟩
      · intro v hv
        cases hv
        refine Stored.frame _ (fun x hx => ?_) (StoredD_dget hs.2 hd)
        have h1 := hsep x
        simp only [OTree.cnt] at h1
        have h2 := cntD_ddel (x := x) hd
        have : x ≠ a := by rintro rfl; simp at h1; omega
        simp [Heap.upd, this]
      · intro x
        simp only [OTree.cnt, optCnt]
        have h2 := cntD_ddel (x := x) hd
        omega
      · intro x hx
        simp only [OTree.cnt] at hx
        have : x ≠ a := by rintro rfl; simp at hx
        simp [Heap.upd, this]
  | k :: k' :: ks, .leaf v, h, hs, _ => by
    have hs' := hs
    simp only [Stored] at hs
    simp only [OTree.tree, OTree.root, removePath, removeH, pyInH, pyGetItemH, getItem_leaf hs, bind, Except.bind, pure, Except.pure,
      Except.map]
    cases pyIn k v with
    | error e => exact .inl ⟨e, rfl, rfl⟩
    | ok b =>
      cases b
      · exact .inr ⟨h, .leaf v, none, rfl, rfl, RemOut.refl hs'⟩
      · exact .inl ⟨_, rfl, rfl⟩
  | k :: k' :: ks, .node a d, h, hs, hsep => by
    have hs' := hs
    simp only [Stored] at hs
    simp only [OTree.tree, OTree.root, removePath, removeH, pyIn, pyInH, pyGetItem, pyGetItemH, dhas, hs.1, treeD_dget, rootD_dget, bind,
      Except.bind, pure, Except.pure]
    cases hd : dget d k with
    | none => exact .inr ⟨h, .node a d, none, rfl, rfl, RemOut.refl hs'⟩
    | some c =>
      simp only [Option.map_some, Option.isSome_some, Bool.not_true, Bool.false_eq_true, if_false, isNone_root]
      cases hn : c.tree.isNone with
      | true => exact .inr ⟨h, .node a d, none, rfl, rfl, RemOut.refl hs'⟩
      | false =>
        simp only [Bool.false_eq_true, if_false]
        have hle : ∀ x, c.cnt x ≤ cntD x d := fun x => cnt_le_cntD hd
        have hsepD : ∀ x, cntD x d ≤ 1 := fun x => by have := hsep x; simp only [OTree.cnt] at this; omega
        rcases remove_ok (k' :: ks) c h (StoredD_dget hs.2 hd) (fun x => Nat.le_trans (hle x) (hsepD x)) with ⟨e, h1, h2⟩ | ⟨h', c', r, h1, h2, o⟩
        · exact .inl ⟨e, by rw [h1], by rw [h2]⟩
        · refine .inr ⟨h', .node a (dset d k c'), r, by rw [h1]; simp only [pySetItem, OTree.tree, treeD_dset], by rw [h2], rfl, ?_, o.str,
            o.next, ?_, ?_⟩
          · have ha : c.cnt a = 0 := by
              have := hsep a
              simp only [OTree.cnt, if_true] at this
              have := hle a
              omega
            refine ⟨?_, StoredD_change o.st (fun x h0 _ => o.frame x h0) hs.2 hd hsepD⟩
            rw [o.frame a ha, hs.1, ← rootD_dset, o.root, dset_noop]
            rw [rootD_dget, hd]; rfl
          · intro x
            have e1 := cntD_dset_some (x := x) (w := c') hd
            have e2 := o.cnt x
            simp only [OTree.cnt]
            omega
          · intro x hx
            simp only [OTree.cnt] at hx
            have := hle x
            exact o.frame x (by omega)

theorem getH_ok : ∀ (p : List String) (t : OTree) (h : Heap), Stored h.mem t →
    (∃ e, getPath t.tree p = .error e ∧ getH h t.root p = .error e) ∨
    ∃ r : Option OTree, getPath t.tree p = .ok (r.map OTree.tree) ∧ getH h t.root p = .ok (r.map OTree.root) ∧ ∀ v, r = some v → Stored h.mem v
  | [], t, h, _ => .inl ⟨.assertionError, by cases t <;> rfl, by cases t <;> rfl⟩
  | [k], .leaf v, h, hs => by
    simp only [Stored] at hs
    simp only [OTree.tree, OTree.root, getPath, getH, pyInH, pyGetItemH, getItem_leaf hs, bind, Except.bind, pure, Except.pure, Except.map]
    cases pyIn k v with
    | error e => exact .inl ⟨e, rfl, rfl⟩
    | ok b =>
      cases b
      · exact .inr ⟨none, rfl, rfl, fun _ e => nomatch e⟩
      · exact .inl ⟨_, rfl, rfl⟩
  | [k], .node a d, h, hs => by
    simp only [Stored] at hs
    simp only [OTree.tree, OTree.root, getPath, getH, pyIn, pyInH, pyGetItem, pyGetItemH, dhas, hs.1, treeD_dget, rootD_dget, bind,
      Except.bind, pure, Except.pure]
    cases hd : dget d k with
    | none => exact .inr ⟨none, rfl, rfl, fun _ e => nomatch e⟩
    | some c => exact .inr ⟨some c, rfl, rfl, fun v e => by cases e; exact StoredD_dget hs.2 hd⟩
  | k :: k' :: ks, .leaf v, h, hs => by
    simp only [Stored] at hs
    simp only [OTree.tree, OTree.root, getPath, getH, pyInH, pyGetItemH, getItem_leaf hs, bind, Except.bind, pure, Except.pure, Except.map]
    cases pyIn k v with
    | error e => exact .inl ⟨e, rfl, rfl⟩
    | ok b =>
      cases b
      · exact .inr ⟨none, rfl, rfl, fun _ e => nomatch e⟩
      · exact .inl ⟨_, rfl, rfl⟩
  | k :: k' :: ks, .node a d, h, hs => by
    simp only [Stored] at hs
    simp only [OTree.tree, OTree.root, getPath, getH, pyIn, pyInH, pyGetItem, pyGetItemH, dhas, hs.1, treeD_dget, rootD_dget, bind,
      Except.bind, pure, Except.pure]
    cases hd : dget d k with
    | none => exact .inr ⟨none, rfl, rfl, fun _ e => nomatch e⟩
    | some c => exact getH_ok (k' :: ks) c h (StoredD_dget hs.2 hd)

/-! ## inserting -/

/-- 1 for the addresses that were given out between two moments -/
def isNew (a b x : Nat) : Nat := if a ≤ x ∧ x < b then 1 else 0

structure InsOut (h : Heap) (t : OTree) (w : OTree) (h' : Heap) (t' : OTree) : Prop where
  root : t'.root = t.root
  st : Stored h'.mem t'
  next : h.next ≤ h'.next
  cnt : ∀ x, t'.cnt x ≤ t.cnt x + w.cnt x + isNew h.next h'.next x
  frame : ∀ x, x < h.next → t.cnt x = 0 → h'.mem x = h.mem x

/-- the document and the value to be inserted are in the memory and have no dict object in common -/
structure Apart2 (h : Heap) (t w : OTree) : Prop where
  st : Stored h.mem t
  sw : Stored h.mem w
  sep : ∀ x, t.cnt x + w.cnt x ≤ 1
  bound : ∀ x, h.next ≤ x → t.cnt x + w.cnt x = 0

/-- the loop of `_insert` when the child is an object -/
theorem insert_child {w : OTree} {cn : Bool} {k k' : String} {ks : List String}
    (ih : ∀ (t : OTree) (h : Heap), Apart2 h t w →
      (∃ e, insertPath w.tree cn t.tree (k' :: ks) = .error e ∧ insertH w.root cn h t.root (k' :: ks) = .error e) ∨
      ∃ h' t', insertPath w.tree cn t.tree (k' :: ks) = .ok t'.tree ∧ insertH w.root cn h t.root (k' :: ks) = .ok h' ∧ InsOut h t w h' t')
    {h : Heap} {a b : Nat} {d dc : List (String × OTree)} (ha : Apart2 h (.node a d) w) (hd : dget d k = some (.node b dc)) :
    (∃ e, insertPath w.tree cn (.dict (if cn && dhas (treeD dc) WEAK_REF then ddel (treeD dc) WEAK_REF else treeD dc)) (k' :: ks) = .error e ∧
      insertH w.root cn (if cn && dhas (h.mem b) WEAK_REF then h.upd b (ddel (h.mem b) WEAK_REF) else h) (.ref b) (k' :: ks) = .error e) ∨
    ∃ h' c', insertPath w.tree cn (.dict (if cn && dhas (treeD dc) WEAK_REF then ddel (treeD dc) WEAK_REF else treeD dc)) (k' :: ks) =
        .ok c'.tree ∧
      insertH w.root cn (if cn && dhas (h.mem b) WEAK_REF then h.upd b (ddel (h.mem b) WEAK_REF) else h) (.ref b) (k' :: ks) = .ok h' ∧
      InsOut h (.node a d) w h' (.node a (dset d k c')) := by
  have hst := ha.st
  simp only [Stored] at hst
  have hc := StoredD_dget hst.2 hd
  simp only [Stored] at hc
  have hle : ∀ x, (OTree.node b dc).cnt x ≤ cntD x d := fun x => cnt_le_cntD hd
  have hsepD : ∀ x, cntD x d ≤ 1 := fun x => by have := ha.sep x; simp only [OTree.cnt] at this; omega
  have hab : a ≠ b := by
    rintro rfl
    have h1 := ha.sep a
    have h2 := hle a
    simp only [OTree.cnt, if_true] at h1 h2
    omega
  have hw1 : (if cn && dhas (treeD dc) WEAK_REF then ddel (treeD dc) WEAK_REF else treeD dc) =
      treeD (if cn && dhas (treeD dc) WEAK_REF then ddel dc WEAK_REF else dc) := by
    split
    · rw [treeD_ddel]
    · rfl
  have hhas : dhas (h.mem b) WEAK_REF = dhas (treeD dc) WEAK_REF := by
    simp only [dhas, hc.1, rootD_dget, treeD_dget, Option.isSome_map]
  rw [hw1, hhas]
  -- the child and the memory before the recursive call
  obtain ⟨dc1, h1, hdc1, hh1, hs1, hcnt1, hfr1, hnx⟩ : ∃ dc1 h1,
      (if cn && dhas (treeD dc) WEAK_REF then ddel dc WEAK_REF else dc) = dc1 ∧
      (if cn && dhas (treeD dc) WEAK_REF then h.upd b (ddel (h.mem b) WEAK_REF) else h) = h1 ∧
      Stored h1.mem (.node b dc1) ∧ (∀ x, (OTree.node b dc1).cnt x ≤ (OTree.node b dc).cnt x) ∧ (∀ x, x ≠ b → h1.mem x = h.mem x) ∧
      h1.next = h.next := by
    refine ⟨_, _, rfl, rfl, ?_⟩
    by_cases hb : (cn && dhas (treeD dc) WEAK_REF) = true
    · simp only [hb, if_true]
      have hsome : ∃ u, dget dc WEAK_REF = some u := by
        have : dhas (treeD dc) WEAK_REF = true := by
          cases cn
          · exact nomatch hb
          · simpa using hb
        simp only [dhas, treeD_dget, Option.isSome_map] at this
        exact Option.isSome_iff_exists.1 this
      obtain ⟨u, hu⟩ := hsome
      refine ⟨⟨by simp [Heap.upd, hc.1, rootD_ddel], StoredD.frame _ (fun x hx => ?_) (StoredD_ddel hc.2)⟩, fun x => ?_, fun x hx => by simp [Heap.upd, hx],
        rfl⟩
      · have h1 := cntD_ddel (x := x) hu
        have h2 := hle x
        have h3 := hsepD x
        simp only [OTree.cnt] at h2
        have : x ≠ b := by rintro rfl; simp at h2; omega
        simp [Heap.upd, this]
      · have h1 := cntD_ddel (x := x) hu
        simp only [OTree.cnt]; omega
    · simp only [if_neg hb]
      refine ⟨by simp only [Stored]; exact hc, fun _ => Nat.le_refl _, fun _ _ => ?_, ?_⟩ <;> first | trivial | rfl
  rw [hdc1, hh1]
  have hap : Apart2 h1 (.node b dc1) w := by
    refine ⟨hs1, Stored.frame _ (fun x hx => hfr1 x ?_) ha.sw, fun x => ?_, fun x hx => ?_⟩
    · rintro rfl
      have h1 := ha.sep x
      have h2 := hle x
      simp only [OTree.cnt, if_true] at h1 h2
      omega
    · have h1 := ha.sep x
      have h2 := hle x
      have h3 := hcnt1 x
      simp only [OTree.cnt] at h1 h2 h3 ⊢
      omega
    · rw [hnx] at hx
      have h1 := ha.bound x hx
      have h2 := hle x
      have h3 := hcnt1 x
      simp only [OTree.cnt] at h1 h2 h3 ⊢
      omega
  rcases ih _ h1 hap with ⟨e, e1, e2⟩ | ⟨h', c', e1, e2, o⟩
  · exact .inl ⟨e, e1, e2⟩
  · refine .inr ⟨h', c', e1, e2, rfl, ?_, by rw [← hnx]; exact o.next, fun x => ?_, fun x hx hx0 => ?_⟩
    · have hca : (OTree.node b dc1).cnt a = 0 := by
        have h1 := ha.sep a
        have h2 := hle a
        have h3 := hcnt1 a
        simp only [OTree.cnt, if_true] at h1
        omega
      have han : a < h1.next := by
        rw [hnx]
        have := ha.bound a
        simp only [OTree.cnt, if_true] at this
        omega
      refine ⟨?_, ?_⟩
      · rw [o.frame a han hca, hfr1 a hab, hst.1, ← rootD_dset, o.root, dset_noop]
        rw [rootD_dget, hd]; rfl
      · refine StoredD_change o.st (fun x h0 hx => ?_) hst.2 hd hsepD
        have hlow : x < h.next := by
          have := ha.bound x
          simp only [OTree.cnt] at this
          omega
        have hxb : x ≠ b := by rintro rfl; simp only [OTree.cnt, if_true] at h0; omega
        have h3 := hcnt1 x
        rw [o.frame x (by rw [hnx]; exact hlow) (by omega), hfr1 x hxb]
    · have e1 := cntD_dset_some (x := x) (w := c') hd
      have e2 := o.cnt x
      have e3 := hcnt1 x
      rw [hnx] at e2
      simp only [OTree.cnt] at e1 e2 e3 ⊢
      omega
    · simp only [OTree.cnt] at hx0
      have h2 := hle x
      have h3 := hcnt1 x
      have hxb : x ≠ b := by rintro rfl; simp only [OTree.cnt, if_true] at h2; omega
      rw [o.frame x (by rw [hnx]; exact hx) (by omega), hfr1 x hxb]

theorem isNew_zero {a b x : Nat} (h : x < a) : isNew a b x = 0 := by
  unfold isNew; rw [if_neg (by omega)]

theorem isNew_step {a x : Nat} {b : Nat} (h : a + 1 ≤ b) : isNew a b x = (if a = x then 1 else 0) + isNew (a + 1) b x := by
  unfold isNew
  by_cases e : a = x
  · rw [if_pos (by omega), if_pos e, if_neg (by omega)]
  · rw [if_neg e]
    by_cases e2 : a ≤ x ∧ x < b
    · rw [if_pos e2, if_pos (by omega)]
    · rw [if_neg e2, if_neg (by omega)]

theorem insert_ok (w : OTree) (cn : Bool) : ∀ (p : List String) (t : OTree) (h : Heap), Apart2 h t w →
    (∃ e, insertPath w.tree cn t.tree p = .error e ∧ insertH w.root cn h t.root p = .error e) ∨
    ∃ h' t', insertPath w.tree cn t.tree p = .ok t'.tree ∧ insertH w.root cn h t.root p = .ok h' ∧ InsOut h t w h' t'
  | [], t, h, _ => .inl ⟨.assertionError, by cases t <;> rfl, by cases t <;> rfl⟩
  | [k], .leaf v, h, ha => by
    have hs := ha.st
    simp only [Stored] at hs
    refine .inl ⟨.typeError, ?_, rfl⟩
    cases v <;> first | rfl | exact (nomatch hs)
  | [k], .node a d, h, ha => by
    have hst := ha.st
    simp only [Stored] at hst
    refine .inr ⟨h.upd a (dset (rootD d) k w.root), .node a (dset d k w), ?_, ?_, rfl, ?_, Nat.le_refl _, fun x => ?_, fun x hx h0 => ?_⟩
    · simp only [OTree.tree, insertPath, pySetItem, treeD_dset]
    · simp only [OTree.root, insertH, pySetItemH, hst.1]
    · have hne : ∀ x, 0 < cntD x d + w.cnt x → (h.upd a (dset (rootD d) k w.root)).mem x = h.mem x := by
        intro x hx
        have h1 := ha.sep x
        simp only [OTree.cnt] at h1
        have : x ≠ a := by rintro rfl; simp only [if_true] at h1; omega
        simp [Heap.upd, this]
      refine ⟨by simp [Heap.upd, rootD_dset], StoredD_dset (Stored.frame _ (fun x hx => hne x (by omega)) ha.sw)
        (StoredD.frame _ (fun x hx => hne x (by omega)) hst.2)⟩
    · simp only [OTree.cnt]
      cases hd : dget d k with
      | none => have := cntD_dset_none (x := x) (w := w) hd; omega
      | some c => have := cntD_dset_some (x := x) (w := w) hd; omega
    · simp only [OTree.cnt] at h0
      have : x ≠ a := by rintro rfl; simp only [if_true] at h0; omega
      simp [Heap.upd, this]
  | k :: k' :: ks, .leaf v, h, ha => by
    have hs := ha.st
    simp only [Stored] at hs
    refine .inl ⟨.typeError, ?_, ?_⟩
    · cases v <;> first | rfl | exact (nomatch hs)
    · simp only [OTree.root, insertH, pyGetItemH, getItem_leaf hs, bind, Except.bind, Except.map]
  | k :: k' :: ks, .node a d, h, ha => by
    have hst := ha.st
    simp only [Stored] at hst
    simp only [OTree.tree, OTree.root, insertPath, insertH, pyGetItem, pyGetItemH, dhas, hst.1, treeD_dget, rootD_dget, bind, Except.bind,
      pure, Except.pure, Option.isSome_map]
    cases hd : dget d k with
    | some c =>
      simp only [Option.isSome_some, if_true, treeD_dget, hst.1, rootD_dget, hd, Option.map_some]
      cases c with
      | leaf v =>
        have hv := StoredD_dget hst.2 hd
        simp only [Stored] at hv
        refine .inr ⟨h, .node a d, ?_, rfl, rfl, ha.st, Nat.le_refl _, fun x => by omega, fun _ _ _ => rfl⟩
        cases v <;> first | rfl | exact (nomatch hv)
      | node b dc =>
        rcases insert_child (fun t h => insert_ok w cn (k' :: ks) t h) ha hd with ⟨e, e1, e2⟩ | ⟨h', c', e1, e2, o⟩
        · refine .inl ⟨e, ?_, e2⟩
          simp only [OTree.tree, dhas, treeD_dget, Option.isSome_map] at e1 ⊢
          rw [e1]
        · refine .inr ⟨h', _, ?_, e2, o⟩
          simp only [OTree.tree, dhas, treeD_dget, Option.isSome_map] at e1 ⊢
          rw [e1]
          simp only [pySetItem, treeD_dset]
    | none =>
      -- a new object is created first
      obtain ⟨fd, hfd1, hfd2, hfd3⟩ : ∃ fd : List (String × OTree), treeD fd = (if cn then [] else [(WEAK_REF, .bool true)]) ∧
          rootD fd = freshEntries cn ∧ (∀ x, cntD x fd = 0) ∧ ∀ m, StoredD m fd := by
        cases cn
        · exact ⟨[(WEAK_REF, .leaf (.bool true))], rfl, rfl, fun x => rfl, fun m => ⟨rfl, trivial⟩⟩
        · exact ⟨[], rfl, rfl, fun x => rfl, fun m => trivial⟩
      have hfo : freshObj cn = (OTree.node h.next fd).tree := by
        simp only [OTree.tree, hfd1, freshObj]
        cases cn <;> rfl
      have han : a < h.next := by
        have := ha.bound a
        simp only [OTree.cnt, if_true] at this
        omega
      have hd1 : dget (dset d k (.node h.next fd)) k = some (.node h.next fd) := dget_dset_same'
      have hcd : ∀ x, cntD x (dset d k (.node h.next fd)) = cntD x d + (if h.next = x then 1 else 0) := by
        intro x
        rw [cntD_dset_none hd]
        simp only [OTree.cnt, hfd3.1 x]; omega
      have hmem : ∀ x, x < h.next → x ≠ a →
          ((h.alloc (freshEntries cn)).upd a (dset (rootD d) k (.ref h.next))).mem x = h.mem x := by
        intro x h1 h2
        simp only [Heap.upd, Heap.alloc]
        rw [if_neg h2, if_neg (by omega)]
      have ha1 : Apart2 ((h.alloc (freshEntries cn)).upd a (dset (rootD d) k (.ref h.next))) (.node a (dset d k (.node h.next fd))) w := by
        have hn : Stored ((h.alloc (freshEntries cn)).upd a (dset (rootD d) k (.ref h.next))).mem (.node h.next fd) := by
          refine ⟨?_, hfd3.2 _⟩
          simp only [Heap.upd, Heap.alloc]
          rw [if_neg (by omega), hfd2]; simp
        refine ⟨⟨?_, StoredD_dset hn (StoredD.frame _ (fun x hx => ?_) hst.2)⟩, Stored.frame _ (fun x hx => ?_) ha.sw, fun x => ?_,
          fun x hx => ?_⟩
        · simp only [Heap.upd, if_true]
          exact rootD_dset d k (.node h.next fd)
        · have h1 := ha.bound x
          have h2 := ha.sep x
          simp only [OTree.cnt] at h1 h2
          refine hmem x (by omega) ?_
          rintro rfl
          simp only [if_true] at h2
          omega
        · have h1 := ha.bound x
          have h2 := ha.sep x
          simp only [OTree.cnt] at h1 h2
          refine hmem x (by omega) ?_
          rintro rfl
          simp only [if_true] at h2
          omega
        · have h2 := ha.sep x
          simp only [OTree.cnt] at h2 ⊢
          rw [hcd]
          by_cases e : h.next = x
          · have h1 := ha.bound x (by omega)
            simp only [OTree.cnt] at h1
            rw [if_pos e]
            omega
          · rw [if_neg e]
            omega
        · simp only [Heap.upd, Heap.alloc] at hx
          have h1 := ha.bound x (by omega)
          simp only [OTree.cnt] at h1 ⊢
          rw [hcd, if_neg (show ¬ h.next = x by omega)]
          omega
      have hget : dget (((h.alloc (freshEntries cn)).upd a (dset (rootD d) k (.ref h.next))).mem a) k = some (.ref h.next) := by
        simp only [Heap.upd, if_true]
        exact dget_dset_same'
      have hts : dset (treeD d) k (freshObj cn) = treeD (dset d k (.node h.next fd)) := by rw [hfo, treeD_dset]
      simp only [Option.isSome_none, Bool.false_eq_true, if_false, hts, treeD_dget, hd1, Option.map_some, hget]
      rcases insert_child (fun t h => insert_ok w cn (k' :: ks) t h) ha1 hd1 with ⟨e, e1, e2⟩ | ⟨h', c', e1, e2, o⟩
      · refine .inl ⟨e, ?_, e2⟩
        simp only [OTree.tree, dhas, treeD_dget, Option.isSome_map] at e1 ⊢
        rw [e1]
      · refine .inr ⟨h', .node a (dset (dset d k (.node h.next fd)) k c'), ?_, e2, rfl, o.st, ?_, fun x => ?_, fun x hx h0 => ?_⟩
        · simp only [OTree.tree, dhas, treeD_dget, Option.isSome_map] at e1 ⊢
          rw [e1]
          simp only [pySetItem, treeD_dset]
        · have := o.next
          simp only [Heap.upd, Heap.alloc] at this
          omega
        · have e2 := o.cnt x
          have e3 := o.next
          simp only [Heap.upd, Heap.alloc] at e2 e3
          rw [isNew_step e3]
          simp only [OTree.cnt, hcd] at e2 ⊢
          omega
        · have h3 := h0
          simp only [OTree.cnt] at h3
          have hxa : x ≠ a := by rintro rfl; simp only [if_true] at h3; omega
          rw [o.frame x (by simp only [Heap.upd, Heap.alloc]; omega) ?_, hmem x hx hxa]
          simp only [OTree.cnt, hcd]
          rw [if_neg (show ¬ h.next = x by omega)]
          omega

/-! ## creating values -/

structure AllocOut (v : Val) (h : Heap) (x : HVal) (h' : Heap) (u : OTree) : Prop where
  root : x = u.root
  tree : u.tree = v
  st : Stored h'.mem u
  next : h.next ≤ h'.next
  cnt : ∀ x, u.cnt x ≤ isNew h.next h'.next x
  frame : ∀ x, x < h.next → h'.mem x = h.mem x

theorem isNew_le {a b x : Nat} : isNew a b x ≤ 1 := by unfold isNew; split <;> omega

theorem isNew_pos {a b x : Nat} (h : 0 < isNew a b x) : a ≤ x ∧ x < b := by
  unfold isNew at h
  split at h
  · assumption
  · omega

theorem isNew_add {a b c x : Nat} (h1 : a ≤ b) (h2 : b ≤ c) : isNew a b x + isNew b c x = isNew a c x := by
  unfold isNew
  by_cases e1 : a ≤ x ∧ x < b
  · rw [if_pos e1, if_neg (by omega), if_pos (by omega)]
  · rw [if_neg e1]
    by_cases e2 : b ≤ x ∧ x < c
    · rw [if_pos e2, if_pos (by omega)]
    · rw [if_neg e2, if_neg (by omega)]

theorem alloc_leaf (v : Val) (h : Heap) (hv : v.isDict = false) (e : allocV v h = (.leaf v, h)) :
    ∃ x h' u, allocV v h = (x, h') ∧ AllocOut v h x h' u :=
  ⟨_, _, .leaf v, e, rfl, rfl, hv, Nat.le_refl _, fun _ => Nat.zero_le _, fun _ _ => rfl⟩

mutual
theorem alloc_ok : ∀ (v : Val) (h : Heap), ∃ x h' u, allocV v h = (x, h') ∧ AllocOut v h x h' u
  | .dict kvs, h => by
    obtain ⟨d, h', u, e, h1, h2, h3, h4, h5, h6⟩ := allocD_ok kvs h
    refine ⟨.ref h'.next, h'.alloc d, .node h'.next u, by simp only [allocV, e], rfl, by simp only [OTree.tree, h2], ⟨?_, ?_⟩, ?_, fun x => ?_,
      fun x hx => ?_⟩
    · simp only [Heap.alloc, if_true, h1]
    · refine StoredD.frame _ (fun x hx => ?_) h3
      have := h5 x
      have := isNew_pos (show 0 < isNew h.next h'.next x by omega)
      simp only [Heap.alloc]
      rw [if_neg (by omega)]
    · simp only [Heap.alloc]; omega
    · have h7 := h5 x
      simp only [OTree.cnt, Heap.alloc]
      rw [← isNew_add h4 (Nat.le_succ _)]
      by_cases e : h'.next = x
      · rw [if_pos e]
        have : isNew h'.next (h'.next + 1) x = 1 := by unfold isNew; rw [if_pos (by omega)]
        have e' : Nat.succ h'.next = h'.next + 1 := rfl
        rw [e']
        omega
      · rw [if_neg e]; omega
    · simp only [Heap.alloc]
      rw [if_neg (by omega), h6 x hx]
  | .none, h => alloc_leaf _ h rfl rfl
  | .bool _, h => alloc_leaf _ h rfl rfl
  | .int _, h => alloc_leaf _ h rfl rfl
  | .flt _, h => alloc_leaf _ h rfl rfl
  | .str _, h => alloc_leaf _ h rfl rfl
  | .list _, h => alloc_leaf _ h rfl rfl
  | .tup _, h => alloc_leaf _ h rfl rfl
  | .ntup _ _, h => alloc_leaf _ h rfl rfl
  | .inst _ _, h => alloc_leaf _ h rfl rfl
  | .enm _ _ _, h => alloc_leaf _ h rfl rfl
  | .ser _ _, h => alloc_leaf _ h rfl rfl
termination_by structural v => v
theorem allocD_ok : ∀ (kvs : List (String × Val)) (h : Heap), ∃ d h' u, allocD kvs h = (d, h') ∧ d = rootD u ∧ treeD u = kvs ∧
    StoredD h'.mem u ∧ h.next ≤ h'.next ∧ (∀ x, cntD x u ≤ isNew h.next h'.next x) ∧ ∀ x, x < h.next → h'.mem x = h.mem x
  | [], h => ⟨[], h, [], rfl, rfl, rfl, trivial, Nat.le_refl _, fun _ => Nat.zero_le _, fun _ _ => rfl⟩
  | p :: kvs, h => by
    obtain ⟨x1, h1, u1, e1, a1⟩ := allocP_ok p h
    obtain ⟨d, h', u, e, b1, b2, b3, b4, b5, b6⟩ := allocD_ok kvs h1
    refine ⟨(p.1, x1) :: d, h', (p.1, u1) :: u, by simp only [allocD, e1, e], ?_, ?_, ⟨?_, b3⟩, Nat.le_trans a1.next b4, fun x => ?_, fun x hx => ?_⟩
    · simp only [rootD, List.map_cons, a1.root, b1]
    · simp only [treeD, treeP, a1.tree, b2]
    · refine Stored.frame _ (fun x hx => b6 x ?_) a1.st
      have := a1.cnt x
      exact (isNew_pos (show 0 < isNew h.next h1.next x by omega)).2
    · have := a1.cnt x
      have := b5 x
      rw [← isNew_add a1.next b4]
      simp only [cntD, cntP]
      omega
    · have := a1.next
      rw [b6 x (by omega), a1.frame x hx]
termination_by structural kvs => kvs
theorem allocP_ok : ∀ (p : String × Val) (h : Heap), ∃ x h' u, allocP p h = ((p.1, x), h') ∧ AllocOut p.2 h x h' u
  | (k, v), h => by
    obtain ⟨x, h', u, e, o⟩ := alloc_ok v h
    exact ⟨x, h', u, by simp only [allocP, e], o⟩
termination_by structural p => p
end

/-! ## reading -/

mutual
/-- the number of objects -/
def OTree.size : OTree → Nat
  | .leaf _ => 0
  | .node _ kvs => 1 + sizeD kvs
termination_by structural t => t
def sizeD : List (String × OTree) → Nat
  | [] => 0
  | p :: kvs => sizeP p + sizeD kvs
termination_by structural t => t
def sizeP : String × OTree → Nat
  | (_, t) => t.size
termination_by structural t => t
end

def sumTo (f : Nat → Nat) : Nat → Nat
  | 0 => 0
  | n + 1 => sumTo f n + f n

theorem sumTo_add (f g : Nat → Nat) : ∀ n, sumTo (fun x => f x + g x) n = sumTo f n + sumTo g n
  | 0 => rfl
  | n + 1 => by simp only [sumTo, sumTo_add f g n]; omega

theorem sumTo_one (a : Nat) : ∀ n, a < n → 1 ≤ sumTo (fun x => if a = x then 1 else 0) n
  | 0, h => by omega
  | n + 1, h => by
    simp only [sumTo]
    by_cases e : a = n
    · rw [if_pos e]; omega
    · have := sumTo_one a n (by omega); omega

theorem sumTo_le {f : Nat → Nat} (hf : ∀ x, f x ≤ 1) : ∀ n, sumTo f n ≤ n
  | 0 => Nat.le_refl _
  | n + 1 => by simp only [sumTo]; have := sumTo_le hf n; have := hf n; omega

mutual
theorem size_le (n : Nat) : ∀ t : OTree, (∀ x, n ≤ x → t.cnt x = 0) → t.size ≤ sumTo (fun x => t.cnt x) n
  | .leaf _, _ => Nat.zero_le _
  | .node a kvs, h => by
    simp only [OTree.cnt] at h
    have h1 : a < n := by
      have := h a
      simp only [if_true] at this
      omega
    have h2 := sizeD_le n kvs (fun x hx => by have := h x hx; omega)
    have h3 := sumTo_one a n h1
    simp only [OTree.size, OTree.cnt, sumTo_add]
    omega
termination_by structural t => t
theorem sizeD_le (n : Nat) : ∀ d : List (String × OTree), (∀ x, n ≤ x → cntD x d = 0) → sizeD d ≤ sumTo (fun x => cntD x d) n
  | [], _ => Nat.zero_le _
  | p :: d, h => by
    simp only [cntD] at h
    have h1 := sizeP_le n p (fun x hx => by have := h x hx; omega)
    have h2 := sizeD_le n d (fun x hx => by have := h x hx; omega)
    simp only [sizeD, cntD, sumTo_add]
    omega
termination_by structural d => d
theorem sizeP_le (n : Nat) : ∀ p : String × OTree, (∀ x, n ≤ x → cntP x p = 0) → sizeP p ≤ sumTo (fun x => cntP x p) n
  | (_, t), h => size_le n t h
termination_by structural p => p
end

theorem readD_ok (m : Nat → List (String × HVal)) (n : Nat) (ih : ∀ t : OTree, Stored m t → t.size ≤ n → readH m n t.root = t.tree) :
    ∀ d : List (String × OTree), StoredD m d → sizeD d ≤ n → ((rootD d).map fun p => (p.1, readH m n p.2)) = treeD d
  | [], _, _ => rfl
  | (k, t) :: d, hs, hn => by
    simp only [StoredD, StoredP] at hs
    simp only [sizeD, sizeP] at hn
    have h1 := ih t hs.1 (by omega)
    have h2 := readD_ok m n ih d hs.2 (by omega)
    simp only [rootD, List.map_cons, treeD, treeP, h1] at h2 ⊢
    rw [h2]

theorem read_ok (m : Nat → List (String × HVal)) : ∀ (n : Nat) (t : OTree), Stored m t → t.size ≤ n → readH m n t.root = t.tree
  | _, .leaf _, _, _ => by simp only [OTree.root, OTree.tree, readH]
  | 0, .node _ _, _, h => by simp only [OTree.size] at h; omega
  | n + 1, .node a d, hs, h => by
    simp only [Stored] at hs
    simp only [OTree.size] at h
    simp only [OTree.root, OTree.tree, readH, hs.1]
    rw [readD_ok m n (fun t => read_ok m n t) d hs.2 (by omega)]

theorem read_next {h : Heap} {t : OTree} (hs : Stored h.mem t) (hsep : ∀ x, t.cnt x ≤ 1) (hb : ∀ x, h.next ≤ x → t.cnt x = 0) :
    readH h.mem h.next t.root = t.tree :=
  read_ok h.mem h.next t hs (Nat.le_trans (size_le h.next t hb) (sumTo_le hsep h.next))

/-! ## rules -/

/-- what is not part of the document is not changed -/
structure KeptDoc (h : Heap) (t : OTree) (h' : Heap) : Prop where
  next : h.next ≤ h'.next
  frame : ∀ x, x < h.next → t.cnt x = 0 → h'.mem x = h.mem x

theorem RemOut.kept {h h1 : Heap} {t t1 : OTree} {r : Option OTree} (o : RemOut h t h1 t1 r) : KeptDoc h t h1 :=
  ⟨Nat.le_of_eq o.next.symm, fun x _ h0 => o.frame x h0⟩

theorem RemOut.apart_removed {h h1 : Heap} {t t1 v w : OTree} (o : RemOut h t h1 t1 (some v)) (ha : Apart2 h t w) : Apart2 h1 t1 v := by
  refine ⟨o.st, o.str v rfl, fun x => ?_, fun x hx => ?_⟩
  · have h1 := o.cnt x
    have h2 := ha.sep x
    simp only [optCnt] at h1
    omega
  · rw [o.next] at hx
    have h1 := o.cnt x
    have h2 := ha.bound x hx
    simp only [optCnt] at h1
    omega

theorem RemOut.apart_const {h h1 : Heap} {t t1 w : OTree} {r : Option OTree} (o : RemOut h t h1 t1 r) (ha : Apart2 h t w) : Apart2 h1 t1 w := by
  refine ⟨o.st, Stored.frame _ (fun x hx => o.frame x ?_) ha.sw, fun x => ?_, fun x hx => ?_⟩
  · have := ha.sep x; omega
  · have h1 := o.cnt x
    have h2 := ha.sep x
    omega
  · rw [o.next] at hx
    have h1 := o.cnt x
    have h2 := ha.bound x hx
    omega

theorem RemOut.out {h h1 : Heap} {t t1 : OTree} {r : Option OTree} (o : RemOut h t h1 t1 r) (w : OTree) : InsOut h t w h1 t1 :=
  ⟨o.root, o.st, Nat.le_of_eq o.next.symm, fun x => by have := o.cnt x; omega, fun x _ h0 => o.frame x h0⟩

theorem RemOut.then_removed {h h1 h2 : Heap} {t t1 t2 v : OTree} (o : RemOut h t h1 t1 (some v)) (i : InsOut h1 t1 v h2 t2) (w : OTree) :
    InsOut h t w h2 t2 := by
  refine ⟨i.root.trans o.root, i.st, by have := i.next; have := o.next; omega, fun x => ?_, fun x hx h0 => ?_⟩
  · have e1 := i.cnt x
    have e2 := o.cnt x
    rw [o.next] at e1
    simp only [optCnt] at e2
    omega
  · have e2 := o.cnt x
    rw [i.frame x (by rw [o.next]; exact hx) (by omega), o.frame x h0]

theorem RemOut.then_const {h h1 h2 : Heap} {t t1 t2 w : OTree} {r : Option OTree} (o : RemOut h t h1 t1 r) (i : InsOut h1 t1 w h2 t2) :
    InsOut h t w h2 t2 := by
  refine ⟨i.root.trans o.root, i.st, by have := i.next; have := o.next; omega, fun x => ?_, fun x hx h0 => ?_⟩
  · have e1 := i.cnt x
    have e2 := o.cnt x
    rw [o.next] at e1
    omega
  · have e2 := o.cnt x
    rw [i.frame x (by rw [o.next]; exact hx) (by omega), o.frame x h0]

theorem isWeak_root {h : Heap} {v : OTree} (hs : Stored h.mem v) : isWeakH h v.root = v.tree.isWeak := by
  cases v with
  | leaf v =>
    simp only [Stored] at hs
    cases v <;> first | rfl | exact (nomatch hs)
  | node a d =>
    simp only [Stored] at hs
    simp only [OTree.root, OTree.tree, isWeakH, Val.isWeak, dhas, hs.1, rootD_dget, treeD_dget, Option.isSome_map]

theorem inSet_root (v : OTree) (s : List Val) : inSetH v.root s = inSet v.tree s := by
  cases v with
  | leaf v => rfl
  | node a d => simp only [OTree.root, OTree.tree, inSetH, inSet, hashable, Bool.false_eq_true, if_false]

/-- what a rule does to objects is what it does to trees -/
theorem rule_ok (r : Rule) {t w : OTree} {h : Heap} (ha : Apart2 h t w) (hw : w.tree = r.const) :
    (∃ e h', r.apply t.tree = .error e ∧ (r.toH w.root).apply t.root h = (h', some e) ∧ KeptDoc h t h') ∨
    ∃ h' t', r.apply t.tree = .ok t'.tree ∧ (r.toH w.root).apply t.root h = (h', none) ∧ InsOut h t w h' t' := by
  have hsep : ∀ x, t.cnt x ≤ 1 := fun x => by have := ha.sep x; omega
  have hk : KeptDoc h t h := ⟨Nat.le_refl _, fun _ _ _ => rfl⟩
  cases r with
  | rename old new =>
    simp only [Rule.apply, Rule.toH, HRule.apply, bind, Except.bind, pure, Except.pure]
    rcases remove_ok old t h ha.st hsep with ⟨e, e1, e2⟩ | ⟨h1, t1, r, e1, e2, o⟩
    · exact .inl ⟨e, h, by rw [e1], by rw [e2], hk⟩
    · rw [e1, e2]
      cases r with
      | none => exact .inr ⟨h1, t1, rfl, rfl, o.out w⟩
      | some v =>
        simp only [Option.map_some]
        rcases insert_ok v true new t1 h1 (o.apart_removed ha) with ⟨e, f1, f2⟩ | ⟨h2, t2, f1, f2, i⟩
        · rw [o.root] at f2
          exact .inl ⟨e, h1, f1, by rw [f2]; rfl, o.kept⟩
        · rw [o.root] at f2
          exact .inr ⟨h2, t2, f1, by rw [f2]; rfl, o.then_removed i w⟩
  | delete p =>
    simp only [Rule.apply, Rule.toH, HRule.apply, bind, Except.bind, pure, Except.pure]
    rcases remove_ok p t h ha.st hsep with ⟨e, e1, e2⟩ | ⟨h1, t1, r, e1, e2, o⟩
    · exact .inl ⟨e, h, by rw [e1], by rw [e2], hk⟩
    · rw [e1, e2]
      exact .inr ⟨h1, t1, rfl, rfl, o.out w⟩
  | mapValue p f rd =>
    simp only [Rule.apply, Rule.toH, HRule.apply, bind, Except.bind, pure, Except.pure]
    rcases remove_ok p t h ha.st hsep with ⟨e, e1, e2⟩ | ⟨h1, t1, r, e1, e2, o⟩
    · exact .inl ⟨e, h, by rw [e1], by rw [e2], hk⟩
    · rw [e1, e2]
      cases r with
      | none => exact .inr ⟨h1, t1, rfl, rfl, o.out w⟩
      | some v =>
        have hav := o.apart_removed ha
        have hr : readH h1.mem h1.next v.root = v.tree :=
          read_next hav.sw (fun x => by have := hav.sep x; omega) (fun x hx => by have := hav.bound x hx; omega)
        simp only [Option.map_some, hr]
        cases hf : f v.tree with
        | error e => exact .inl ⟨e, h1, rfl, rfl, o.kept⟩
        | ok u =>
          obtain ⟨x, h2, ut, g1, g⟩ := alloc_ok u h1
          simp only [g1]
          have hau : Apart2 h2 t1 ut := by
            refine ⟨Stored.frame _ (fun x hx => g.frame x ?_) hav.st, g.st, fun x => ?_, fun x hx => ?_⟩
            · have := hav.bound x; omega
            · have c1 := g.cnt x
              have c2 := hav.sep x
              by_cases hx : h1.next ≤ x
              · have c3 := hav.bound x hx
                have := isNew_le (a := h1.next) (b := h2.next) (x := x)
                omega
              · rw [isNew_zero (show x < h1.next by omega)] at c1
                omega
            · have c1 := g.cnt x
              have c2 := g.next
              have c3 := hav.bound x (by omega)
              have : isNew h1.next h2.next x = 0 := by unfold isNew; rw [if_neg (by omega)]
              omega
          have hout : ∀ {h3 : Heap} {t3 : OTree}, InsOut h2 t1 ut h3 t3 → InsOut h t w h3 t3 := by
            intro h3 t3 i
            have n1 := o.next
            have n2 := g.next
            have n3 := i.next
            refine ⟨i.root.trans o.root, i.st, by omega, fun x => ?_, fun x hx h0 => ?_⟩
            · have c1 := i.cnt x
              have c2 := g.cnt x
              have c3 := o.cnt x
              rw [← n1, ← isNew_add n2 n3]
              omega
            · have c3 := o.cnt x
              rw [i.frame x (by omega) (by omega), g.frame x (by omega), o.frame x h0]
          have hc := insert_ok ut true p t1 h2 hau
          rw [g.tree, o.root, ← g.root] at hc
          rcases hc with ⟨e, f1, f2⟩ | ⟨h3, t3, f1, f2, i⟩
          · refine .inl ⟨e, h2, f1, by rw [f2]; rfl, ?_, fun x hx h0 => ?_⟩
            · have := o.next; have := g.next; omega
            · rw [g.frame x (by rw [o.next]; exact hx), o.frame x h0]
          · exact .inr ⟨h3, t3, f1, by rw [f2]; rfl, hout i⟩
  | changeDefault p old new =>
    simp only [Rule.const] at hw
    simp only [Rule.apply, Rule.toH, HRule.apply, bind, Except.bind, pure, Except.pure, ← hw]
    rcases remove_ok p t h ha.st hsep with ⟨e, e1, e2⟩ | ⟨h1, t1, r, e1, e2, o⟩
    · exact .inl ⟨e, h, by rw [e1], by rw [e2], hk⟩
    · rw [e1, e2]
      have hc := insert_ok w false p t1 h1 (o.apart_const ha)
      rw [o.root] at hc
      cases r with
      | none =>
        simp only [Option.map_none]
        rcases hc with ⟨e, f1, f2⟩ | ⟨h2, t2, f1, f2, i⟩
        · exact .inl ⟨e, h1, f1, by rw [f2]; rfl, o.kept⟩
        · exact .inr ⟨h2, t2, f1, by rw [f2]; rfl, o.then_const i⟩
      | some v =>
        simp only [Option.map_some, isWeak_root (o.str v rfl)]
        cases v.tree.isWeak with
        | true =>
          simp only [if_true]
          rcases hc with ⟨e, f1, f2⟩ | ⟨h2, t2, f1, f2, i⟩
          · exact .inl ⟨e, h1, f1, by rw [f2]; rfl, o.kept⟩
          · exact .inr ⟨h2, t2, f1, by rw [f2]; rfl, o.then_const i⟩
        | false =>
          simp only [Bool.false_eq_true, if_false]
          rcases insert_ok v true p t1 h1 (o.apart_removed ha) with ⟨e, f1, f2⟩ | ⟨h2, t2, f1, f2, i⟩
          · rw [o.root] at f2
            exact .inl ⟨e, h1, f1, by rw [f2]; rfl, o.kept⟩
          · rw [o.root] at f2
            exact .inr ⟨h2, t2, f1, by rw [f2]; rfl, o.then_removed i w⟩
  | addDefault p d =>
    simp only [Rule.const] at hw
    simp only [Rule.apply, Rule.toH, HRule.apply, bind, Except.bind, pure, Except.pure, ← hw]
    rcases remove_ok p t h ha.st hsep with ⟨e, e1, e2⟩ | ⟨h1, t1, r, e1, e2, o⟩
    · exact .inl ⟨e, h, by rw [e1], by rw [e2], hk⟩
    · rw [e1, e2]
      cases r with
      | none =>
        simp only [Option.map_none]
        have hc := insert_ok w false p t1 h1 (o.apart_const ha)
        rw [o.root] at hc
        rcases hc with ⟨e, f1, f2⟩ | ⟨h2, t2, f1, f2, i⟩
        · exact .inl ⟨e, h1, f1, by rw [f2]; rfl, o.kept⟩
        · exact .inr ⟨h2, t2, f1, by rw [f2]; rfl, o.then_const i⟩
      | some v =>
        simp only [Option.map_some]
        rcases insert_ok v false p t1 h1 (o.apart_removed ha) with ⟨e, f1, f2⟩ | ⟨h2, t2, f1, f2, i⟩
        · rw [o.root] at f2
          exact .inl ⟨e, h1, f1, by rw [f2]; rfl, o.kept⟩
        · rw [o.root] at f2
          exact .inr ⟨h2, t2, f1, by rw [f2]; rfl, o.then_removed i w⟩
  | checkValue p allowed =>
    have hrefl : InsOut h t w h t := (RemOut.refl ha.st).out w
    simp only [Rule.apply, Rule.toH, HRule.apply, bind, Except.bind, pure, Except.pure]
    rcases getH_ok p t h ha.st with ⟨e, e1, e2⟩ | ⟨r, e1, e2, e3⟩
    · exact .inl ⟨e, h, by rw [e1], by rw [e2], hk⟩
    · rw [e1, e2]
      cases r with
      | none => exact .inr ⟨h, t, rfl, rfl, hrefl⟩
      | some v =>
        simp only [Option.map_some, inSet_root]
        cases inSet v.tree allowed with
        | error e => exact .inl ⟨e, h, rfl, rfl, hk⟩
        | ok b =>
          cases b
          · exact .inl ⟨_, h, rfl, rfl, hk⟩
          · exact .inr ⟨h, t, rfl, rfl, hrefl⟩
  | rejectValues p dis =>
    simp only [Rule.apply, Rule.toH, HRule.apply, bind, Except.bind, pure, Except.pure]
    rcases remove_ok p t h ha.st hsep with ⟨e, e1, e2⟩ | ⟨h1, t1, r, e1, e2, o⟩
    · exact .inl ⟨e, h, by rw [e1], by rw [e2], hk⟩
    · rw [e1, e2]
      cases r with
      | none => exact .inr ⟨h1, t1, rfl, rfl, o.out w⟩
      | some v =>
        simp only [Option.map_some, inSet_root]
        cases inSet v.tree dis with
        | error e => exact .inl ⟨e, h1, rfl, rfl, o.kept⟩
        | ok b =>
          cases b
          · exact .inr ⟨h1, t1, rfl, rfl, o.out w⟩
          · exact .inl ⟨_, h1, rfl, rfl, o.kept⟩
/-! ## lists of rules -/

/-- a rule and its default as an object -/
abbrev ORule := Rule × OTree

def ORule.toH (p : ORule) : HRule := p.1.toH p.2.root

def cntL (x : Nat) : List ORule → Nat
  | [] => 0
  | p :: ps => p.2.cnt x + cntL x ps

/-- rule objects whose defaults are in the memory -/
def RulesIn (m : Nat → List (String × HVal)) (ps : List ORule) : Prop := ∀ p ∈ ps, Stored m p.2 ∧ p.2.tree = p.1.const

theorem cnt_le_cntL {x : Nat} {p : ORule} : ∀ {ps : List ORule}, p ∈ ps → p.2.cnt x ≤ cntL x ps
  | q :: ps, h => by
    simp only [cntL]
    rcases List.mem_cons.1 h with rfl | h
    · omega
    · have := cnt_le_cntL (x := x) h; omega

theorem RulesIn.frame {m m' : Nat → List (String × HVal)} {ps : List ORule} (hf : ∀ x, 0 < cntL x ps → m' x = m x) (h : RulesIn m ps) :
    RulesIn m' ps := fun p hp =>
  ⟨Stored.frame _ (fun x hx => hf x (Nat.lt_of_lt_of_le hx (cnt_le_cntL hp))) (h p hp).1, (h p hp).2⟩

structure ApartL (h : Heap) (t : OTree) (ps : List ORule) : Prop where
  st : Stored h.mem t
  sr : RulesIn h.mem ps
  sep : ∀ x, t.cnt x + cntL x ps ≤ 1
  bound : ∀ x, h.next ≤ x → t.cnt x + cntL x ps = 0

/-- what is neither part of the document nor of a default is not changed -/
structure KeptRest (h : Heap) (t : OTree) (c : Nat → Nat) (h' : Heap) : Prop where
  next : h.next ≤ h'.next
  frame : ∀ x, x < h.next → t.cnt x = 0 → c x = 0 → h'.mem x = h.mem x

structure OutL (h : Heap) (t : OTree) (c : Nat → Nat) (h' : Heap) (t' : OTree) : Prop extends KeptRest h t c h' where
  root : t'.root = t.root
  st : Stored h'.mem t'
  cnt : ∀ x, t'.cnt x ≤ t.cnt x + c x + isNew h.next h'.next x

theorem OutL.trans {h h1 h2 : Heap} {t t1 t2 : OTree} {c c1 c2 : Nat → Nat} (o1 : OutL h t c1 h1 t1) (o2 : OutL h1 t1 c2 h2 t2)
    (hc : ∀ x, c1 x + c2 x ≤ c x) : OutL h t c h2 t2 := by
  have n1 := o1.next
  have n2 := o2.next
  refine ⟨⟨by omega, fun x hx h0 hcx => ?_⟩, o2.root.trans o1.root, o2.st, fun x => ?_⟩
  · have e := hc x
    have e1 := o1.cnt x
    rw [isNew_zero hx] at e1
    rw [o2.frame x (by omega) (by omega) (by omega), o1.frame x hx h0 (by omega)]
  · have e := hc x
    have e1 := o1.cnt x
    have e2 := o2.cnt x
    rw [← isNew_add n1 n2]
    omega

theorem KeptRest.after {h h1 h2 : Heap} {t t1 : OTree} {c c1 c2 : Nat → Nat} (o1 : OutL h t c1 h1 t1) (o2 : KeptRest h1 t1 c2 h2)
    (hc : ∀ x, c1 x + c2 x ≤ c x) : KeptRest h t c h2 := by
  have n1 := o1.next
  have n2 := o2.next
  refine ⟨by omega, fun x hx h0 hcx => ?_⟩
  have e := hc x
  have e1 := o1.cnt x
  rw [isNew_zero hx] at e1
  rw [o2.frame x (by omega) (by omega) (by omega), o1.frame x hx h0 (by omega)]

theorem OutL.refl {h : Heap} {t : OTree} (hs : Stored h.mem t) : OutL h t (fun _ => 0) h t :=
  ⟨⟨Nat.le_refl _, fun _ _ _ _ => rfl⟩, rfl, hs, fun _ => by omega⟩

theorem OutL.mono {h h' : Heap} {t t' : OTree} {c c' : Nat → Nat} (o : OutL h t c h' t') (hc : ∀ x, c x ≤ c' x) : OutL h t c' h' t' :=
  ⟨⟨o.next, fun x hx h0 h1 => o.frame x hx h0 (by have := hc x; omega)⟩, o.root, o.st, fun x => by have := o.cnt x; have := hc x; omega⟩

/-- after a step, the document and what comes later are still apart -/
theorem OutL.bounds {h h' : Heap} {t t' : OTree} {c c2 : Nat → Nat} (o : OutL h t c h' t') (hsep : ∀ x, t.cnt x + (c x + c2 x) ≤ 1)
    (hb : ∀ x, h.next ≤ x → t.cnt x + (c x + c2 x) = 0) :
    (∀ x, t'.cnt x + c2 x ≤ 1) ∧ ∀ x, h'.next ≤ x → t'.cnt x + c2 x = 0 := by
  have n := o.next
  refine ⟨fun x => ?_, fun x hx => ?_⟩
  · have e := o.cnt x
    have s := hsep x
    by_cases hx : h.next ≤ x
    · have b := hb x hx
      have := isNew_le (a := h.next) (b := h'.next) (x := x)
      omega
    · rw [isNew_zero (show x < h.next by omega)] at e
      omega
  · have e := o.cnt x
    have b := hb x (by omega)
    have : isNew h.next h'.next x = 0 := by unfold isNew; rw [if_neg (by omega)]
    omega

theorem rules_ok : ∀ (ps : List ORule) (t : OTree) (h : Heap), ApartL h t ps →
    (∃ e h', applyRules (ps.map Prod.fst) t.tree = .error e ∧ applyRulesH t.root h (ps.map ORule.toH) = (h', some e) ∧
      KeptRest h t (fun x => cntL x ps) h') ∨
    ∃ h' t', applyRules (ps.map Prod.fst) t.tree = .ok t'.tree ∧ applyRulesH t.root h (ps.map ORule.toH) = (h', none) ∧
      OutL h t (fun x => cntL x ps) h' t'
  | [], t, h, ha => .inr ⟨h, t, rfl, rfl, OutL.refl ha.st⟩
  | p :: ps, t, h, ha => by
    have hp := ha.sr p (List.mem_cons_self ..)
    have ha1 : Apart2 h t p.2 :=
      ⟨ha.st, hp.1, fun x => by have := ha.sep x; simp only [cntL] at this; omega,
        fun x hx => by have := ha.bound x hx; simp only [cntL] at this; omega⟩
    simp only [List.map_cons, applyRules, applyRulesH, ORule.toH, bind, Except.bind]
    rcases rule_ok p.1 ha1 hp.2 with ⟨e, h1, e1, e2, k⟩ | ⟨h1, t1, e1, e2, i⟩
    · exact .inl ⟨e, h1, by rw [e1], by rw [e2], k.next, fun x hx h0 _ => k.frame x hx h0⟩
    · rw [e1, e2]
      have o : OutL h t (fun x => p.2.cnt x) h1 t1 := ⟨⟨i.next, fun x hx h0 _ => i.frame x hx h0⟩, i.root, i.st, i.cnt⟩
      have hb := o.bounds (c2 := fun x => cntL x ps) (fun x => by have := ha.sep x; simp only [cntL] at this; omega)
        (fun x hx => by have := ha.bound x hx; simp only [cntL] at this; omega)
      have ha2 : ApartL h1 t1 ps := by
        refine ⟨o.st, RulesIn.frame (fun x hx => ?_) (fun q hq => ha.sr q (List.mem_cons_of_mem _ hq)), hb.1, hb.2⟩
        have s := ha.sep x
        have b := ha.bound x
        simp only [cntL] at s b
        exact i.frame x (by omega) (by omega)
      simp only [← o.root]
      rcases rules_ok ps t1 h1 ha2 with ⟨e, h2, f1, f2, k⟩ | ⟨h2, t2, f1, f2, o2⟩
      · exact .inl ⟨e, h2, f1, f2, KeptRest.after o k (fun x => by simp only [cntL]; omega)⟩
      · exact .inr ⟨h2, t2, f1, f2, o.trans o2 (fun x => by simp only [cntL]; omega)⟩

structure MadeL (h h' : Heap) (c : Nat → Nat) : Prop where
  next : h.next ≤ h'.next
  cnt : ∀ x, c x ≤ isNew h.next h'.next x
  frame : ∀ x, x < h.next → h'.mem x = h.mem x

theorem makeRules_ok : ∀ (rs : List Rule) (h : Heap), ∃ ps h', makeRules rs h = (ps.map ORule.toH, h') ∧ ps.map Prod.fst = rs ∧
    RulesIn h'.mem ps ∧ MadeL h h' (fun x => cntL x ps)
  | [], h => ⟨[], h, rfl, rfl, fun _ hp => (nomatch hp), Nat.le_refl _, fun _ => Nat.zero_le _, fun _ _ => rfl⟩
  | r :: rs, h => by
    obtain ⟨x, h1, u, e1, a⟩ := alloc_ok r.const h
    obtain ⟨ps, h2, e2, e3, e4, m⟩ := makeRules_ok rs h1
    refine ⟨(r, u) :: ps, h2, ?_, by rw [List.map_cons, e3], fun p hp => ?_, Nat.le_trans a.next m.next, fun x => ?_, fun x hx => ?_⟩
    · simp only [makeRules, Rule.make, e1, e2, List.map_cons, ORule.toH, a.root]
    · rcases List.mem_cons.1 hp with rfl | hp
      · refine ⟨Stored.frame _ (fun x hx => m.frame x ?_) a.st, a.tree⟩
        have hx' : 0 < u.cnt x := hx
        have := a.cnt x
        exact (isNew_pos (show 0 < isNew h.next h1.next x by omega)).2
      · exact e4 p hp
    · have c1 := a.cnt x
      have c2 := m.cnt x
      simp only [cntL] at c2 ⊢
      rw [← isNew_add a.next m.next]
      omega
    · have := a.next
      rw [m.frame x (by omega), a.frame x hx]

/-! ## the loop over versions -/

/-- the loop gives what it gives on trees, for a document that was created after `h` -/
def LoopOK (src : RuleSrc) (vi : VerInfo) (h : Heap) : Prop :=
  ∀ (t : OTree) (h0 : Heap), h.next ≤ h0.next → (∀ x, x < h.next → h0.mem x = h.mem x) → Stored h0.mem t → (∀ x, t.cnt x ≤ 1) →
    (∀ x, h0.next ≤ x → t.cnt x = 0) → (∀ x, x < h.next → t.cnt x = 0) → ∀ a b,
      (∃ e h', upgradeLoop vi (rangeI a b) t.tree = .error e ∧ upgradeLoopH src t.root h0 (rangeI a b) = (h', some e)) ∨
      ∃ h' t', upgradeLoop vi (rangeI a b) t.tree = .ok t'.tree ∧ upgradeLoopH src t.root h0 (rangeI a b) = (h', none) ∧ t'.root = t.root ∧
        Stored h'.mem t' ∧ (∀ x, t'.cnt x ≤ 1) ∧ ∀ x, h'.next ≤ x → t'.cnt x = 0

theorem loop_fresh (vi : VerInfo) : ∀ (is : List Int) (t : OTree) (h : Heap), Stored h.mem t → (∀ x, t.cnt x ≤ 1) →
    (∀ x, h.next ≤ x → t.cnt x = 0) →
    (∃ e h', upgradeLoop vi is t.tree = .error e ∧ upgradeLoopH vi.createdByCall t.root h is = (h', some e)) ∨
    ∃ h' t', upgradeLoop vi is t.tree = .ok t'.tree ∧ upgradeLoopH vi.createdByCall t.root h is = (h', none) ∧ t'.root = t.root ∧
      Stored h'.mem t' ∧ (∀ x, t'.cnt x ≤ 1) ∧ ∀ x, h'.next ≤ x → t'.cnt x = 0
  | [], t, h, hs, hsep, hb => .inr ⟨h, t, rfl, rfl, rfl, hs, hsep, hb⟩
  | i :: is, t, h, hs, hsep, hb => by
    obtain ⟨ps, h1, e1, e2, e3, m⟩ := makeRules_ok (vi.rulesAt i) h
    have n := m.next
    have s1 : ∀ x, t.cnt x + cntL x ps ≤ 1 := fun x => by
      have c := m.cnt x
      by_cases hx : h.next ≤ x
      · have := hb x hx
        have := isNew_le (a := h.next) (b := h1.next) (x := x)
        omega
      · rw [isNew_zero (show x < h.next by omega)] at c
        have := hsep x
        omega
    have b1 : ∀ x, h1.next ≤ x → t.cnt x + cntL x ps = 0 := fun x hx => by
      have c := m.cnt x
      have := hb x (by omega)
      have : isNew h.next h1.next x = 0 := by unfold isNew; rw [if_neg (by omega)]
      omega
    have ha : ApartL h1 t ps := by
      refine ⟨Stored.frame _ (fun x hx => m.frame x ?_) hs, e3, s1, b1⟩
      have := hb x
      omega
    simp only [upgradeLoop, upgradeLoopH, VerInfo.createdByCall, e1, bind, Except.bind]
    rcases rules_ok ps t h1 ha with ⟨e, h2, f1, f2, k⟩ | ⟨h2, t2, f1, f2, o⟩
    · rw [e2] at f1
      exact .inl ⟨e, h2, by rw [f1], by rw [f2]⟩
    · rw [e2] at f1
      rw [f1, f2]
      have hb2 := o.bounds (c2 := fun _ => 0) (fun x => by have := s1 x; omega) (fun x hx => by have := b1 x hx; omega)
      simp only [← o.root]
      exact loop_fresh vi is t2 h2 o.st (fun x => by have := hb2.1 x; omega) (fun x hx => by have := hb2.2 x hx; omega)

theorem loopOK_created (vi : VerInfo) (h : Heap) : LoopOK vi.createdByCall vi h := fun t h0 _ _ hs hsep hb _ _ _ =>
  loop_fresh vi _ t h0 hs hsep hb

/-- the rules for each version of a table -/
def lookupO (T : List (Int × List ORule)) (i : Int) : List ORule :=
  match T.find? (fun e => e.1 == i) with
  | some e => e.2
  | .none => []

def cntLL (x : Nat) (T : List (Int × List ORule)) : List Int → Nat
  | [] => 0
  | i :: is => cntL x (lookupO T i) + cntLL x T is

theorem find_map {α β : Type} (f : α → β) (i : Int) : ∀ T : List (Int × α),
    (T.map fun e => (e.1, f e.2)).find? (fun e => e.1 == i) = (T.find? (fun e => e.1 == i)).map fun e => (e.1, f e.2)
  | [] => rfl
  | e :: T => by
    simp only [List.map_cons, List.find?_cons]
    split
    · rfl
    · exact find_map f i T

theorem stored_src (T : List (Int × List ORule)) (i : Int) (h : Heap) :
    storedRules (T.map fun e => (e.1, e.2.map ORule.toH)) i h = ((lookupO T i).map ORule.toH, h) := by
  simp only [storedRules, find_map (fun l : List ORule => l.map ORule.toH), lookupO]
  cases T.find? (fun e => e.1 == i) <;> rfl

theorem rulesAt_lookup {vi : VerInfo} {T : List (Int × List ORule)} (hv : (T.map fun e => (e.1, e.2.map Prod.fst)) = vi.rules) (i : Int) :
    vi.rulesAt i = (lookupO T i).map Prod.fst := by
  simp only [VerInfo.rulesAt, ← hv, find_map (fun l : List ORule => l.map Prod.fst), lookupO]
  cases T.find? (fun e => e.1 == i) <;> rfl

theorem loop_stored (vi : VerInfo) (T : List (Int × List ORule)) (hv : (T.map fun e => (e.1, e.2.map Prod.fst)) = vi.rules) :
    ∀ (is : List Int) (t : OTree) (h : Heap), Stored h.mem t → (∀ i ∈ is, RulesIn h.mem (lookupO T i)) → (∀ x, t.cnt x + cntLL x T is ≤ 1) →
    (∀ x, h.next ≤ x → t.cnt x + cntLL x T is = 0) →
    (∃ e h', upgradeLoop vi is t.tree = .error e ∧
      upgradeLoopH (storedRules (T.map fun e => (e.1, e.2.map ORule.toH))) t.root h is = (h', some e)) ∨
    ∃ h' t', upgradeLoop vi is t.tree = .ok t'.tree ∧
      upgradeLoopH (storedRules (T.map fun e => (e.1, e.2.map ORule.toH))) t.root h is = (h', none) ∧ t'.root = t.root ∧
      Stored h'.mem t' ∧ (∀ x, t'.cnt x ≤ 1) ∧ ∀ x, h'.next ≤ x → t'.cnt x = 0
  | [], t, h, hs, _, hsep, hb => .inr ⟨h, t, rfl, rfl, rfl, hs, hsep, hb⟩
  | i :: is, t, h, hs, hr, hsep, hb => by
    simp only [cntLL] at hsep hb
    have ha : ApartL h t (lookupO T i) := ⟨hs, hr i (List.mem_cons_self ..), fun x => by have := hsep x; omega,
      fun x hx => by have := hb x hx; omega⟩
    simp only [upgradeLoop, upgradeLoopH, stored_src, bind, Except.bind]
    rcases rules_ok (lookupO T i) t h ha with ⟨e, h2, f1, f2, k⟩ | ⟨h2, t2, f1, f2, o⟩
    · rw [← rulesAt_lookup hv] at f1
      exact .inl ⟨e, h2, by rw [f1], by rw [f2]⟩
    · rw [← rulesAt_lookup hv] at f1
      rw [f1, f2]
      have hb2 := o.bounds (c2 := fun x => cntLL x T is) (fun x => by have := hsep x; omega) (fun x hx => by have := hb x hx; omega)
      simp only [← o.root]
      refine loop_stored vi T hv is t2 h2 o.st (fun j hj => RulesIn.frame (fun x hx => ?_) (hr j (List.mem_cons_of_mem _ hj))) hb2.1 hb2.2
      have hle : ∀ is : List Int, j ∈ is → cntL x (lookupO T j) ≤ cntLL x T is := by
        intro is
        induction is with
        | nil => intro h; exact (nomatch h)
        | cons a is ih =>
          intro h
          simp only [cntLL]
          rcases List.mem_cons.1 h with rfl | h
          · omega
          · have := ih h; omega
      have := hle is hj
      have s := hsep x
      have b := hb x
      exact o.frame x (by omega) (by omega) (by omega)

theorem rangeI_nodup (a b : Int) : (rangeI a b).Nodup := by
  unfold rangeI
  refine List.Pairwise.map _ (fun x y (hxy : x ≠ y) => ?_) List.nodup_range
  omega

def cntT (x : Nat) : List (Int × List ORule) → Nat
  | [] => 0
  | e :: T => cntL x e.2 + cntT x T

theorem cntLL_le (x : Nat) : ∀ (T : List (Int × List ORule)) (is : List Int), is.Nodup → cntLL x T is ≤ cntT x T
  | [], is, _ => by
    have : ∀ is : List Int, cntLL x [] is = 0 := by
      intro is
      induction is with
      | nil => rfl
      | cons a is ih => simp only [cntLL, ih, lookupO, List.find?_nil, cntL]
    rw [this]; exact Nat.zero_le _
  | (k, ps) :: T, is, hn => by
    have key : ∀ is : List Int, is.Nodup → cntLL x ((k, ps) :: T) is ≤ (if k ∈ is then cntL x ps else 0) + cntLL x T is := by
      intro is
      induction is with
      | nil => intro _; exact Nat.zero_le _
      | cons a is ih =>
        intro hn
        rw [List.nodup_cons] at hn
        have h1 := ih hn.2
        simp only [cntLL]
        by_cases e : k = a
        · subst e
          rw [if_neg hn.1] at h1
          rw [if_pos (List.mem_cons_self ..)]
          have : lookupO ((k, ps) :: T) k = ps := by simp [lookupO]
          rw [this]
          omega
        · have : lookupO ((k, ps) :: T) a = lookupO T a := by simp [lookupO, e]
          rw [this]
          have : (if k ∈ a :: is then cntL x ps else 0) = if k ∈ is then cntL x ps else 0 := by simp [e]
          rw [this]
          omega
    have h1 := key is hn
    have h2 := cntLL_le x T is hn
    simp only [cntT]
    split at h1 <;> omega

theorem makeTable_ok : ∀ (rt : List (Int × List Rule)) (h : Heap), ∃ T h',
    makeTable rt h = (T.map (fun e => (e.1, e.2.map ORule.toH)), h') ∧ (T.map fun e => (e.1, e.2.map Prod.fst)) = rt ∧
    (∀ e ∈ T, RulesIn h'.mem e.2) ∧ MadeL h h' (fun x => cntT x T)
  | [], h => ⟨[], h, rfl, rfl, fun _ hp => (nomatch hp), Nat.le_refl _, fun _ => Nat.zero_le _, fun _ _ => rfl⟩
  | (i, rs) :: rt, h => by
    obtain ⟨ps, h1, e1, e2, e3, m1⟩ := makeRules_ok rs h
    obtain ⟨T, h2, f1, f2, f3, m2⟩ := makeTable_ok rt h1
    refine ⟨(i, ps) :: T, h2, by simp only [makeTable, e1, f1, List.map_cons], by simp only [List.map_cons, e2, f2], fun e he => ?_,
      Nat.le_trans m1.next m2.next, fun x => ?_, fun x hx => ?_⟩
    · rcases List.mem_cons.1 he with rfl | he
      · refine RulesIn.frame (fun x hx => m2.frame x ?_) e3
        have := m1.cnt x
        exact (isNew_pos (show 0 < isNew h.next h1.next x by simp only at *; omega)).2
      · exact f3 e he
    · have c1 := m1.cnt x
      have c2 := m2.cnt x
      rw [← isNew_add m1.next m2.next]
      simp only [cntT] at c1 c2 ⊢
      omega
    · have := m1.next
      rw [m2.frame x (by omega), m1.frame x hx]

theorem lookupO_mem {T : List (Int × List ORule)} {m : Nat → List (String × HVal)} (h : ∀ e ∈ T, RulesIn m e.2) (i : Int) :
    RulesIn m (lookupO T i) := by
  unfold lookupO
  cases hf : T.find? (fun e => e.1 == i) with
  | none => exact fun _ hp => (nomatch hp)
  | some e => exact h e (List.mem_of_find?_eq_some hf)

/-- a table of rules that was just created -/
theorem loopOK_table (vi : VerInfo) (h : Heap) : LoopOK (storedRules (makeTable vi.rules h).1) vi (makeTable vi.rules h).2 := by
  obtain ⟨T, h1, e1, e2, e3, m⟩ := makeTable_ok vi.rules h
  rw [e1]
  intro t h0 hn hf hs hsep hb hlow a b
  have hc : ∀ x, cntLL x T (rangeI a b) ≤ isNew h.next h1.next x := fun x =>
    Nat.le_trans (cntLL_le x T _ (rangeI_nodup a b)) (m.cnt x)
  have hcT : ∀ x, cntT x T ≤ isNew h.next h1.next x := m.cnt
  refine loop_stored vi T e2 (rangeI a b) t h0 hs (fun i _ => lookupO_mem (fun e he => RulesIn.frame (fun x hx => hf x ?_) (e3 e he)) i) ?_ ?_
  · have hle : ∀ T : List (Int × List ORule), e ∈ T → cntL x e.2 ≤ cntT x T := by
      intro T
      induction T with
      | nil => intro h; exact (nomatch h)
      | cons a T ih =>
        intro h
        simp only [cntT]
        rcases List.mem_cons.1 h with rfl | h
        · omega
        · have := ih h; omega
    have := hle T he
    have := hcT x
    exact (isNew_pos (show 0 < isNew h.next h1.next x by omega)).2
  · intro x
    have c := hc x
    by_cases hx : x < h1.next
    · have := hlow x hx
      have := isNew_le (a := h.next) (b := h1.next) (x := x)
      omega
    · have : isNew h.next h1.next x = 0 := by unfold isNew; rw [if_neg (by omega)]
      have := hsep x
      omega
  · intro x hx
    have c := hc x
    have : isNew h.next h1.next x = 0 := by unfold isNew; rw [if_neg (by simp only at hn; omega)]
    have := hb x hx
    omega

/-! ## defaults that are no dicts -/

/-- no rule puts a dict into a document -/
def PlainRules (vi : VerInfo) : Prop := ∀ e ∈ vi.rules, ∀ r ∈ e.2, r.const.isDict = false

theorem allocV_plain {v : Val} (h : v.isDict = false) (H : Heap) : allocV v H = (.leaf v, H) := by
  cases v <;> first | rfl | exact (nomatch h)

theorem makeRules_plain : ∀ (rs : List Rule) (h : Heap), (∀ r ∈ rs, r.const.isDict = false) →
    makeRules rs h = ((rs.map fun r => ((r, OTree.leaf r.const) : ORule)).map ORule.toH, h)
  | [], h, _ => rfl
  | r :: rs, h, hr => by
    simp only [makeRules, Rule.make, allocV_plain (hr r (List.mem_cons_self ..)), List.map_cons,
      makeRules_plain rs h (fun r h => hr r (List.mem_cons_of_mem _ h))]
    rfl

/-- the table of rules, as objects -/
def plainTable (rt : List (Int × List Rule)) : List (Int × List ORule) := rt.map fun e => (e.1, e.2.map fun r => (r, OTree.leaf r.const))

theorem makeTable_plain : ∀ (rt : List (Int × List Rule)) (h : Heap), (∀ e ∈ rt, ∀ r ∈ e.2, r.const.isDict = false) →
    makeTable rt h = ((plainTable rt).map (fun e => (e.1, e.2.map ORule.toH)), h)
  | [], h, _ => rfl
  | (i, rs) :: rt, h, hr => by
    simp only [makeTable, makeRules_plain rs h (hr _ (List.mem_cons_self ..)),
      makeTable_plain rt h (fun e h => hr e (List.mem_cons_of_mem _ h))]
    rfl

theorem cntL_plain (x : Nat) : ∀ rs : List Rule, cntL x (rs.map fun r => (r, OTree.leaf r.const)) = 0
  | [] => rfl
  | r :: rs => by simp only [List.map_cons, cntL, cntL_plain x rs, OTree.cnt]

theorem loopOK_plain (vi : VerInfo) (hp : PlainRules vi) (h0 h : Heap) : LoopOK (storedRules (makeTable vi.rules h0).1) vi h := by
  rw [makeTable_plain vi.rules h0 hp]
  intro t h1 _ _ hs hsep hb _ a b
  have hv : ((plainTable vi.rules).map fun e => (e.1, e.2.map Prod.fst)) = vi.rules := by
    simp only [plainTable, List.map_map]
    refine (List.map_congr_left (g := id) fun e _ => ?_).trans (List.map_id _)
    simp [Function.comp_def]
  have hz : ∀ x i, cntL x (lookupO (plainTable vi.rules) i) = 0 := by
    intro x i
    unfold lookupO
    cases hf : (plainTable vi.rules).find? (fun e => e.1 == i) with
    | none => rfl
    | some e =>
      have := List.mem_of_find?_eq_some hf
      simp only [plainTable, List.mem_map] at this
      obtain ⟨e', _, rfl⟩ := this
      exact cntL_plain x e'.2
  have hzz : ∀ x is, cntLL x (plainTable vi.rules) is = 0 := by
    intro x is
    induction is with
    | nil => rfl
    | cons i is ih => simp only [cntLL, ih, hz]
  refine loop_stored vi _ hv (rangeI a b) t h1 hs (fun i _ => lookupO_mem (fun e he => ?_) i) (fun x => by rw [hzz]; exact hsep x)
    (fun x hx => by rw [hzz]; exact hb x hx)
  simp only [plainTable, List.mem_map] at he
  obtain ⟨e', he', rfl⟩ := he
  intro p hpm
  simp only [List.mem_map] at hpm
  obtain ⟨r, hr, rfl⟩ := hpm
  exact ⟨hp e' he' r hr, rfl⟩

/-! ## loads -/

theorem versionHook_leaf {am : Bool} {vi : VerInfo} {v r : Val} (hd : v.isDict = false) (h : versionHook am vi v = .ok r) : r = v := by
  cases v with
  | dict d => exact (nomatch hd)
  | ntup n kvs =>
    simp only [versionHook] at h
    split at h
    · split at h
      · cases h; rfl
      · exact (nomatch h)
    · split at h
      · cases h; rfl
      · exact (nomatch h)
    · simp only [bind, Except.bind, pure, Except.pure] at h
      split at h
      · exact (nomatch h)
      · cases h; rfl
  | _ =>
    simp only [versionHook] at h
    split at h
    · cases h; rfl
    · exact (nomatch h)

theorem load_ok {src : RuleSrc} {vi : VerInfo} {h : Heap} (hl : LoopOK src vi h) (am : Bool) (doc : Val) :
    (loadH src am vi doc h).1 = versionHook am vi doc := by
  obtain ⟨x, h1, u, e1, o⟩ := alloc_ok doc h
  have n := o.next
  have hsep : ∀ x, u.cnt x ≤ 1 := fun x => Nat.le_trans (o.cnt x) isNew_le
  have hb : ∀ x, h1.next ≤ x → u.cnt x = 0 := fun x hx => by
    have := o.cnt x
    have : isNew h.next h1.next x = 0 := by unfold isNew; rw [if_neg (by omega)]
    omega
  have hlow : ∀ x, x < h.next → u.cnt x = 0 := fun x hx => by
    have := o.cnt x
    rw [isNew_zero hx] at this
    omega
  simp only [loadH, e1, o.root]
  have htree := o.tree
  have hst := o.st
  clear e1
  cases u with
  | leaf v =>
    simp only [OTree.tree] at htree
    subst htree
    simp only [Stored] at hst
    simp only [OTree.root, hookH]
    cases hv : versionHook am vi v with
    | error e => rfl
    | ok r => simp only [readH, versionHook_leaf hst hv]
  | node a d =>
    have hst' := hst
    simp only [OTree.tree] at htree
    subst htree
    simp only [Stored] at hst
    -- the document without its version
    have ht : Stored (h1.upd a (ddel (rootD d) "version")).mem (.node a (ddel d "version")) ∧
        ∀ x, (OTree.node a (ddel d "version")).cnt x ≤ (OTree.node a d).cnt x := by
      have hle : ∀ x, cntD x (ddel d "version") ≤ cntD x d := by
        intro x
        cases hd : dget d "version" with
        | some c => have := cntD_ddel (x := x) hd; omega
        | none =>
          have : ∀ d : List (String × OTree), dget d "version" = none → ddel d "version" = d := by
            intro d
            induction d with
            | nil => intro _; rfl
            | cons p d ih =>
              obtain ⟨k, v⟩ := p
              intro h
              simp only [dget] at h
              split at h
              · exact (nomatch h)
              · rename_i e; simp only [ddel, if_neg e, ih h]
          rw [this d hd]; exact Nat.le_refl _
      refine ⟨⟨by simp [Heap.upd, rootD_ddel], StoredD.frame _ (fun x hx => ?_) (StoredD_ddel hst.2)⟩, fun x => ?_⟩
      · have h1 := hsep x
        simp only [OTree.cnt] at h1
        have h2 := hle x
        have : x ≠ a := by rintro rfl; simp only [if_true] at h1; omega
        simp [Heap.upd, this]
      · simp only [OTree.cnt]
        have := hle x
        omega
    have hread : readH (h1.upd a (ddel (rootD d) "version")).mem (h1.upd a (ddel (rootD d) "version")).next (.ref a) =
        .dict (treeD (ddel d "version")) :=
      read_next (t := .node a (ddel d "version")) ht.1 (fun x => Nat.le_trans (ht.2 x) (hsep x))
        (fun x hx => Nat.le_zero.1 (by have := ht.2 x; have := hb x hx; omega))
    have ham : a < h1.next := by
      have := hb a
      simp only [OTree.cnt, if_true] at this
      omega
    have hal : h.next ≤ a := by
      have := hlow a
      simp only [OTree.cnt, if_true] at this
      omega
    have hloop := hl (.node a (ddel d "version")) (h1.upd a (ddel (rootD d) "version")) n
      (fun x hx => by simp only [Heap.upd]; rw [if_neg (by omega), o.frame x hx]) ht.1 (fun x => Nat.le_trans (ht.2 x) (hsep x))
      (fun x hx => Nat.le_zero.1 (by have := ht.2 x; have := hb x hx; omega))
      (fun x hx => Nat.le_zero.1 (by have := ht.2 x; have := hlow x hx; omega))
    simp only [OTree.root, OTree.tree] at hloop
    simp only [OTree.root, hookH, versionHook, hst.1, rootD_dget, treeD_dget, treeD_ddel]
    cases hd : dget d "version" with
    | none =>
      cases am
      · rfl
      · simp only [Option.map_none, if_true, hread]
    | some c =>
      have hcs := StoredD_dget hst.2 hd
      simp only [Option.map_some, VerInfo.upgradeAny, VerInfo.applyUpgrades]
      cases hall : vi.rules.all (fun e => e.1 < vi.version) with
      | false =>
        cases c with
        | node b dc => rfl
        | leaf v => cases v <;> first | rfl | (cases am <;> first | rfl | simp only [OTree.root, OTree.tree, if_true, hread])
      | true =>
        cases c with
        | node b dc => rfl
        | leaf v =>
          have fin : ∀ n, (match (match upgradeLoopH src (.ref a) (h1.upd a (ddel (rootD d) "version")) (rangeI n vi.version) with
              | (h'', .none) => (Except.ok (readH h''.mem h''.next (.ref a)), h'')
              | (h'', some e) => (.error e, h'')) with | (r, _) => r) = upgradeLoop vi (rangeI n vi.version) (.dict (treeD (ddel d "version"))) := by
            intro n
            rcases hloop n vi.version with ⟨e, h2, f1, f2⟩ | ⟨h2, t2, f1, f2, f3, f4, f5, f6⟩
            · rw [f1, f2]
            · have := read_next f4 f5 f6
              rw [show t2.root = .ref a from f3] at this
              rw [f1, f2]
              simp only [this]
          cases v with
          | none =>
            cases am
            · rfl
            · simp only [OTree.root, OTree.tree, if_true, hread]
          | int i => exact fin i
          | bool b => exact fin _
          | _ => rfl

end HS
