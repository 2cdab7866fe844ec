import Verif.Model.BlobClass
import Mathlib.Data.List.Nodup

/-! C96: what class `blob` makes (lazy.py:144-148, README "blob") -/

namespace HS

theorem c3next_spec {ls : List (List String)} {c : String} (h : c3next ls = some c) :
    (∃ l ∈ ls, l.head? = some c) ∧ ∀ l ∈ ls, c ∉ l.tail := by
  simp only [c3next] at h
  have h1 := List.find?_some h
  have h2 := List.mem_of_find?_eq_some h
  refine ⟨by simpa [List.mem_filterMap] using h2, ?_⟩
  simpa using h1

theorem c3drop_sub (c : String) (l : List String) : ∀ x ∈ c3drop c l, x ∈ l := by
  intro x hx
  simp only [c3drop] at hx
  split at hx
  · exact List.mem_of_mem_tail hx
  · exact hx

/-- the merge keeps the order of every list, adds nothing and has no class twice -/
theorem c3merge_spec : ∀ (fuel : Nat) (ls : List (List String)) (r : List String), c3merge fuel ls = some r →
    (∀ l ∈ ls, l.Sublist r) ∧ (∀ c ∈ r, ∃ l ∈ ls, c ∈ l) ∧ r.Nodup := by
  intro fuel
  induction fuel with
  | zero =>
    intro ls r h
    simp only [c3merge] at h
    split at h
    · rename_i he
      cases h
      refine ⟨fun l hl => ?_, by simp, List.nodup_nil⟩
      have := List.all_eq_true.1 he l hl
      simp at this
      simp [this]
    · exact (nomatch h)
  | succ fuel ih =>
    intro ls r h
    simp only [c3merge] at h
    split at h
    · rename_i he
      cases h
      refine ⟨fun l hl => ?_, by simp, List.nodup_nil⟩
      have := List.all_eq_true.1 he l hl
      simp at this
      simp [this]
    · cases hn : c3next ls with
      | none => rw [hn] at h; exact (nomatch h)
      | some c =>
        rw [hn] at h
        simp only [Option.map_eq_some_iff] at h
        obtain ⟨r', hr, rfl⟩ := h
        obtain ⟨⟨l0, hl0, hc0⟩, ht⟩ := c3next_spec hn
        obtain ⟨h1, h2, h3⟩ := ih _ _ hr
        refine ⟨fun l hl => ?_, fun x hx => ?_, List.nodup_cons.2 ⟨fun hx => ?_, h3⟩⟩
        · have := h1 (c3drop c l) (List.mem_map.2 ⟨l, hl, rfl⟩)
          simp only [c3drop] at this
          split at this
          · rename_i hh
            cases l with
            | nil => simp at hh
            | cons a l => simp at hh; subst hh; exact this.cons_cons a
          · exact this.cons c
        · rcases List.mem_cons.1 hx with rfl | hx
          · exact ⟨l0, hl0, List.mem_of_mem_head? hc0⟩
          · obtain ⟨l', hl', hx'⟩ := h2 x hx
            obtain ⟨l, hl, rfl⟩ := List.mem_map.1 hl'
            exact ⟨l, hl, c3drop_sub c l x hx'⟩
        · obtain ⟨l', hl', hx'⟩ := h2 c hx
          obtain ⟨l, hl, rfl⟩ := List.mem_map.1 hl'
          simp only [c3drop] at hx'
          split at hx'
          · exact ht l hl hx'
          · rename_i hh
            cases l with
            | nil => simp at hx'
            | cons a l =>
              rcases List.mem_cons.1 hx' with rfl | hx'
              · simp at hh
              · exact ht _ hl hx'

/-- the lookup in an order that contains another one, and nothing else that defines the name -/
theorem findSome_sublist {α : Type} {f : String → Option α} {l r : List String} (h : l.Sublist r) :
    r.Nodup → (∀ c ∈ r, f c ≠ .none → c ∈ l) → r.findSome? f = l.findSome? f := by
  induction h with
  | slnil => intros; rfl
  | @cons l r a h ih =>
    intro hn hc
    have hn' := List.nodup_cons.1 hn
    have hfa : f a = .none := by
      by_contra hne
      exact hn'.1 (h.subset (hc a (by simp) hne))
    rw [List.findSome?_cons, hfa]
    exact ih hn'.2 (fun c hcr => hc c (List.mem_cons_of_mem _ hcr))
  | @cons_cons l r a h ih =>
    intro hn hc
    have hn' := List.nodup_cons.1 hn
    rw [List.findSome?_cons, List.findSome?_cons]
    cases hfa : f a with
    | some v => rfl
    | none =>
      refine ih hn'.2 (fun c hcr hne => ?_)
      rcases List.mem_cons.1 (hc c (List.mem_cons_of_mem _ hcr) hne) with rfl | h
      · exact absurd hfa hne
      · exact h

theorem blobMro_inv {α : Type} {P : Classes α} {clz mixin : String} {r : List String} (h : P.blobMro clz mixin = some r) :
    ∃ r', r = "Blob" :: r' ∧ (P.mro mixin).Sublist r' ∧ (P.mro clz).Sublist r' ∧ [mixin, clz].Sublist r' ∧ r'.Nodup ∧
      ∀ c ∈ r', c ∈ P.mro mixin ∨ c ∈ P.mro clz ∨ c = mixin ∨ c = clz := by
  simp only [Classes.blobMro, Option.map_eq_some_iff] at h
  obtain ⟨r', hr, rfl⟩ := h
  obtain ⟨h1, h2, h3⟩ := c3merge_spec _ _ _ hr
  exact ⟨r', rfl, h1 _ (by simp), h1 _ (by simp), h1 _ (by simp), h3, fun c hc => by simpa using h2 c hc⟩

/-- C96: an instance of the class that `blob` makes is an instance of everything that instances of `mixin` and of `clz` are instances of
(so it is Serializable), and the bases keep their order. -/
theorem C96_instance {α : Type} (P : Classes α) (clz mixin : String) (r : List String) (h : P.blobMro clz mixin = some r) :
    (P.mro mixin).Sublist r ∧ (P.mro clz).Sublist r ∧ ∀ c, c ∈ P.mro mixin ∨ c ∈ P.mro clz → c ∈ r := by
  obtain ⟨r', rfl, h1, h2, _⟩ := blobMro_inv h
  refine ⟨h1.cons _, h2.cons _, fun c hc => List.mem_cons_of_mem _ ?_⟩
  rcases hc with hc | hc
  · exact h1.subset hc
  · exact h2.subset hc

/-- C96: what `mixin` itself defines (`serialize`, `deserialize`) is taken from it, also if `clz` defines it. -/
theorem C96_mixin {α : Type} (P : Classes α) (clz mixin : String) (hm : (P.mro mixin).head? = some mixin) (hc : (P.mro clz).head? = some clz)
    (r : List String) (h : P.blobMro clz mixin = some r) (name : String) (hb : P.own "Blob" name = .none) (v : α) (hv : P.own mixin name = some v) :
    P.lookup r name = some v := by
  simp only [Classes.blobMro, Option.map_eq_some_iff] at h
  obtain ⟨r', hr, rfl⟩ := h
  obtain ⟨ms, hms⟩ : ∃ ms, P.mro mixin = mixin :: ms := by
    cases hx : P.mro mixin with
    | nil => rw [hx] at hm; simp at hm
    | cons a as => rw [hx] at hm; simp at hm; subst hm; exact ⟨as, rfl⟩
  have hfirst : ∃ r'', r' = mixin :: r'' := by
    simp only [c3merge] at hr
    split at hr
    · rename_i he; simp [hms] at he
    · cases hn : c3next [P.mro mixin, P.mro clz, [mixin, clz]] with
      | none => rw [hn] at hr; exact (nomatch hr)
      | some c =>
        rw [hn] at hr
        simp only [Option.map_eq_some_iff] at hr
        obtain ⟨r'', _, rfl⟩ := hr
        obtain ⟨⟨l, hl, hlc⟩, ht⟩ := c3next_spec hn
        have hne : c ≠ clz := by
          rintro rfl
          exact ht [mixin, c] (by simp) (by simp)
        simp only [List.mem_cons, List.not_mem_nil, or_false] at hl
        rcases hl with rfl | rfl | rfl
        · rw [hm] at hlc; cases hlc; exact ⟨r'', rfl⟩
        · rw [hc] at hlc; cases hlc; exact absurd rfl hne
        · simp at hlc; subst hlc; exact ⟨r'', rfl⟩
  obtain ⟨r'', rfl⟩ := hfirst
  simp only [Classes.lookup, List.findSome?_cons, hb, hv]

/-- C96: a name that nothing in `mixin` defines, except classes that are bases of `clz` as well, is what it is in `clz`. -/
theorem C96_class {α : Type} (P : Classes α) (clz mixin : String) (hm : mixin ∈ P.mro mixin) (hc : clz ∈ P.mro clz)
    (r : List String) (h : P.blobMro clz mixin = some r) (name : String) (hb : P.own "Blob" name = .none)
    (hn : ∀ c ∈ P.mro mixin, P.own c name ≠ .none → c ∈ P.mro clz) : P.lookup r name = P.lookup (P.mro clz) name := by
  obtain ⟨r', rfl, _, h2, _, h4, h5⟩ := blobMro_inv h
  simp only [Classes.lookup, List.findSome?_cons, hb]
  refine findSome_sublist h2 h4 (fun c hcr hne => ?_)
  rcases h5 c hcr with h | h | rfl | rfl
  · exact hn c h hne
  · exact h
  · exact hn _ hm hne
  · exact hc

/-- C96: `blob` raises if `clz` is `mixin` or already inherits from it. -/
theorem C96_already {α : Type} (P : Classes α) (clz mixin : String) (hc : (P.mro clz).head? = some clz)
    (h : mixin ∈ P.mro clz) : P.blobMro clz mixin = .none := by
  cases hr : P.blobMro clz mixin with
  | none => rfl
  | some r =>
    exfalso
    obtain ⟨r', rfl, _, h2, h3, h4, _⟩ := blobMro_inv hr
    cases hx : P.mro clz with
    | nil => rw [hx] at hc; simp at hc
    | cons a as =>
      rw [hx] at hc h h2
      simp at hc
      subst hc
      -- `mixin` before `clz` and `clz` before `mixin`
      rcases List.mem_cons.1 h with rfl | h
      · have := h4.sublist h3
        simp at this
      · have h6 : [a, mixin].Sublist r' := (List.cons_sublist_cons.2 (List.singleton_sublist.2 h)).trans h2
        exact absurd h6 (not_swapped h4 h3)
where
  not_swapped {r : List String} {x y : String} (hn : r.Nodup) (h : [x, y].Sublist r) : ¬ [y, x].Sublist r := by
    intro h'
    induction r with
    | nil => simp at h
    | cons a r ih =>
      have hn' := List.nodup_cons.1 hn
      have hne : x ≠ y := by have := hn.sublist h; simpa using this
      by_cases hx : a = x
      · subst hx
        have : [y, a].Sublist r := by
          cases h' with
          | cons _ h => exact h
          | cons_cons => exact absurd rfl hne
        exact hn'.1 (this.subset (by simp))
      · by_cases hy : a = y
        · subst hy
          have : [x, a].Sublist r := by
            cases h with
            | cons _ h => exact h
            | cons_cons => exact absurd rfl hx
          exact hn'.1 (this.subset (by simp))
        · refine ih hn'.2 ?_ ?_
          · cases h with
            | cons _ h => exact h
            | cons_cons => exact absurd rfl hx
          · cases h' with
            | cons _ h => exact h
            | cons_cons => exact absurd rfl hy

/-! ## when the class is made -/

theorem c3merge_step {fuel : Nat} {ls : List (List String)} {c : String} (hn : c3next ls = some c) :
    c3merge (fuel + 1) ls = (c3merge fuel (ls.map (c3drop c))).map (c :: ·) := by
  have : ls.all List.isEmpty = false := by
    obtain ⟨⟨l, hl, hc⟩, _⟩ := c3next_spec hn
    cases l with
    | nil => simp at hc
    | cons a l => exact List.all_eq_false.2 ⟨_, hl, by simp⟩
  simp [c3merge, this, hn]

theorem length_le_sum (ls : List (List String)) (l : List String) (h : l ∈ ls) : l.length ≤ (ls.map List.length).sum := by
  induction ls with
  | nil => simp at h
  | cons a ls ih =>
    simp only [List.map_cons, List.sum_cons]
    rcases List.mem_cons.1 h with rfl | h
    · omega
    · have := ih h; omega

/-- enough rounds: more do not change the outcome -/
theorem c3merge_rounds : ∀ (fuel : Nat) (ls : List (List String)), (ls.map List.length).sum ≤ fuel →
    c3merge fuel ls = c3merge ((ls.map List.length).sum) ls := by
  have hdrop : ∀ (c : String) (ls : List (List String)), (∃ l ∈ ls, l.head? = some c) →
      ((ls.map (c3drop c)).map List.length).sum < (ls.map List.length).sum := by
    intro c ls
    have hle : ∀ l, (c3drop c l).length ≤ l.length := by
      intro l; simp only [c3drop]; split
      · simp
      · exact Nat.le_refl _
    have hles : ∀ ls : List (List String), ((ls.map (c3drop c)).map List.length).sum ≤ (ls.map List.length).sum := by
      intro ls
      induction ls with
      | nil => simp
      | cons l ls ih => simp only [List.map_cons, List.sum_cons]; exact Nat.add_le_add (hle l) ih
    induction ls with
    | nil => rintro ⟨l, hl, _⟩; simp at hl
    | cons l ls ih =>
      rintro ⟨l', hl', hc⟩
      simp only [List.map_cons, List.sum_cons]
      rcases List.mem_cons.1 hl' with rfl | h
      · have : (c3drop c l').length < l'.length := by
          cases l' with
          | nil => simp at hc
          | cons a l' => simp [c3drop, hc]
        have := hles ls
        omega
      · have := ih ⟨l', h, hc⟩
        have := hle l
        omega
  have main : ∀ (n fuel fuel' : Nat) (ls : List (List String)), (ls.map List.length).sum ≤ n → n ≤ fuel → n ≤ fuel' →
      c3merge fuel ls = c3merge fuel' ls := by
    intro n
    induction n with
    | zero =>
      intro fuel fuel' ls hs _ _
      have he : ls.all List.isEmpty = true := by
        apply List.all_eq_true.2
        intro l hl
        have : l.length ≤ (ls.map List.length).sum := length_le_sum ls l hl
        have : l.length = 0 := by omega
        simpa using this
      cases fuel <;> cases fuel' <;> simp [c3merge, he]
    | succ n ih =>
      intro fuel fuel' ls hs h1 h2
      obtain ⟨f, rfl⟩ := Nat.exists_eq_add_of_lt (Nat.lt_of_lt_of_le (Nat.succ_pos n) h1)
      obtain ⟨f', rfl⟩ := Nat.exists_eq_add_of_lt (Nat.lt_of_lt_of_le (Nat.succ_pos n) h2)
      simp only [Nat.zero_add] at *
      simp only [c3merge]
      split
      · rfl
      · cases hn : c3next ls with
        | none => rfl
        | some c =>
          have := hdrop c ls (c3next_spec hn).1
          dsimp only
          rw [ih f f' (ls.map (c3drop c)) (by omega) (by omega) (by omega)]
  intro fuel ls h
  exact main _ _ _ ls (Nat.le_refl _) h (Nat.le_refl _)

theorem c3next_first {a : String} {l : List String} {ls : List (List String)} (h1 : a ∉ l) (h2 : ∀ l' ∈ ls, a ∉ l'.tail) :
    c3next ((a :: l) :: ls) = some a := by
  simp only [c3next, List.filterMap_cons, List.head?_cons]
  rw [List.find?_cons_of_pos]
  simp [h1]
  exact h2

theorem c3next_second {b : String} {l1 l2 : List String} {ls : List (List String)} (h : ∀ s, l1.head? = some s → s ∈ l2) (h1 : b ∉ l1.tail)
    (h2 : b ∉ l2) (h3 : ∀ l' ∈ ls, b ∉ l'.tail) : c3next (l1 :: (b :: l2) :: ls) = some b := by
  cases l1 with
  | nil =>
    simp only [c3next, List.filterMap_cons, List.head?_nil, List.head?_cons]
    rw [List.find?_cons_of_pos]
    simp [h2]
    exact h3
  | cons s l =>
    have hs := h s rfl
    have h1' : b ∉ l := h1
    simp only [c3next, List.filterMap_cons, List.head?_cons]
    rw [List.find?_cons_of_neg (by simp [hs]), List.find?_cons_of_pos]
    simp [h1', h2]
    exact h3

theorem c3drop_head (c : String) (l : List String) : c3drop c (c :: l) = l := by simp [c3drop]
theorem c3drop_not {c : String} {l : List String} (h : c ∉ l) : c3drop c l = l := by
  cases l with
  | nil => rfl
  | cons a l =>
    have : ¬ a = c := fun e => h (by simp [e])
    simp [c3drop, this]

theorem c3merge_same : ∀ (S : List String), S.Nodup → ∀ fuel, S.length ≤ fuel → c3merge fuel [S, S, []] = some S := by
  intro S
  induction S with
  | nil => intro _ fuel _; cases fuel <;> simp [c3merge]
  | cons s S ih =>
    intro hn fuel hf
    have hn' := List.nodup_cons.1 hn
    cases fuel with
    | zero => simp at hf
    | succ fuel =>
      rw [c3merge_step (c3next_first hn'.1 (by simp [hn'.1]))]
      simp only [List.map_cons, List.map_nil, c3drop_head, c3drop_not (List.not_mem_nil)]
      rw [ih hn'.2 fuel (by simpa using hf)]
      rfl

theorem c3merge_right (S : List String) : ∀ (B : List String), (B ++ S).Nodup → ∀ fuel, B.length + S.length ≤ fuel →
    c3merge fuel [S, B ++ S, []] = some (B ++ S) := by
  intro B
  induction B with
  | nil => intro hn fuel hf; exact c3merge_same S hn fuel (by simpa using hf)
  | cons b B ih =>
    intro hn fuel hf
    have hn' := List.nodup_cons.1 hn
    have hbS : b ∉ S := fun h => hn'.1 (List.mem_append_right _ h)
    cases fuel with
    | zero => simp at hf
    | succ fuel =>
      rw [List.cons_append, c3merge_step (c := b) (c3next_second (fun s hs => List.mem_append_right _ (List.mem_of_mem_head? hs))
        (fun h => hbS (List.mem_of_mem_tail h)) hn'.1 (by simp))]
      simp only [List.map_cons, List.map_nil, c3drop_head, c3drop_not (List.not_mem_nil), c3drop_not hbS]
      rw [ih hn'.2 fuel (by simp at hf; omega)]
      rfl

theorem c3merge_left (clz : String) (B S : List String) : ∀ (A : List String), (A ++ (clz :: B ++ S)).Nodup → ∀ fuel,
    A.length + B.length + S.length + 1 ≤ fuel → c3merge fuel [A ++ S, clz :: B ++ S, [clz]] = some (A ++ (clz :: B ++ S)) := by
  intro A
  induction A with
  | nil =>
    intro hn fuel hf
    simp only [List.nil_append] at hn ⊢
    have hn' := List.nodup_cons.1 hn
    have hbS : clz ∉ S := fun h => hn'.1 (List.mem_append_right _ h)
    cases fuel with
    | zero => omega
    | succ fuel =>
      rw [List.cons_append, c3merge_step (c := clz) (c3next_second (fun s hs => List.mem_append_right _ (List.mem_of_mem_head? hs))
        (fun h => hbS (List.mem_of_mem_tail h)) hn'.1 (by simp))]
      simp only [List.map_cons, List.map_nil, c3drop_head, c3drop_not hbS]
      rw [c3merge_right S B hn'.2 fuel (by simp at hf; omega)]
      rfl
  | cons a A ih =>
    intro hn fuel hf
    have hn' := List.nodup_cons.1 hn
    have ha : a ∉ A ∧ ¬ a = clz ∧ a ∉ B ∧ a ∉ S := by simpa using hn'.1
    cases fuel with
    | zero => omega
    | succ fuel =>
      rw [List.cons_append, c3merge_step (c := a) (c3next_first (by simp [ha]) (by simp [ha]))]
      have h1 : a ∉ clz :: B ++ S := by simp [ha]
      have h2 : a ∉ [clz] := by simp [ha]
      simp only [List.map_cons, List.map_nil, c3drop_head, c3drop_not h1, c3drop_not h2]
      rw [ih hn'.2 fuel (by simp at hf; omega)]
      rfl

/-- C96: if `mixin` and `clz` have only their last bases in common (`object`, or `Generic` and `object`), `blob` makes a class, in which all
of `mixin` comes before all of `clz` and the common bases are last. -/
theorem C96_made {α : Type} (P : Classes α) (clz mixin : String) (A B S : List String) (hm : P.mro mixin = (mixin :: A) ++ S)
    (hc : P.mro clz = (clz :: B) ++ S) (hn : ((mixin :: A) ++ ((clz :: B) ++ S)).Nodup) :
    P.blobMro clz mixin = some ("Blob" :: ((mixin :: A) ++ ((clz :: B) ++ S))) ∧
    ∀ name, P.own "Blob" name = .none → P.lookup ("Blob" :: ((mixin :: A) ++ ((clz :: B) ++ S))) name =
      (P.lookup (mixin :: A) name).or (P.lookup (P.mro clz) name) := by
  constructor
  · have hn' := List.nodup_cons.1 hn
    have ha : mixin ∉ A ∧ ¬ mixin = clz ∧ mixin ∉ B ∧ mixin ∉ S := by simpa using hn'.1
    simp only [Classes.blobMro, hm, hc, Option.map_eq_some_iff]
    refine ⟨_, ?_, rfl⟩
    obtain ⟨f, hf⟩ : ∃ f, (mixin :: A ++ S).length + (clz :: B ++ S).length + 2 = f + 1 := ⟨_, rfl⟩
    have hf' : A.length + B.length + S.length + 1 ≤ f := by simp at hf; omega
    rw [hf]
    have h0 : mixin ∉ A ++ S := by simp [ha]
    rw [List.cons_append, c3merge_step (c := mixin) (c3next_first h0 (by simp [ha]))]
    have h1 : mixin ∉ clz :: B ++ S := by simp [ha]
    simp only [List.map_cons, List.map_nil, c3drop_head, c3drop_not h1]
    rw [c3merge_left clz B S A hn'.2 f hf']
    rfl
  · intro name hb
    simp only [Classes.lookup, List.findSome?_cons, hb, hc]
    rw [← List.findSome?_cons (f := fun c => P.own c name) (a := mixin), List.findSome?_append]

namespace ExBC
/-- README: `blob(Adam, mixin=SerializableOptimizer)`; here `Adam` has a `serialize` of its own -/
def P : Classes Nat where
  mro := fun c => if c = "SerializableOptimizer" then ["SerializableOptimizer", "Serializable", "ABC", "Generic", "object"]
    else if c = "Adam" then ["Adam", "Optimizer", "object"] else if c = "Net" then ["Net", "SerializableOptimizer", "Serializable", "ABC", "Generic", "object"]
    else [c, "object"]
  own := fun c name => dget' [(("SerializableOptimizer", "serialize"), 1), (("SerializableOptimizer", "deserialize"), 2),
    (("Adam", "serialize"), 3), (("Adam", "step"), 4), (("Optimizer", "step"), 5), (("Optimizer", "zero_grad"), 6), (("object", "__init__"), 7),
    (("Serializable", "serialize"), 8)] (c, name)
where
  dget' (l : List ((String × String) × Nat)) (k : String × String) : Option Nat := (l.find? (fun e => e.1 == k)).map (·.2)
end ExBC

example : ExBC.P.blobMro "Adam" "SerializableOptimizer" =
      some ["Blob", "SerializableOptimizer", "Serializable", "ABC", "Generic", "Adam", "Optimizer", "object"] ∧
    ExBC.P.blobMro "Net" "SerializableOptimizer" = none ∧
    ["serialize", "deserialize", "step", "zero_grad", "__init__"].map
      (ExBC.P.lookup ["Blob", "SerializableOptimizer", "Serializable", "ABC", "Generic", "Adam", "Optimizer", "object"]) =
      [some 1, some 2, some 4, some 6, some 7] := by
  refine ⟨by decide +kernel, by decide +kernel, by decide +kernel⟩

example : ExBC.P.mro "SerializableOptimizer" = ("SerializableOptimizer" :: ["Serializable", "ABC", "Generic"]) ++ ["object"] ∧
    ExBC.P.mro "Adam" = ("Adam" :: ["Optimizer"]) ++ ["object"] := ⟨rfl, rfl⟩

end HS
