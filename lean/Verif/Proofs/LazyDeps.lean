import Verif.Spec.LazyDeps
import Verif.Proofs.Lazy
/-!
# Lazy fields that use other fields: lemmas for C93
-/
namespace HS

theorem evalAll_mono {f g : String → Option Val} (h : ∀ k v, f k = some v → g k = some v) :
    ∀ {ks : List String} {vs : List Val}, evalAll f ks = some vs → evalAll g ks = some vs := by
  intro ks
  induction ks with
  | nil => intro vs h; exact h
  | cons k ks ih =>
    intro vs he
    simp only [evalAll] at he ⊢
    split at he
    · rename_i v vs' h1 h2
      rw [h k v h1, ih h2]
      exact he
    · exact (nomatch he)

theorem evalAll_mem {f : String → Option Val} : ∀ {ks : List String} {vs : List Val}, evalAll f ks = some vs →
    ∀ k ∈ ks, ∃ v, f k = some v := by
  intro ks
  induction ks with
  | nil => intro vs _ k hk; exact (nomatch hk)
  | cons a ks ih =>
    intro vs he k hk
    simp only [evalAll] at he
    split at he
    · rename_i v vs' h1 h2
      rcases List.mem_cons.1 hk with rfl | hk
      · exact ⟨v, h1⟩
      · exact ih h2 k hk
    · exact (nomatch he)

theorem evalAll_some {f : String → Option Val} : ∀ {ks : List String}, (∀ k ∈ ks, ∃ v, f k = some v) → ∃ vs, evalAll f ks = some vs := by
  intro ks
  induction ks with
  | nil => intro _; exact ⟨[], rfl⟩
  | cons a ks ih =>
    intro h
    obtain ⟨v, hv⟩ := h a List.mem_cons_self
    obtain ⟨vs, hvs⟩ := ih (fun k hk => h k (List.mem_cons_of_mem _ hk))
    exact ⟨v :: vs, by simp only [evalAll, hv, hvs]⟩

variable {L : LEnv} {o : LObj}

theorem evalField_plain {k : String} (h : dget o.unloaded k = none) (n : Nat) : evalField L o n k = dget o.attrs k := by
  cases n <;> simp only [evalField, h]

theorem evalField_lazy {k : String} {e : LazyEntry} (h : dget o.unloaded k = some e) {n : Nat} {v : Val} :
    evalField L o (n + 1) k = some v ↔ ∃ p vs, L.disk e.file = some p ∧ (e.pickle && !L.pickleOk) = false ∧
      evalAll (evalField L o n) (L.deps e.cls) = some vs ∧ L.deser e.cls p vs = .ok v := by
  simp only [evalField, h]
  cases hd : L.disk e.file with
  | none => simp
  | some p =>
    cases hp : (e.pickle && !L.pickleOk) with
    | true => simp
    | false =>
      simp only [Bool.false_eq_true, ↓reduceIte]
      cases ha : evalAll (evalField L o n) (L.deps e.cls) with
      | none => simp
      | some vs =>
        simp only [Option.some.injEq, true_and]
        constructor
        · intro h
          split at h
          · rename_i v' hv
            cases h
            exact ⟨p, vs, rfl, rfl, hv⟩
          · exact (nomatch h)
        · rintro ⟨_, _, rfl, rfl, hv⟩
          rw [hv]

theorem evalField_zero {k : String} {e : LazyEntry} (h : dget o.unloaded k = some e) : evalField L o 0 k = none := by
  simp only [evalField, h]

theorem evalField_succ : ∀ (n : Nat) {k : String} {v : Val}, evalField L o n k = some v → evalField L o (n + 1) k = some v := by
  intro n
  induction n with
  | zero =>
    intro k v h
    cases hu : dget o.unloaded k with
    | none => rw [evalField_plain hu] at h ⊢; exact h
    | some e => rw [evalField_zero hu] at h; exact (nomatch h)
  | succ n ih =>
    intro k v h
    cases hu : dget o.unloaded k with
    | none => rw [evalField_plain hu] at h ⊢; exact h
    | some e =>
      obtain ⟨p, vs, h1, h2, h3, h4⟩ := (evalField_lazy hu).1 h
      exact (evalField_lazy hu).2 ⟨p, vs, h1, h2, evalAll_mono (fun k v => ih) h3, h4⟩

theorem evalField_le {n m : Nat} (hnm : n ≤ m) {k : String} {v : Val} (h : evalField L o n k = some v) : evalField L o m k = some v := by
  induction hnm with
  | refl => exact h
  | step _ ih => exact evalField_succ _ ih

theorem FieldVal.det {k : String} {v w : Val} (h : FieldVal L o k v) (h' : FieldVal L o k w) : v = w := by
  obtain ⟨n, hn⟩ := h
  obtain ⟨m, hm⟩ := h'
  have a := evalField_le (Nat.le_max_left n m) hn
  have b := evalField_le (Nat.le_max_right n m) hm
  rw [a] at b
  exact Option.some.inj b

/-- fields that are reached from a field with a value have a value, at the same depth -/
theorem evalField_reach {k j : String} (hr : Reach L.deps o k j) : ∀ {n : Nat} {v : Val}, evalField L o n k = some v →
    ∃ w, evalField L o n j = some w := by
  induction hr with
  | refl => intro n v h; exact ⟨v, h⟩
  | step hu hd _ ih =>
    intro n v h
    cases n with
    | zero => rw [evalField_zero hu] at h; exact (nomatch h)
    | succ n =>
      obtain ⟨p, vs, _, _, h3, _⟩ := (evalField_lazy hu).1 h
      obtain ⟨w, hw⟩ := evalAll_mem h3 _ hd
      obtain ⟨x, hx⟩ := ih hw
      exact ⟨x, evalField_succ _ hx⟩

/-- a field that uses itself has no value -/
theorem no_cycle {k d : String} {e : LazyEntry} (hu : dget o.unloaded k = some e) (hd : d ∈ L.deps e.cls) (hr : Reach L.deps o d k) :
    ∀ n v, evalField L o n k ≠ some v := by
  intro n
  induction n with
  | zero => intro v h; rw [evalField_zero hu] at h; exact (nomatch h)
  | succ n ih =>
    intro v h
    obtain ⟨p, vs, _, _, h3, _⟩ := (evalField_lazy hu).1 h
    obtain ⟨w, hw⟩ := evalAll_mem h3 _ hd
    obtain ⟨x, hx⟩ := evalField_reach hr hw
    exact ih x hx

/-! ## objects of which some fields have been read -/

/-- `o'` is `o` with some fields read -/
def ReadFrom (L : LEnv) (o o' : LObj) : Prop :=
  ∀ k, (dget o'.unloaded k = dget o.unloaded k ∧ dget o'.attrs k = dget o.attrs k) ∨
    (dget o'.unloaded k = none ∧ ∃ v, dget o'.attrs k = some v ∧ FieldVal L o k v)

theorem ReadFrom.refl (o : LObj) : ReadFrom L o o := fun _ => .inl ⟨rfl, rfl⟩

theorem ReadFrom.up {o' : LObj} (h : ReadFrom L o o') : ∀ (n : Nat) {k : String} {v : Val}, evalField L o n k = some v →
    evalField L o' n k = some v := by
  intro n
  induction n with
  | zero =>
    intro k v hv
    rcases h k with ⟨a, b⟩ | ⟨a, w, b, c⟩
    · cases hu : dget o.unloaded k with
      | none => rw [evalField_plain hu] at hv; rw [evalField_plain (a.trans hu), b]; exact hv
      | some e => rw [evalField_zero hu] at hv; exact (nomatch hv)
    · rw [evalField_plain a, b, FieldVal.det c ⟨0, hv⟩]
  | succ n ih =>
    intro k v hv
    rcases h k with ⟨a, b⟩ | ⟨a, w, b, c⟩
    · cases hu : dget o.unloaded k with
      | none => rw [evalField_plain hu] at hv; rw [evalField_plain (a.trans hu), b]; exact hv
      | some e =>
        obtain ⟨p, vs, h1, h2, h3, h4⟩ := (evalField_lazy hu).1 hv
        exact (evalField_lazy (a.trans hu)).2 ⟨p, vs, h1, h2, evalAll_mono (fun k v => ih) h3, h4⟩
    · rw [evalField_plain a, b, FieldVal.det c ⟨n + 1, hv⟩]

theorem evalAll_bound {ks : List String} : ∀ {vs : List Val} {f : String → Option Val},
    (∀ k v, f k = some v → FieldVal L o k v) → evalAll f ks = some vs → ∃ m, evalAll (evalField L o m) ks = some vs := by
  induction ks with
  | nil => intro vs f _ h; exact ⟨0, h⟩
  | cons k ks ih =>
    intro vs f hf h
    simp only [evalAll] at h
    split at h
    · rename_i v vs' h1 h2
      obtain ⟨a, ha⟩ := hf k v h1
      obtain ⟨b, hb⟩ := ih hf h2
      refine ⟨max a b, ?_⟩
      simp only [evalAll, evalField_le (Nat.le_max_left a b) ha,
        evalAll_mono (fun k v => evalField_le (Nat.le_max_right a b)) hb]
      exact h
    · exact (nomatch h)

theorem ReadFrom.down {o' : LObj} (h : ReadFrom L o o') : ∀ (n : Nat) {k : String} {v : Val}, evalField L o' n k = some v →
    FieldVal L o k v := by
  intro n
  induction n with
  | zero =>
    intro k v hv
    rcases h k with ⟨a, b⟩ | ⟨a, w, b, c⟩
    · cases hu : dget o.unloaded k with
      | none => rw [evalField_plain (a.trans hu), b] at hv; exact ⟨0, by rw [evalField_plain hu]; exact hv⟩
      | some e => rw [evalField_zero (a.trans hu)] at hv; exact (nomatch hv)
    · rw [evalField_plain a, b] at hv; cases hv; exact c
  | succ n ih =>
    intro k v hv
    rcases h k with ⟨a, b⟩ | ⟨a, w, b, c⟩
    · cases hu : dget o.unloaded k with
      | none => rw [evalField_plain (a.trans hu), b] at hv; exact ⟨0, by rw [evalField_plain hu]; exact hv⟩
      | some e =>
        obtain ⟨p, vs, h1, h2, h3, h4⟩ := (evalField_lazy (a.trans hu)).1 hv
        obtain ⟨m, hm⟩ := evalAll_bound (fun k v => ih) h3
        exact ⟨m + 1, (evalField_lazy hu).2 ⟨p, vs, h1, h2, hm, h4⟩⟩
    · rw [evalField_plain a, b] at hv; cases hv; exact c

theorem ReadFrom.iff {o' : LObj} (h : ReadFrom L o o') (k : String) (v : Val) : FieldVal L o' k v ↔ FieldVal L o k v :=
  ⟨fun ⟨n, hn⟩ => h.down n hn, fun ⟨n, hn⟩ => ⟨n, h.up n hn⟩⟩

theorem ReadFrom.trans {o' o'' : LObj} (h : ReadFrom L o o') (h' : ReadFrom L o' o'') : ReadFrom L o o'' := by
  intro k
  rcases h' k with ⟨a, b⟩ | ⟨a, w, b, c⟩
  · rcases h k with ⟨a', b'⟩ | ⟨a', w', b', c'⟩
    · exact .inl ⟨a.trans a', b.trans b'⟩
    · exact .inr ⟨a.trans a', w', b.trans b', c'⟩
  · exact .inr ⟨a, w, b, (h.iff k w).1 c⟩

/-! ## `__getattribute__` -/

/-- what a read returns is the value of the field, and it leaves the object as it was but for fields that have been read -/
def GetOK (L : LEnv) (get : LObj → String → Out Val) : Prop :=
  ∀ o k, ReadFrom L o (get o k).obj ∧ ∀ v, (get o k).res = .ok v → FieldVal L o k v

theorem readAll_ok {get : LObj → String → Out Val} (hg : GetOK L get) : ∀ (ks : List String) (o : LObj),
    ReadFrom L o (readAll get o ks).obj ∧
      ∀ vs, (readAll get o ks).res = .ok vs → ∃ n, evalAll (evalField L o n) ks = some vs := by
  intro ks
  induction ks with
  | nil => intro o; exact ⟨.refl o, fun vs h => ⟨0, by cases h; rfl⟩⟩
  | cons k ks ih =>
    intro o
    simp only [readAll]
    obtain ⟨h1, h2⟩ := hg o k
    split
    · exact ⟨h1, fun vs h => (nomatch h)⟩
    · rename_i v hv
      obtain ⟨h3, h4⟩ := ih (get o k).obj
      refine ⟨h1.trans h3, ?_⟩
      intro vs h
      simp only at h
      cases hr : (readAll get (get o k).obj ks).res with
      | error e => rw [hr] at h; exact (nomatch h)
      | ok vs' =>
        rw [hr] at h
        simp only [Except.map, Except.ok.injEq] at h
        subst h
        obtain ⟨a, ha⟩ := h2 v hv
        obtain ⟨b, hb⟩ := h4 vs' hr
        obtain ⟨c, hc⟩ := evalAll_bound (fun k v hk => (h1.iff k v).1 ⟨b, hk⟩) hb
        exact ⟨max a c, by simp only [evalAll, evalField_le (Nat.le_max_left a c) ha,
          evalAll_mono (fun k v => evalField_le (Nat.le_max_right a c)) hc]⟩

theorem lazyGet_value (hl : L.isLazy = true) : ∀ fuel : Nat, GetOK L (lazyGet L fuel) := by
  intro fuel
  induction fuel with
  | zero => intro o k; exact ⟨.refl o, fun v h => (nomatch h)⟩
  | succ fuel ih =>
    intro o k
    simp only [lazyGet, hl]
    cases hu : dget o.unloaded k with
    | none =>
      simp only [plainGet]
      cases ha : dget o.attrs k with
      | none => exact ⟨.refl o, fun v h => (nomatch h)⟩
      | some w => exact ⟨.refl o, fun v h => by cases h; exact ⟨0, by rw [evalField_plain hu, ha]⟩⟩
    | some e =>
      simp only
      cases hd : L.disk e.file with
      | none => exact ⟨.refl o, fun v h => (nomatch h)⟩
      | some p =>
        simp only
        cases hp : (e.pickle && !L.pickleOk) with
        | true => exact ⟨.refl o, fun v h => (nomatch h)⟩
        | false =>
          simp only [Bool.false_eq_true, ↓reduceIte]
          obtain ⟨h1, h2⟩ := readAll_ok ih (L.deps e.cls) o
          cases hr : (readAll (lazyGet L fuel) o (L.deps e.cls)).res with
          | error er => exact ⟨h1, fun v h => (nomatch h)⟩
          | ok vs =>
            simp only
            obtain ⟨n, hn⟩ := h2 vs hr
            cases hv : L.deser e.cls p vs with
            | error er => exact ⟨h1, fun v h => (nomatch h)⟩
            | ok v =>
              have hval : FieldVal L o k v := ⟨n + 1, (evalField_lazy hu).2 ⟨p, vs, hd, hp, hn, hv⟩⟩
              simp only
              split
              · refine ⟨?_, fun w h => by cases h; exact hval⟩
                intro j
                by_cases hj : j = k
                · subst hj
                  exact .inr ⟨by simp, v, by simp, hval⟩
                · rcases h1 j with ⟨a, b⟩ | ⟨a, w, b, c⟩
                  · exact .inl ⟨by rw [dget_ddel_ne _ (Ne.symm hj)]; exact a, by rw [dget_dset_ne _ _ (Ne.symm hj)]; exact b⟩
                  · exact .inr ⟨by rw [dget_ddel_ne _ (Ne.symm hj)]; exact a, w, by rw [dget_dset_ne _ _ (Ne.symm hj)]; exact b, c⟩
              · rename_i hh
                refine ⟨?_, fun w h => (nomatch h)⟩
                intro j
                by_cases hj : j = k
                · subst hj
                  refine .inr ⟨?_, v, by simp, hval⟩
                  simpa [dhas] using hh
                · rcases h1 j with ⟨a, b⟩ | ⟨a, w, b, c⟩
                  · exact .inl ⟨a, by rw [dget_dset_ne _ _ (Ne.symm hj)]; exact b⟩
                  · exact .inr ⟨a, w, by rw [dget_dset_ne _ _ (Ne.symm hj)]; exact b, c⟩

/-- what was read was opened -/
theorem lazyGet_loaded_opened : ∀ (fuel : Nat) (o : LObj) (name k : String), .loaded k ∈ (lazyGet L fuel o name).log →
    ∃ f, .opened k f ∈ (lazyGet L fuel o name).log := by
  intro fuel
  induction fuel with
  | zero => intro o name k h; simp [lazyGet] at h
  | succ fuel ih =>
    intro o name k h
    have hall : ∀ (ns : List String) (o : LObj), .loaded k ∈ (readAll (lazyGet L fuel) o ns).log →
        ∃ f, .opened k f ∈ (readAll (lazyGet L fuel) o ns).log := by
      intro ns
      induction ns with
      | nil => intro o h; simp [readAll] at h
      | cons n ns ihn =>
        intro o h
        simp only [readAll] at h ⊢
        split at h
        · exact ih _ _ _ h
        · simp only [List.mem_append] at h ⊢
          rcases h with h | h
          · obtain ⟨f, hf⟩ := ih _ _ _ h; exact ⟨f, .inl hf⟩
          · obtain ⟨f, hf⟩ := ihn _ h; exact ⟨f, .inr hf⟩
    have hp : .loaded k ∉ (plainGet o name).log := by
      simp only [plainGet]; split <;> simp
    revert h
    simp only [lazyGet]
    split
    · rename_i e hl he
      split
      · simp
      · split
        · simp
        · split
          · intro h
            simp only [List.mem_cons, reduceCtorEq, false_or] at h
            obtain ⟨f, hf⟩ := hall _ _ h
            exact ⟨f, List.mem_cons_of_mem _ hf⟩
          · split
            · intro h
              simp only [List.mem_cons, reduceCtorEq, false_or] at h
              obtain ⟨f, hf⟩ := hall _ _ h
              exact ⟨f, List.mem_cons_of_mem _ hf⟩
            · split
              · intro h
                simp only [List.cons_append, List.mem_cons, List.mem_append, reduceCtorEq, false_or, LEv.loaded.injEq,
                  List.not_mem_nil, or_false] at h
                rcases h with h | rfl
                · obtain ⟨f, hf⟩ := hall _ _ h
                  exact ⟨f, by simp [hf]⟩
                · exact ⟨e.file, by simp⟩
              · intro h
                simp only [List.mem_cons, reduceCtorEq, false_or] at h
                obtain ⟨f, hf⟩ := hall _ _ h
                exact ⟨f, List.mem_cons_of_mem _ hf⟩
    · intro h; exact absurd h hp

/-- reading fields loads only what they reach -/
theorem readAll_reach {fuel : Nat} {k : String} : ∀ (ns : List String) (o : LObj), k ∈ loads (readAll (lazyGet L fuel) o ns).log →
    ∃ n ∈ ns, Reach L.deps o n k := by
  intro ns
  induction ns with
  | nil => intro o h; simp [readAll, loads] at h
  | cons n ns ih =>
    intro o h
    have hget : ∀ o, k ∈ loads (lazyGet L fuel o n).log → Reach L.deps o n k := by
      intro o h
      have : LEv.loaded k ∈ (lazyGet L fuel o n).log := by
        simp only [loads, List.mem_filterMap] at h
        obtain ⟨ev, hev, hk⟩ := h
        split at hk
        · cases hk; exact hev
        · exact (nomatch hk)
      obtain ⟨f, hf⟩ := lazyGet_loaded_opened _ _ _ _ this
      exact (lazyGet_opens L fuel o n k f hf).1
    simp only [readAll] at h
    split at h
    · exact ⟨n, List.mem_cons_self, hget o h⟩
    · simp only [loads_append, List.mem_append] at h
      rcases h with h | h
      · exact ⟨n, List.mem_cons_self, hget o h⟩
      · obtain ⟨n', hn', hr⟩ := ih _ h
        exact ⟨n', List.mem_cons_of_mem _ hn', hr.mono (lazyGet_ext L fuel o n).shrink⟩

/-- reads succeed -/
theorem readAll_gives {fuel n : Nat} (hl : L.isLazy = true)
    (ih : ∀ o k v, evalField L o n k = some v → (lazyGet L fuel o k).res = .ok v) : ∀ (ks : List String) (o : LObj) (vs : List Val),
    evalAll (evalField L o n) ks = some vs → (readAll (lazyGet L fuel) o ks).res = .ok vs := by
  intro ks
  induction ks with
  | nil => intro o vs h; cases h; rfl
  | cons k ks ihk =>
    intro o vs h
    simp only [evalAll] at h
    split at h
    · rename_i v vs' h1 h2
      cases h
      have := ih o k v h1
      simp only [readAll, this]
      have hr := (lazyGet_value hl fuel o k).1
      rw [ihk _ vs' (evalAll_mono (fun k v => hr.up n) h2)]
      rfl
    · exact (nomatch h)

theorem lazyGet_gives (hl : L.isLazy = true) : ∀ (n fuel : Nat) (o : LObj) (k : String) (v : Val), n < fuel →
    evalField L o n k = some v → (lazyGet L fuel o k).res = .ok v := by
  intro n
  induction n with
  | zero =>
    intro fuel o k v hf h
    obtain ⟨fuel, rfl⟩ : ∃ f, fuel = f + 1 := ⟨fuel - 1, by omega⟩
    cases hu : dget o.unloaded k with
    | some e => rw [evalField_zero hu] at h; exact (nomatch h)
    | none =>
      rw [evalField_plain hu] at h
      simp only [lazyGet, hl, hu, plainGet, h]
  | succ n ih =>
    intro fuel o k v hf h
    obtain ⟨fuel, rfl⟩ : ∃ f, fuel = f + 1 := ⟨fuel - 1, by omega⟩
    cases hu : dget o.unloaded k with
    | none =>
      rw [evalField_plain hu] at h
      simp only [lazyGet, hl, hu, plainGet, h]
    | some e =>
      by_cases hmin : ∃ w, evalField L o n k = some w
      · obtain ⟨w, hw⟩ := hmin
        have : w = v := FieldVal.det ⟨n, hw⟩ ⟨n + 1, h⟩
        subst this
        exact ih (fuel + 1) o k w (by omega) hw
      · obtain ⟨p, vs, h1, h2, h3, h4⟩ := (evalField_lazy hu).1 h
        have hr := readAll_gives hl (fun o k v => ih fuel o k v (by omega)) _ o vs h3
        simp only [lazyGet, hl, hu, h1, h2, Bool.false_eq_true, ↓reduceIte, hr, h4]
        split
        · rfl
        · rename_i hh
          exfalso
          have hd := readAll_ext (lazyGet_ext L fuel) (L.deps e.cls) o
          have hm : k ∈ loads (readAll (lazyGet L fuel) o (L.deps e.cls)).log := by
            refine Classical.byContradiction fun hc => hh ?_
            simp only [dhas, hd.unl k hc, hu, Option.isSome_some]
          obtain ⟨d, hd1, hd2⟩ := readAll_reach _ _ hm
          obtain ⟨x, hx⟩ := evalAll_mem h3 d hd1
          exact hmin (evalField_reach hd2 hx)

/-! ## how deep -/

/-- one level deeper there is nothing new -/
def Settles (L : LEnv) (o : LObj) (n : Nat) : Prop := ∀ k v, evalField L o (n + 1) k = some v → evalField L o n k = some v

theorem Settles.all {n : Nat} (h : Settles L o n) : ∀ (m : Nat) {k : String} {v : Val}, evalField L o m k = some v → evalField L o n k = some v := by
  have step : ∀ j, Settles L o (n + j) := by
    intro j
    induction j with
    | zero => exact h
    | succ j ih =>
      intro k v hv
      cases hu : dget o.unloaded k with
      | none => rw [evalField_plain hu] at hv ⊢; exact hv
      | some e =>
        obtain ⟨p, vs, h1, h2, h3, h4⟩ := (evalField_lazy hu).1 hv
        exact (evalField_lazy hu).2 ⟨p, vs, h1, h2, evalAll_mono ih h3, h4⟩
  have all : ∀ j {k v}, evalField L o (n + j) k = some v → evalField L o n k = some v := by
    intro j
    induction j with
    | zero => intro k v h; exact h
    | succ j ih => intro k v h; exact ih (step j k v h)
  intro m k v hv
  exact all m (evalField_le (by omega) hv)

/-- the number of fields of the list that have a value -/
def known (L : LEnv) (o : LObj) (ks : List String) (n : Nat) : Nat := ks.countP fun k => (evalField L o n k).isSome

theorem known_le {n : Nat} : ∀ (ks : List String), known L o ks n ≤ known L o ks (n + 1) ∧
    (known L o ks (n + 1) = known L o ks n → ∀ k ∈ ks, ∀ v, evalField L o (n + 1) k = some v → evalField L o n k = some v) := by
  intro ks
  induction ks with
  | nil => exact ⟨Nat.le_refl _, fun _ k hk => (nomatch hk)⟩
  | cons k ks ih =>
    simp only [known, List.countP_cons] at ih ⊢
    cases h0 : evalField L o n k with
    | some w =>
      have h1 := evalField_succ n h0
      simp only [h1, Option.isSome_some, ↓reduceIte]
      refine ⟨by omega, fun he j hj v hv => ?_⟩
      rcases List.mem_cons.1 hj with rfl | hj
      · rw [h1] at hv; rw [h0]; exact hv
      · exact ih.2 (by omega) j hj v hv
    | none =>
      cases h1 : evalField L o (n + 1) k with
      | some w =>
        simp only [Option.isSome_some, ↓reduceIte, Option.isSome_none, Bool.false_eq_true]
        exact ⟨by omega, fun he => by omega⟩
      | none =>
        simp only [Option.isSome_none, Bool.false_eq_true, ↓reduceIte]
        refine ⟨by omega, fun he j hj v hv => ?_⟩
        rcases List.mem_cons.1 hj with rfl | hj
        · rw [h1] at hv; exact (nomatch hv)
        · exact ih.2 (by omega) j hj v hv

theorem settles_at (L : LEnv) (o : LObj) : ∃ m, m ≤ o.unloaded.length ∧ Settles L o m := by
  have key : ∀ n, (∃ m, m < n ∧ Settles L o m) ∨ n ≤ known L o (dkeys o.unloaded) n := by
    intro n
    induction n with
    | zero => exact .inr (Nat.zero_le _)
    | succ n ih =>
      rcases ih with ⟨m, hm, hs⟩ | ih
      · exact .inl ⟨m, by omega, hs⟩
      · obtain ⟨h1, h2⟩ := known_le (L := L) (o := o) (n := n) (dkeys o.unloaded)
        by_cases he : known L o (dkeys o.unloaded) (n + 1) = known L o (dkeys o.unloaded) n
        · refine .inl ⟨n, by omega, ?_⟩
          intro k v hv
          cases hu : dget o.unloaded k with
          | none => rw [evalField_plain hu] at hv ⊢; exact hv
          | some e =>
            refine h2 he k ?_ v hv
            refine Classical.byContradiction fun hc => ?_
            rw [(dget_eq_none_iff _ _).2 hc] at hu
            exact (nomatch hu)
        · exact .inr (by omega)
  rcases key (o.unloaded.length + 1) with ⟨m, hm, hs⟩ | h
  · exact ⟨m, by omega, hs⟩
  · have : known L o (dkeys o.unloaded) (o.unloaded.length + 1) ≤ (dkeys o.unloaded).length := List.countP_le_length
    simp only [dkeys, List.length_map] at this h
    omega

theorem evalField_length {n : Nat} {k : String} {v : Val} (h : evalField L o n k = some v) :
    evalField L o o.unloaded.length k = some v := by
  obtain ⟨m, hm, hs⟩ := settles_at L o
  exact evalField_le hm (hs.all n h)

end HS
