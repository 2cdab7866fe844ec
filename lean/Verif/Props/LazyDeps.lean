import Mathlib.Data.List.Perm.Subperm
import Verif.Proofs.LazyDeps
import Verif.Props.ManagerExc
/-!
# C93: lazy fields whose `deserialize` uses other fields of the state
-/
namespace HS

/-- the object after reading some fields, whether or not the reads raised -/
def afterReads (L : LEnv) (depth : Nat) (o : LObj) (ks : List String) : LObj := (lazyRun L depth o (ks.map .get)).2.1

theorem afterReads_from {L : LEnv} (hl : L.isLazy = true) (depth : Nat) : ∀ (ks : List String) (o : LObj), ReadFrom L o (afterReads L depth o ks) := by
  intro ks
  induction ks with
  | nil => intro o; exact .refl o
  | cons k ks ih =>
    intro o
    exact (lazyGet_value hl depth o k).1.trans (ih _)

/-- C93: what an access to a field returns: the attribute, or what `deserialize` makes of the file of the field and of the values of
the fields it uses (`FieldVal`). Reads before, in any order, also reads that raised, change nothing about this. The recursion limit must
be larger than the number of unread fields. -/
theorem C93_exact (L : LEnv) (hl : L.isLazy = true) (depth : Nat) (o : LObj) (hd : o.unloaded.length < depth) (ks : List String)
    (k : String) (v : Val) : (lazyGet L depth (afterReads L depth o ks) k).res = .ok v ↔ FieldVal L o k v := by
  have hr := afterReads_from hl depth ks o
  constructor
  · intro h
    exact (hr.iff k v).1 ((lazyGet_value hl depth _ k).2 v h)
  · rintro ⟨n, hn⟩
    exact lazyGet_gives hl _ depth _ k v hd (hr.up _ (evalField_length hn))

/-- C93: the order in which fields are read does not matter. -/
theorem C93_order (L : LEnv) (hl : L.isLazy = true) (depth : Nat) (o : LObj) (hd : o.unloaded.length < depth) (ks ks' : List String)
    (k : String) (v : Val) :
    (lazyGet L depth (afterReads L depth o ks) k).res = .ok v ↔ (lazyGet L depth (afterReads L depth o ks') k).res = .ok v := by
  rw [C93_exact L hl depth o hd ks k v, C93_exact L hl depth o hd ks' k v]

theorem evalAll_zip {f : String → Option Val} : ∀ {ks : List String} {vs : List Val},
    evalAll f ks = some vs ↔ vs.length = ks.length ∧ ∀ kv ∈ ks.zip vs, f kv.1 = some kv.2 := by
  intro ks
  induction ks with
  | nil => intro vs; cases vs <;> simp [evalAll]
  | cons k ks ih =>
    intro vs
    simp only [evalAll]
    cases vs with
    | nil =>
      simp only [List.length_nil, List.length_cons]
      constructor
      · intro h; split at h <;> exact (nomatch h)
      · rintro ⟨h, _⟩; exact (nomatch h)
    | cons v vs =>
      simp only [List.zip_cons_cons, List.mem_cons, forall_eq_or_imp, List.length_cons, Nat.add_right_cancel_iff]
      constructor
      · intro h
        split at h
        · rename_i a as h1 h2
          cases h
          obtain ⟨b1, b2⟩ := ih.1 h2
          exact ⟨b1, h1, b2⟩
        · exact (nomatch h)
      · rintro ⟨h1, h2, h3⟩
        rw [h2, ih.2 ⟨h1, h3⟩]

/-- C93: `deserialize` is called with the values that accesses to the fields it uses give, whenever these are made. -/
theorem C93_uses (L : LEnv) (hl : L.isLazy = true) (depth : Nat) (o : LObj) (hd : o.unloaded.length < depth) (k : String) (e : LazyEntry)
    (hu : dget o.unloaded k = some e) (v : Val) (h : (lazyGet L depth o k).res = .ok v) :
    ∃ p vs, L.disk e.file = some p ∧ L.deser e.cls p vs = .ok v ∧ vs.length = (L.deps e.cls).length ∧
      ∀ dw ∈ (L.deps e.cls).zip vs, ∀ ks, (lazyGet L depth (afterReads L depth o ks) dw.1).res = .ok dw.2 := by
  obtain ⟨n, hn⟩ := (C93_exact L hl depth o hd [] k v).1 h
  cases n with
  | zero => rw [evalField_zero hu] at hn; exact (nomatch hn)
  | succ n =>
    obtain ⟨p, vs, h1, h2, h3, h4⟩ := (evalField_lazy hu).1 hn
    obtain ⟨h5, h6⟩ := evalAll_zip.1 h3
    refine ⟨p, vs, h1, h4, h5, ?_⟩
    intro dw hm ks
    exact (C93_exact L hl depth o hd ks dw.1 dw.2).2 ⟨n, h6 dw hm⟩

/-- C93: conversely, an access returns if accesses to the fields that `deserialize` uses do, and the file is there and allowed. -/
theorem C93_builds (L : LEnv) (hl : L.isLazy = true) (depth : Nat) (o : LObj) (hd : o.unloaded.length < depth) (k : String) (e : LazyEntry)
    (hu : dget o.unloaded k = some e) (p v : Val) (vs : List Val) (hp : L.disk e.file = some p) (ha : e.pickle = true → L.pickleOk = true)
    (hlen : vs.length = (L.deps e.cls).length) (hv : L.deser e.cls p vs = .ok v)
    (hdeps : ∀ dw ∈ (L.deps e.cls).zip vs, (lazyGet L depth o dw.1).res = .ok dw.2) (ks : List String) :
    (lazyGet L depth (afterReads L depth o ks) k).res = .ok v := by
  refine (C93_exact L hl depth o hd ks k v).2 ⟨o.unloaded.length + 1, (evalField_lazy hu).2 ⟨p, vs, hp, ?_, ?_, hv⟩⟩
  · cases h1 : e.pickle with
    | false => rfl
    | true => simp [ha h1]
  · refine evalAll_zip.2 ⟨hlen, ?_⟩
    intro dw hm
    obtain ⟨n, hn⟩ := (C93_exact L hl depth o hd [] dw.1 dw.2).1 (hdeps dw hm)
    exact evalField_length hn

/-- C93: a field that uses itself, directly or through other unread fields, cannot be read: the access raises, whatever the recursion
limit and whatever was read before. -/
theorem C93_cycle (L : LEnv) (hl : L.isLazy = true) (depth depth' : Nat) (o : LObj) (k d : String) (e : LazyEntry)
    (hu : dget o.unloaded k = some e) (hd : d ∈ L.deps e.cls) (hr : Reach L.deps o d k) (ks : List String) :
    ∃ er, (lazyGet L depth' (afterReads L depth o ks) k).res = .error er := by
  cases h : (lazyGet L depth' (afterReads L depth o ks) k).res with
  | error er => exact ⟨er, rfl⟩
  | ok v =>
    obtain ⟨n, hn⟩ := ((afterReads_from hl depth ks o).iff k v).1 ((lazyGet_value hl depth' _ k).2 v h)
    exact absurd hn (no_cycle hu hd hr n v)

theorem Reach.trans {deps : String → List String} {o : LObj} {a b c : String} (h : Reach deps o a b) (h' : Reach deps o b c) :
    Reach deps o a c := by
  induction h with
  | refl => exact h'
  | step h1 h2 _ ih => exact .step h1 h2 (ih h')

/-- C93: without such cycles every access returns, if the files of the fields that are used are there and allowed, `deserialize` does
not raise, and the used fields exist. -/
theorem C93_acyclic (L : LEnv) (hl : L.isLazy = true) (depth : Nat) (o : LObj) (hd : o.unloaded.length < depth) (k : String)
    (hcyc : ∀ j e d, Reach L.deps o k j → dget o.unloaded j = some e → d ∈ L.deps e.cls → ¬ Reach L.deps o d j)
    (hfile : ∀ j e, Reach L.deps o k j → dget o.unloaded j = some e → ∃ p, L.disk e.file = some p ∧ (e.pickle = true → L.pickleOk = true) ∧
      ∀ vs, vs.length = (L.deps e.cls).length → ∃ v, L.deser e.cls p vs = .ok v)
    (hattr : ∀ j, Reach L.deps o k j → dget o.unloaded j = none → (dget o.attrs j).isSome = true) (ks : List String) :
    ∃ v, (lazyGet L depth (afterReads L depth o ks) k).res = .ok v := by
  suffices hs : ∃ v, FieldVal L o k v by
    obtain ⟨v, hv⟩ := hs
    exact ⟨v, (C93_exact L hl depth o hd ks k v).2 hv⟩
  refine Classical.byContradiction fun hno => ?_
  -- a field without value uses another one without value
  have next : ∀ j, Reach L.deps o k j → (¬ ∃ v, FieldVal L o j v) →
      ∃ e d, dget o.unloaded j = some e ∧ d ∈ L.deps e.cls ∧ ¬ ∃ v, FieldVal L o d v := by
    intro j hj hn
    cases hu : dget o.unloaded j with
    | none =>
      have := hattr j hj hu
      rw [Option.isSome_iff_exists] at this
      obtain ⟨v, hv⟩ := this
      exact absurd ⟨v, 0, by rw [evalField_plain hu]; exact hv⟩ hn
    | some e =>
      refine ⟨e, ?_⟩
      refine Classical.byContradiction fun hc => hn ?_
      have hall : ∀ d ∈ L.deps e.cls, ∃ v, evalField L o o.unloaded.length d = some v := by
        intro d hdm
        refine Classical.byContradiction fun hx => hc ⟨d, rfl, hdm, fun ⟨v, n, hv⟩ => hx ⟨v, evalField_length hv⟩⟩
      obtain ⟨vs, hvs⟩ := evalAll_some hall
      obtain ⟨p, hp, ha, ht⟩ := hfile j e hj hu
      obtain ⟨v, hv⟩ := ht vs (evalAll_zip.1 hvs).1
      refine ⟨v, o.unloaded.length + 1, (evalField_lazy hu).2 ⟨p, vs, hp, ?_, hvs, hv⟩⟩
      cases h1 : e.pickle with
      | false => rfl
      | true => simp [ha h1]
  -- so there is a chain of any length, of different fields
  have chain : ∀ n, ∃ (path : List String) (j : String), path.length = n ∧ path.Nodup ∧ (∀ i ∈ path, i ∈ dkeys o.unloaded) ∧
      (∀ i ∈ path, ∃ e d, dget o.unloaded i = some e ∧ d ∈ L.deps e.cls ∧ Reach L.deps o d j ∧ Reach L.deps o k i) ∧ Reach L.deps o k j ∧
      ¬ ∃ v, FieldVal L o j v := by
    intro n
    induction n with
    | zero => exact ⟨[], k, rfl, List.nodup_nil, nofun, nofun, .refl k, hno⟩
    | succ n ih =>
      obtain ⟨path, j, h1, h2, h3, h4, h5, h6⟩ := ih
      obtain ⟨e, d, hu, hdm, hn⟩ := next j h5 h6
      refine ⟨j :: path, d, by simp [h1], ?_, ?_, ?_, h5.trans (.step hu hdm (.refl d)), hn⟩
      · refine List.nodup_cons.2 ⟨fun hm => ?_, h2⟩
        obtain ⟨e', d', a, b, c, _⟩ := h4 j hm
        exact hcyc j e' d' h5 a b c
      · intro i hi
        rcases List.mem_cons.1 hi with rfl | hi
        · refine Classical.byContradiction fun hc => ?_
          rw [(dget_eq_none_iff _ _).2 hc] at hu
          exact (nomatch hu)
        · exact h3 i hi
      · intro i hi
        rcases List.mem_cons.1 hi with rfl | hi
        · exact ⟨e, d, hu, hdm, .refl d, h5⟩
        · obtain ⟨e', d', a, b, c, r⟩ := h4 i hi
          exact ⟨e', d', a, b, c.trans (.step hu hdm (.refl d)), r⟩
  obtain ⟨path, _, h1, h2, h3, _⟩ := chain (o.unloaded.length + 1)
  have := (List.subperm_of_subset h2 h3).length_le
  simp only [dkeys, List.length_map] at this
  omega

/-! ## assignments -/

theorem evalAll_congr {f g : String → Option Val} : ∀ {ks : List String}, (∀ k ∈ ks, f k = g k) → evalAll f ks = evalAll g ks := by
  intro ks
  induction ks with
  | nil => intro _; rfl
  | cons k ks ih =>
    intro h
    simp only [evalAll, h k (.head _), ih fun i hi => h i (.tail _ hi)]

/-- an assignment changes the values of those fields only that use the assigned one, and of these only if it is read already -/
theorem evalField_set (L : LEnv) (o : LObj) (k : String) (w : Val) : ∀ (n : Nat) (j : String),
    ((dget o.unloaded k).isSome = true ∨ ¬ Reach L.deps o j k) → evalField L (lazySet o k w) n j = evalField L o n j := by
  intro n
  induction n with
  | zero =>
    intro j h
    cases hu : dget o.unloaded j with
    | some e => rw [evalField_zero hu, evalField_zero (o := lazySet o k w) hu]
    | none =>
      rw [evalField_plain hu, evalField_plain (o := lazySet o k w) hu]
      refine dget_dset_ne _ _ ?_
      rintro rfl
      rcases h with h | h
      · rw [hu] at h; exact (nomatch h)
      · exact h (.refl _)
  | succ n ih =>
    intro j h
    cases hu : dget o.unloaded j with
    | none =>
      rw [evalField_plain hu, evalField_plain (o := lazySet o k w) hu]
      refine dget_dset_ne _ _ ?_
      rintro rfl
      rcases h with h | h
      · rw [hu] at h; exact (nomatch h)
      · exact h (.refl _)
    | some e =>
      have hu' : dget (lazySet o k w).unloaded j = some e := hu
      have hc : evalAll (evalField L (lazySet o k w) n) (L.deps e.cls) = evalAll (evalField L o n) (L.deps e.cls) :=
        evalAll_congr fun d hd => ih d (h.imp id fun hn hr => hn (.step hu hd hr))
      rw [evalField, evalField, hu', hu]
      simp only [hc]

/-- two objects that differ only in attributes of unread fields -/
def SameRead (o o' : LObj) : Prop := o'.unloaded = o.unloaded ∧ ∀ j, dget o.unloaded j = none → dget o'.attrs j = dget o.attrs j

theorem SameRead.set {o o' : LObj} (h : SameRead o o') (k : String) (w : Val) : SameRead (lazySet o k w) (lazySet o' k w) := by
  refine ⟨h.1, fun j hj => ?_⟩
  by_cases e : k = j
  · subst e; simp [lazySet]
  · simp only [lazySet]
    rw [dget_dset_ne _ _ e, dget_dset_ne _ _ e]
    exact h.2 j hj

/-- the same result, the same files opened -/
def SameOut {α : Type} (r r' : Out α) : Prop := r'.res = r.res ∧ r'.log = r.log ∧ SameRead r.obj r'.obj

theorem readAll_same {g : LObj → String → Out Val} (hg : ∀ o o' n, SameRead o o' → SameOut (g o n) (g o' n)) :
    ∀ (ns : List String) (o o' : LObj), SameRead o o' → SameOut (readAll g o ns) (readAll g o' ns) := by
  intro ns
  induction ns with
  | nil => intro o o' h; exact ⟨rfl, rfl, h⟩
  | cons n ns ih =>
    intro o o' h
    obtain ⟨h1, h2, h3⟩ := hg o o' n h
    simp only [readAll, h1, h2]
    cases (g o n).res with
    | error e => exact ⟨rfl, rfl, h3⟩
    | ok v =>
      obtain ⟨h4, h5, h6⟩ := ih _ _ h3
      exact ⟨by simp only [h4], by simp only [h5], h6⟩

theorem lazyGet_same {L : LEnv} (hl : L.isLazy = true) : ∀ (d : Nat) (o o' : LObj) (n : String), SameRead o o' →
    SameOut (lazyGet L d o n) (lazyGet L d o' n) := by
  intro d
  induction d with
  | zero => intro o o' n h; exact ⟨rfl, rfl, h⟩
  | succ d ih =>
    intro o o' n h
    simp only [lazyGet, hl, h.1]
    cases hu : dget o.unloaded n with
    | none =>
      simp only [plainGet, h.2 n hu]
      cases dget o.attrs n <;> exact ⟨rfl, rfl, h⟩
    | some e =>
      simp only
      cases L.disk e.file with
      | none => exact ⟨rfl, rfl, h⟩
      | some p =>
        simp only
        split
        · exact ⟨rfl, rfl, h⟩
        · obtain ⟨h1, h2, h3⟩ := readAll_same (g := lazyGet L d) (fun a b m hab => ih a b m hab) (L.deps e.cls) o o' h
          simp only [h1, h2]
          cases (readAll (lazyGet L d) o (L.deps e.cls)).res with
          | error er => exact ⟨rfl, rfl, h3⟩
          | ok vs =>
            simp only
            cases L.deser e.cls p vs with
            | error er => exact ⟨rfl, rfl, h3⟩
            | ok v =>
              simp only [h3.1]
              split
              · refine ⟨rfl, rfl, by simp, fun j hj => ?_⟩
                by_cases en : n = j
                · subst en; simp
                · simp only [dget_dset_ne _ _ en]
                  exact h3.2 j (by simpa [dget_ddel_ne _ en] using hj)
              · refine ⟨rfl, rfl, by simp, fun j hj => ?_⟩
                by_cases en : n = j
                · subst en; simp
                · simp only [dget_dset_ne _ _ en]
                  exact h3.2 j hj

theorem lazyRun_same {L : LEnv} (hl : L.isLazy = true) (d : Nat) : ∀ (ops : List LOp) (o o' : LObj), SameRead o o' →
    (lazyRun L d o' ops).1 = (lazyRun L d o ops).1 ∧ (lazyRun L d o' ops).2.2 = (lazyRun L d o ops).2.2 := by
  intro ops
  induction ops with
  | nil => intro o o' _; exact ⟨rfl, rfl⟩
  | cons op ops ih =>
    intro o o' h
    cases op with
    | get n =>
      obtain ⟨h1, h2, h3⟩ := lazyGet_same hl d o o' n h
      obtain ⟨h4, h5⟩ := ih _ _ h3
      exact ⟨by simp only [lazyRun, lazyStep, h1, h4], by simp only [lazyRun, lazyStep, h2, h5]⟩
    | set n v =>
      obtain ⟨h4, h5⟩ := ih _ _ (h.set n v)
      exact ⟨by simp only [lazyRun, lazyStep, h4], by simp only [lazyRun, lazyStep, h5]⟩

/-- C93: an assignment to a lazy field that has not been read has no effect at all: every later operation, on this field or another,
returns or raises what it does without the assignment, and opens the same files. (The defect of C49 in full, for all `deserialize`
methods.) -/
theorem C93_assign_unread (L : LEnv) (hl : L.isLazy = true) (depth : Nat) (o : LObj) (k : String) (w : Val)
    (hk : (dget o.unloaded k).isSome = true) (ops : List LOp) :
    (lazyRun L depth (lazySet o k w) ops).1 = (lazyRun L depth o ops).1 ∧
    (lazyRun L depth (lazySet o k w) ops).2.2 = (lazyRun L depth o ops).2.2 := by
  refine lazyRun_same hl depth ops o (lazySet o k w) ⟨rfl, fun j hj => ?_⟩
  refine dget_dset_ne _ _ ?_
  rintro rfl
  rw [hj] at hk
  exact (nomatch hk)

/-- C93: after an assignment to another field, or to a lazy field that has been read, the field has the assigned value; reads of fields
that do not use it return what they return without the assignment. -/
theorem C93_assign_read (L : LEnv) (hl : L.isLazy = true) (depth : Nat) (o : LObj) (hd : o.unloaded.length < depth) (k : String) (w : Val)
    (hk : dget o.unloaded k = none) (ks : List String) :
    (lazyGet L depth (afterReads L depth (lazySet o k w) ks) k).res = .ok w ∧
    ∀ j v, ¬ Reach L.deps o j k →
      ((lazyGet L depth (afterReads L depth (lazySet o k w) ks) j).res = .ok v ↔ (lazyGet L depth (afterReads L depth o ks) j).res = .ok v) := by
  constructor
  · refine (C93_exact L hl depth (lazySet o k w) hd ks k w).2 ⟨0, ?_⟩
    rw [evalField_plain (o := lazySet o k w) hk]
    exact dget_dset_self ..
  · intro j v hj
    rw [C93_exact L hl depth (lazySet o k w) hd, C93_exact L hl depth o hd]
    simp only [FieldVal, evalField_set L o k w _ j (.inr hj)]

/-! ## through the manager -/

theorem getStateX_state {E : MgrEnv} {m : Mgr} {o : LObj} (hs : m.state = some o) (k : String) :
    getStateX E k m = ((lazyGet (m.lenv E) E.depth o k).res, { m with state := some (lazyGet (m.lenv E) E.depth o k).obj }) := by
  simp [getStateX, Call.bind_eq, stateX, hs, Call.self, Call.modify, Call.lift]
  rfl

theorem reads_state (E : MgrEnv) : ∀ (ks : List String) (m : Mgr) (o : LObj), m.state = some o →
    (m.runX E (ks.map .getState)).2 = { m with state := some (afterReads (m.lenv E) E.depth o ks) } := by
  intro ks
  induction ks with
  | nil => intro m o hs; simp [Mgr.runX, afterReads, lazyRun, ← hs]
  | cons k ks ih =>
    intro m o hs
    have h1 : (m.execX E (.getState k)).2 = { m with state := some (lazyGet (m.lenv E) E.depth o k).obj } := by
      simp only [Mgr.execX, Call.bind_eq, getStateX_state hs]
      cases (lazyGet (m.lenv E) E.depth o k).res <;> rfl
    simp only [List.map_cons, Mgr.runX]
    rw [h1, ih _ _ rfl]
    rfl

/-- C93: the same for the state of a StateManager: whatever was read before, `manager.state.k` is what `deserialize` makes of the
files of the checkpoint that was restored. -/
theorem C93_manager (E : MgrEnv) (hl : E.stLazy = true) (m : Mgr) (o : LObj) (hs : m.state = some o) (hd : o.unloaded.length < E.depth)
    (ks : List String) (k : String) (v : Val) :
    (getStateX E k (m.runX E (ks.map .getState)).2).1 = .ok v ↔ FieldVal (m.lenv E) o k v := by
  rw [reads_state E ks m o hs, getStateX_state rfl]
  exact C93_exact (m.lenv E) hl E.depth o hd ks k v

/-! ## an example -/

namespace ExLD
/-- `opt` uses `net` and `step`, `sched` uses `opt` and `net`; `a` and `b` use each other -/
def L : LEnv :=
  { isLazy := true, pickleOk := false
    disk := fun f => if f = "net" then some (.int 7) else if f = "opt" then some (.int 8) else if f = "ab" then some (.int 9) else none
    deps := fun c => if c = "Opt" then ["net", "step"] else if c = "Sched" then ["opt", "net"] else if c = "A" then ["b"] else if c = "B" then ["a"] else []
    deser := fun c p vs => .ok (.ser c (.list (p :: vs))) }

def o : LObj := ⟨"State", [("step", .int 3), ("net", .none), ("opt", .none), ("sched", .none), ("a", .none), ("b", .none)],
  [("net", ⟨"Net", "net", false⟩), ("opt", ⟨"Opt", "opt", false⟩), ("sched", ⟨"Sched", "opt", false⟩), ("a", ⟨"A", "ab", false⟩),
   ("b", ⟨"B", "ab", false⟩)]⟩

def netV : Val := .ser "Net" (.list [.int 7])
def optV : Val := .ser "Opt" (.list [.int 8, netV, .int 3])
def schedV : Val := .ser "Sched" (.list [.int 8, optV, netV])

/-- C93_exact applies: the same values in both orders, after a read that raised -/
example : (lazyGet L 10 (afterReads L 10 o ["a", "net", "opt"]) "sched").res = .ok schedV ∧
    (lazyGet L 10 (afterReads L 10 o []) "sched").res = .ok schedV ∧ (lazyGet L 10 (afterReads L 10 o ["sched"]) "net").res = .ok netV := by
  have h : FieldVal L o "sched" schedV := ⟨3, rfl⟩
  exact ⟨(C93_exact L rfl 10 o (by decide) _ _ _).2 h, (C93_exact L rfl 10 o (by decide) _ _ _).2 h,
    (C93_exact L rfl 10 o (by decide) _ _ _).2 ⟨1, rfl⟩⟩

/-- C93_uses and C93_order apply: `opt` can be read at the start -/
example : (lazyGet L 10 o "opt").res = .ok optV ∧ dget o.unloaded "opt" = some ⟨"Opt", "opt", false⟩ ∧ o.unloaded.length < 10 :=
  ⟨rfl, rfl, by decide⟩

/-- C93_builds applies -/
example (ks : List String) : (lazyGet L 10 (afterReads L 10 o ks) "opt").res = .ok optV := by
  refine C93_builds L rfl 10 o (by decide) "opt" ⟨"Opt", "opt", false⟩ rfl (.int 8) optV [netV, .int 3] rfl nofun rfl rfl ?_ ks
  intro dw hm
  have : dw = ("net", netV) ∨ dw = ("step", .int 3) := by simpa [L] using hm
  rcases this with rfl | rfl <;> rfl

/-- C93_cycle applies -/
example (depth : Nat) (ks : List String) : ∃ er, (lazyGet L depth (afterReads L 10 o ks) "a").res = .error er :=
  C93_cycle L rfl 10 depth o "a" "b" ⟨"A", "ab", false⟩ rfl (by decide) (.step (e := ⟨"B", "ab", false⟩) rfl (by decide) (.refl "a")) ks

/-- a manager that has restored this object from the checkpoint `latest` -/
def E : MgrEnv := { ExM.E with deps := L.deps, deser := L.deser, depth := 10 }
def m : Mgr := ⟨.none, [], some o, .ckpt "latest", some "latest", [("latest", .full ⟨.none, .none, [("net", .int 7), ("opt", .int 8), ("ab", .int 9)]⟩)]⟩

/-- C93_manager applies -/
example : (getStateX E "sched" (m.runX E (["b", "opt"].map .getState)).2).1 = .ok schedV :=
  (C93_manager E rfl m o rfl (by decide) ["b", "opt"] "sched" schedV).2 ⟨3, rfl⟩

theorem reach_opt {j : String} (h : Reach L.deps o "opt" j) : j = "opt" ∨ j = "net" ∨ j = "step" := by
  have key : ∀ {k j}, Reach L.deps o k j → (k = "opt" ∨ k = "net" ∨ k = "step") → j = "opt" ∨ j = "net" ∨ j = "step" := by
    intro k j hr
    induction hr with
    | refl => exact id
    | step hu hd _ ih =>
      intro hk
      refine ih ?_
      rcases hk with rfl | rfl | rfl
      · have : some _ = some _ := hu
        cases this
        have : _ ∈ ["net", "step"] := hd
        simp only [List.mem_cons, List.not_mem_nil, or_false] at this
        exact .inr this
      · have : some _ = some _ := hu
        cases this
        exact (nomatch (show _ ∈ ([] : List String) from hd))
      · exact (nomatch (show (none : Option LazyEntry) = some _ from hu))
  exact key h (.inl rfl)

theorem reach_net {j : String} (h : Reach L.deps o "net" j) : j = "net" := by
  cases h with
  | refl => rfl
  | step hu hd _ =>
    have : some _ = some _ := hu
    cases this
    exact (nomatch (show _ ∈ ([] : List String) from hd))

/-- C93_acyclic applies -/
example (ks : List String) : ∃ v, (lazyGet L 10 (afterReads L 10 o ks) "opt").res = .ok v := by
  have step_end : ∀ {j}, Reach L.deps o "step" j → j = "step" := by
    intro j h
    cases h with
    | refl => rfl
    | step hu _ _ => exact (nomatch (show (none : Option LazyEntry) = some _ from hu))
  refine C93_acyclic L rfl 10 o (by decide) "opt" ?_ ?_ ?_ ks
  · intro j e d hj hu hd hr
    rcases reach_opt hj with rfl | rfl | rfl
    · have : some _ = some _ := hu
      cases this
      have : d ∈ ["net", "step"] := hd
      simp only [List.mem_cons, List.not_mem_nil, or_false] at this
      rcases this with rfl | rfl
      · exact absurd (reach_net hr) (by decide)
      · exact absurd (step_end hr) (by decide)
    · have : some _ = some _ := hu
      cases this
      exact (nomatch (show _ ∈ ([] : List String) from hd))
    · exact (nomatch (show (none : Option LazyEntry) = some _ from hu))
  · intro j e hj hu
    rcases reach_opt hj with rfl | rfl | rfl
    · have : some _ = some _ := hu
      cases this
      exact ⟨.int 8, rfl, nofun, fun vs _ => ⟨_, rfl⟩⟩
    · have : some _ = some _ := hu
      cases this
      exact ⟨.int 7, rfl, nofun, fun vs _ => ⟨_, rfl⟩⟩
    · exact (nomatch (show (none : Option LazyEntry) = some _ from hu))
  · intro j hj hu
    rcases reach_opt hj with rfl | rfl | rfl
    · exact (nomatch (show some _ = (none : Option LazyEntry) from hu))
    · exact (nomatch (show some _ = (none : Option LazyEntry) from hu))
    · rfl

/-- C93_assign_unread applies: the assignment to `net` is lost, also for `opt` -/
example : (lazyRun L 10 (lazySet o "net" (.int 1)) [.get "opt", .get "net"]).1 = [some (.ok optV), some (.ok netV)] :=
  (C93_assign_unread L rfl 10 o "net" (.int 1) rfl _).1.trans rfl

/-- C93_assign_read applies: `step` is no lazy field; `net` does not use it, `opt` does -/
example : (lazyGet L 10 (afterReads L 10 (lazySet o "step" (.int 4)) ["net"]) "step").res = .ok (.int 4) ∧
    (lazyGet L 10 (afterReads L 10 (lazySet o "step" (.int 4)) ["opt"]) "net").res = .ok netV ∧
    (lazyGet L 10 (lazySet o "step" (.int 4)) "opt").res = .ok (.ser "Opt" (.list [.int 8, netV, .int 4])) := by
  refine ⟨(C93_assign_read L rfl 10 o (by decide) "step" (.int 4) rfl ["net"]).1, ?_, rfl⟩
  refine ((C93_assign_read L rfl 10 o (by decide) "step" (.int 4) rfl ["opt"]).2 "net" netV ?_).2 rfl
  exact fun h => absurd (reach_net h) (by decide)
end ExLD

/-- C93 is false of fields that were assigned before they were read (compare C49_false): `deserialize` of `opt` gets the `net` of the
file, not the one that was assigned, and the assigned one is gone. -/
theorem C93_assigned_false : ∃ (L : LEnv) (o : LObj) (v w : Val), L.isLazy = true ∧ v ≠ w ∧
    (lazyGet L 10 (lazySet o "net" v) "opt").res = .ok (.ser "Opt" (.list [.int 8, w, .int 3])) ∧
    (lazyRun L 10 o [.set "net" v, .get "opt", .get "net"]).1 = [none, some (.ok (.ser "Opt" (.list [.int 8, w, .int 3]))), some (.ok w)] :=
  ⟨ExLD.L, ExLD.o, .int 1, ExLD.netV, rfl, by simp [ExLD.netV], rfl, rfl⟩

end HS
