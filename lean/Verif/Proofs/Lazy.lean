import Verif.Model.Lazy
import Verif.Proofs.Dict
/-!
# Lemmas about lazily loaded attributes
-/
namespace HS

/-- what an attribute access may do to an object: `read` lists the fields that were loaded -/
structure LExt (o o' : LObj) (read : List String) : Prop where
  cls : o'.cls = o.cls
  /-- loaded fields were unread, and are no longer -/
  was : ∀ k ∈ read, (dget o.unloaded k).isSome = true ∧ dget o'.unloaded k = none
  /-- other fields keep their status, and their attribute -/
  unl : ∀ k, k ∉ read → dget o'.unloaded k = dget o.unloaded k
  attr : ∀ k, k ∉ read → dget o'.attrs k = dget o.attrs k
  nodup : read.Nodup

theorem LExt.refl (o : LObj) : LExt o o [] := ⟨rfl, by simp, by simp, by simp, List.nodup_nil⟩

theorem LExt.trans {o o' o'' : LObj} {a b : List String} (h : LExt o o' a) (h' : LExt o' o'' b) : LExt o o'' (a ++ b) where
  cls := h'.cls.trans h.cls
  was := by
    intro k hk
    by_cases ha : k ∈ a
    · refine ⟨(h.was k ha).1, ?_⟩
      by_cases hb : k ∈ b
      · exact (h'.was k hb).2
      · rw [h'.unl k hb]; exact (h.was k ha).2
    · have hb : k ∈ b := by simpa [ha] using hk
      refine ⟨?_, (h'.was k hb).2⟩
      rw [← h.unl k ha]; exact (h'.was k hb).1
  unl := by
    intro k hk
    simp only [List.mem_append, not_or] at hk
    rw [h'.unl k hk.2, h.unl k hk.1]
  attr := by
    intro k hk
    simp only [List.mem_append, not_or] at hk
    rw [h'.attr k hk.2, h.attr k hk.1]
  nodup := by
    rw [List.nodup_append]
    refine ⟨h.nodup, h'.nodup, ?_⟩
    intro x hx y hy hxy
    subst hxy
    have h1 := (h.was x hx).2
    have h2 := (h'.was x hy).1
    rw [h1] at h2
    exact absurd h2 (by simp)

/-- the fields that were loaded, in order -/
def loads (l : List LEv) : List String := l.filterMap fun | .loaded n => some n | _ => none

theorem loads_append (a b : List LEv) : loads (a ++ b) = loads a ++ loads b := List.filterMap_append ..

theorem readAll_ext {get : LObj → String → Out Val} (hg : ∀ o n, LExt o (get o n).obj (loads (get o n).log)) :
    ∀ (ns : List String) (o : LObj), LExt o (readAll get o ns).obj (loads (readAll get o ns).log) := by
  intro ns
  induction ns with
  | nil => intro o; exact .refl o
  | cons n ns ih =>
    intro o
    simp only [readAll]
    split
    · exact hg o n
    · rw [loads_append]
      exact (hg o n).trans (ih _)

theorem lazyGet_ext (L : LEnv) : ∀ (fuel : Nat) (o : LObj) (name : String),
    LExt o (lazyGet L fuel o name).obj (loads (lazyGet L fuel o name).log) := by
  intro fuel
  induction fuel with
  | zero => intro o name; exact .refl o
  | succ fuel ih =>
    intro o name
    have hp : LExt o (plainGet o name).obj (loads (plainGet o name).log) := by
      simp only [plainGet]; split <;> exact .refl o
    simp only [lazyGet]
    split
    · rename_i e hl he
      split
      · exact .refl o
      · split
        · exact .refl o
        · have hd := readAll_ext ih (L.deps e.cls) o
          split
          · exact hd
          · split
            · exact hd
            · rename_i v hv
              split
              · rename_i hh
                simp only [List.cons_append]
                have hlog : loads (.opened name e.file :: ((readAll (lazyGet L fuel) o (L.deps e.cls)).log ++ [.loaded name])) =
                    loads (readAll (lazyGet L fuel) o (L.deps e.cls)).log ++ [name] := by
                  simp [loads]
                rw [hlog]
                refine hd.trans ⟨rfl, ?_, ?_, ?_, by simp⟩
                · intro k hk
                  simp only [List.mem_singleton] at hk
                  subst hk
                  exact ⟨hh, by simp⟩
                · intro k hk
                  simp only [List.mem_singleton] at hk
                  exact dget_ddel_ne _ (Ne.symm hk)
                · intro k hk
                  simp only [List.mem_singleton] at hk
                  exact dget_dset_ne _ _ (Ne.symm hk)
              · rename_i hh
                have hm : name ∈ loads (readAll (lazyGet L fuel) o (L.deps e.cls)).log := by
                  refine Classical.byContradiction fun hc => hh ?_
                  simp only [dhas, hd.unl name hc, he, Option.isSome_some]
                refine ⟨hd.cls, hd.was, hd.unl, ?_, hd.nodup⟩
                intro k hk
                rw [← hd.attr k hk]
                exact dget_dset_ne _ _ (fun e => hk (e ▸ hm))
    · exact hp

theorem lazyGet_done (L : LEnv) (hl : L.isLazy = true) (fuel : Nat) (o : LObj) (name : String) (x : Val)
    (h : (lazyGet L fuel o name).res = .ok x) : dget (lazyGet L fuel o name).obj.unloaded name = none := by
  cases fuel with
  | zero => simp [lazyGet] at h
  | succ fuel =>
    revert h
    simp only [lazyGet]
    split
    · split
      · simp
      · split
        · simp
        · split
          · simp
          · split
            · simp
            · split
              · intro _; simp
              · simp
    · rename_i hx
      intro _
      simp only [plainGet]
      cases hd : dget o.unloaded name with
      | none => split <;> exact hd
      | some e => exact absurd hd (by intro hd; exact hx e hl hd)

/-! ## histories -/

theorem lazyRun_append (L : LEnv) (d : Nat) : ∀ (a b : List LOp) (o : LObj),
    (lazyRun L d o (a ++ b)).2.1 = (lazyRun L d (lazyRun L d o a).2.1 b).2.1 ∧
    (lazyRun L d o (a ++ b)).2.2 = (lazyRun L d o a).2.2 ++ (lazyRun L d (lazyRun L d o a).2.1 b).2.2 ∧
    (lazyRun L d o (a ++ b)).1 = (lazyRun L d o a).1 ++ (lazyRun L d (lazyRun L d o a).2.1 b).1 := by
  intro a
  induction a with
  | nil => intro b o; simp [lazyRun]
  | cons op a ih =>
    intro b o
    obtain ⟨h1, h2, h3⟩ := ih b (lazyStep L d o op).2.1
    simp only [List.cons_append, lazyRun, h1, h2, h3, List.append_assoc, List.cons_append, and_self]

/-- the unread fields of an object shrink: those in `read` are loaded -/
structure UExt (o o' : LObj) (read : List String) : Prop where
  was : ∀ k ∈ read, (dget o.unloaded k).isSome = true ∧ dget o'.unloaded k = none
  unl : ∀ k, k ∉ read → dget o'.unloaded k = dget o.unloaded k
  nodup : read.Nodup

theorem UExt.trans {o o' o'' : LObj} {a b : List String} (h : UExt o o' a) (h' : UExt o' o'' b) : UExt o o'' (a ++ b) where
  was := by
    intro k hk
    by_cases ha : k ∈ a
    · refine ⟨(h.was k ha).1, ?_⟩
      by_cases hb : k ∈ b
      · exact (h'.was k hb).2
      · rw [h'.unl k hb]; exact (h.was k ha).2
    · have hb : k ∈ b := by simpa [ha] using hk
      refine ⟨?_, (h'.was k hb).2⟩
      rw [← h.unl k ha]; exact (h'.was k hb).1
  unl := by
    intro k hk
    simp only [List.mem_append, not_or] at hk
    rw [h'.unl k hk.2, h.unl k hk.1]
  nodup := by
    rw [List.nodup_append]
    refine ⟨h.nodup, h'.nodup, ?_⟩
    intro x hx y hy hxy
    subst hxy
    have h1 := (h.was x hx).2
    have h2 := (h'.was x hy).1
    rw [h1] at h2
    exact absurd h2 (by simp)

theorem lazyStep_ext (L : LEnv) (d : Nat) (o : LObj) (op : LOp) :
    UExt o (lazyStep L d o op).2.1 (loads (lazyStep L d o op).2.2) := by
  cases op with
  | get n =>
    have h := lazyGet_ext L d o n
    exact ⟨h.was, h.unl, h.nodup⟩
  | set n v => exact ⟨by simp [lazyStep, loads], by simp [lazyStep, lazySet], by simp [lazyStep, loads]⟩

theorem lazyRun_ext (L : LEnv) (d : Nat) : ∀ (ops : List LOp) (o : LObj),
    UExt o (lazyRun L d o ops).2.1 (loads (lazyRun L d o ops).2.2) := by
  intro ops
  induction ops with
  | nil => intro o; exact ⟨by simp [lazyRun, loads], by simp [lazyRun], by simp [lazyRun, loads]⟩
  | cons op ops ih =>
    intro o
    simp only [lazyRun, loads_append]
    exact (lazyStep_ext L d o op).trans (ih _)

/-! ## which files are opened -/

/-- reading `n` may read `k`: it is `n`, or `deserialize` of an unread field on the way reads it -/
inductive Reach (deps : String → List String) (o : LObj) : String → String → Prop
  | refl (n : String) : Reach deps o n n
  | step {n d k : String} {e : LazyEntry} : dget o.unloaded n = some e → d ∈ deps e.cls → Reach deps o d k → Reach deps o n k

theorem Reach.mono {deps : String → List String} {o o' : LObj} (h : ∀ k e, dget o'.unloaded k = some e → dget o.unloaded k = some e)
    {n k : String} (hr : Reach deps o' n k) : Reach deps o n k := by
  induction hr with
  | refl => exact .refl _
  | step h1 h2 _ ih => exact .step (h _ _ h1) h2 ih

theorem LExt.shrink {o o' : LObj} {r : List String} (h : LExt o o' r) (k : String) (e : LazyEntry)
    (he : dget o'.unloaded k = some e) : dget o.unloaded k = some e := by
  by_cases hk : k ∈ r
  · rw [(h.was k hk).2] at he; exact (nomatch he)
  · rw [← h.unl k hk]; exact he

/-- a file is opened for an unread field that can be reached, and it is that field's file -/
theorem lazyGet_opens (L : LEnv) : ∀ (fuel : Nat) (o : LObj) (name k file : String),
    .opened k file ∈ (lazyGet L fuel o name).log →
    Reach L.deps o name k ∧ ∃ e, dget o.unloaded k = some e ∧ e.file = file := by
  intro fuel
  induction fuel with
  | zero => intro o name k file h; simp [lazyGet] at h
  | succ fuel ih =>
    intro o name k file h
    have hall : ∀ (ns : List String) (o : LObj), .opened k file ∈ (readAll (lazyGet L fuel) o ns).log →
        ∃ n ∈ ns, Reach L.deps o n k ∧ ∃ e, dget o.unloaded k = some e ∧ e.file = file := by
      intro ns
      induction ns with
      | nil => intro o h; simp [readAll] at h
      | cons n ns ihn =>
        intro o h
        simp only [readAll] at h
        split at h
        · exact ⟨n, by simp, ih _ _ _ _ h⟩
        · simp only [List.mem_append] at h
          rcases h with h | h
          · exact ⟨n, by simp, ih _ _ _ _ h⟩
          · obtain ⟨n', hn', hr, e, he, hf⟩ := ihn _ h
            have hs := (lazyGet_ext L fuel o n).shrink
            exact ⟨n', List.mem_cons_of_mem _ hn', hr.mono hs, e, hs _ _ he, hf⟩
    have hp : .opened k file ∉ (plainGet o name).log := by
      simp only [plainGet]; split <;> simp
    have hdep : ∀ e, dget o.unloaded name = some e → .opened k file ∈ (readAll (lazyGet L fuel) o (L.deps e.cls)).log →
        Reach L.deps o name k ∧ ∃ e, dget o.unloaded k = some e ∧ e.file = file := by
      intro e he h
      obtain ⟨n, hn, hr, hx⟩ := hall _ _ h
      exact ⟨.step he hn hr, hx⟩
    have hself : ∀ e : LazyEntry, dget o.unloaded name = some e → k = name → file = e.file →
        Reach L.deps o name k ∧ ∃ e, dget o.unloaded k = some e ∧ e.file = file := by
      intro e he h1 h2
      subst h1; subst h2
      exact ⟨.refl _, e, he, rfl⟩
    simp only [lazyGet] at h
    split at h
    · rename_i e hl he
      split at h
      · simp at h
      · split at h
        · simp only [List.mem_singleton, LEv.opened.injEq] at h
          exact hself e he h.1 h.2
        · split at h
          · simp only [List.mem_cons, LEv.opened.injEq] at h
            rcases h with h | h
            · exact hself e he h.1 h.2
            · exact hdep e he h
          · split at h
            · simp only [List.mem_cons, LEv.opened.injEq] at h
              rcases h with h | h
              · exact hself e he h.1 h.2
              · exact hdep e he h
            · split at h
              · simp only [List.cons_append, List.mem_cons, List.mem_append, LEv.opened.injEq, List.not_mem_nil, or_false,
                  reduceCtorEq] at h
                rcases h with h | h
                · exact hself e he h.1 h.2
                · exact hdep e he h
              · simp only [List.mem_cons, LEv.opened.injEq] at h
                rcases h with h | h
                · exact hself e he h.1 h.2
                · exact hdep e he h
    · exact absurd h hp

/-- the outcome depends only on the files of fields that can be reached -/
theorem lazyGet_frame (L : LEnv) (disk' : String → Option Val) : ∀ (fuel : Nat) (o : LObj) (name : String),
    (∀ k e, Reach L.deps o name k → dget o.unloaded k = some e → disk' e.file = L.disk e.file) →
    lazyGet { L with disk := disk' } fuel o name = lazyGet L fuel o name := by
  intro fuel
  induction fuel with
  | zero => intro o name _; rfl
  | succ fuel ih =>
    intro o name h
    have hall : ∀ (ns : List String) (o : LObj),
        (∀ n ∈ ns, ∀ k e, Reach L.deps o n k → dget o.unloaded k = some e → disk' e.file = L.disk e.file) →
        readAll (lazyGet { L with disk := disk' } fuel) o ns = readAll (lazyGet L fuel) o ns := by
      intro ns
      induction ns with
      | nil => intro o _; rfl
      | cons n ns ihn =>
        intro o hn
        have h1 := ih o n (hn n (by simp))
        have h2 := ihn (lazyGet L fuel o n).obj (by
          intro n' hn' k e hr he
          have hs := (lazyGet_ext L fuel o n).shrink
          exact hn n' (List.mem_cons_of_mem _ hn') k e (hr.mono hs) (hs _ _ he))
        simp only [readAll, h1, h2]
    simp only [lazyGet]
    cases hl : L.isLazy with
    | false => rfl
    | true =>
      cases he : dget o.unloaded name with
      | none => rfl
      | some e =>
        have h1 := hall (L.deps e.cls) o (by
          intro n hn k e' hr he'
          exact h k e' (.step he hn hr) he')
        simp only [hl] at h1
        simp only [h name e (.refl _) he, h1]

/-! ## restoring all fields -/

/-- `saved` are the values of the fields: those that are read already are attributes, the others are in their files -/
def LInv (disk : String → Option Val) (saved : List (String × Val)) (o : LObj) : Prop :=
  ∀ k x, dget saved k = some x →
    (dget o.unloaded k = none ∧ dget o.attrs k = some x) ∨
    ∃ c y f, x = .ser c y ∧ dget o.unloaded k = some ⟨c, f, false⟩ ∧ disk f = some y

/-- what `deserialize` does with the saved values: it gives back what was serialized -/
structure SerOK (L : LEnv) (saved : List (String × Val)) (rank : String → Nat) (depth : Nat) : Prop where
  lazy : L.isLazy = true
  /-- `deserialize` gives back the object, reading the fields it reads -/
  inv : ∀ k c y, dget saved k = some (.ser c y) → ∀ vs, (L.deps c).map (dget saved) = vs.map some →
    L.deser c y vs = .ok (.ser c y)
  /-- the fields it reads are fields, and there is no cycle -/
  deps : ∀ k c y, dget saved k = some (.ser c y) → ∀ d ∈ L.deps c, (dget saved d).isSome = true ∧ rank d < rank k
  rank : ∀ k, (dget saved k).isSome = true → rank k < depth

theorem lazyGet_inv {L : LEnv} {saved : List (String × Val)} {rank : String → Nat} {depth : Nat} (hS : SerOK L saved rank depth) :
    ∀ (fuel : Nat) (o : LObj) (k : String) (x : Val), LInv L.disk saved o → dget saved k = some x → rank k < fuel →
      (lazyGet L fuel o k).res = .ok x ∧ LInv L.disk saved (lazyGet L fuel o k).obj ∧
      dget (lazyGet L fuel o k).obj.unloaded k = none ∧
      (∀ j, loads (lazyGet L fuel o k).log = j → ∀ i ∈ j, i = k ∨ rank i < rank k) := by
  intro fuel
  induction fuel with
  | zero => intro o k x _ _ h; omega
  | succ fuel ih =>
    intro o k x hI hk hr
    have hall : ∀ (ns : List String) (o : LObj), LInv L.disk saved o →
        (∀ d ∈ ns, (dget saved d).isSome = true ∧ rank d < rank k) →
        ∃ vs, (readAll (lazyGet L fuel) o ns).res = .ok vs ∧ ns.map (dget saved) = vs.map some ∧
          LInv L.disk saved (readAll (lazyGet L fuel) o ns).obj ∧
          ∀ i ∈ loads (readAll (lazyGet L fuel) o ns).log, rank i < rank k := by
      intro ns
      induction ns with
      | nil => intro o h _; exact ⟨[], rfl, rfl, h, by simp [readAll, loads]⟩
      | cons n ns ihn =>
        intro o h hd
        obtain ⟨hsome, hlt⟩ := hd n (by simp)
        obtain ⟨y, hy⟩ := Option.isSome_iff_exists.1 hsome
        obtain ⟨h1, h2, _, h4⟩ := ih o n y h hy (by omega)
        obtain ⟨vs, h5, h6, h7, h8⟩ := ihn _ h2 (fun d hd' => hd d (List.mem_cons_of_mem _ hd'))
        refine ⟨y :: vs, ?_, ?_, ?_, ?_⟩
        · simp [readAll, h1, h5, Except.map]
        · simp [hy, h6]
        · simp only [readAll, h1]; exact h7
        · simp only [readAll, h1, loads_append]
          intro i hi
          rcases List.mem_append.1 hi with hi | hi
          · rcases h4 _ rfl i hi with rfl | h
            · exact hlt
            · omega
          · exact h8 i hi
    rcases hI k x hk with ⟨hu, ha⟩ | ⟨c, y, f, rfl, hu, hf⟩
    · have he : lazyGet L (fuel + 1) o k = ⟨.ok x, o, []⟩ := by
        simp only [lazyGet, hS.lazy, hu, plainGet, ha]
      rw [he]
      exact ⟨rfl, hI, hu, by intro j hj i hi; subst hj; simp [loads] at hi⟩
    · obtain ⟨vs, h1, h2, h3, h4⟩ := hall (L.deps c) o hI (hS.deps k c y hk)
      have hd := hS.inv k c y hk vs h2
      have hnk : k ∉ loads (readAll (lazyGet L fuel) o (L.deps c)).log := fun h => absurd (h4 k h) (by omega)
      have hE := readAll_ext (fun o n => lazyGet_ext L fuel o n) (L.deps c) o
      have hhas : dhas (readAll (lazyGet L fuel) o (L.deps c)).obj.unloaded k = true := by
        simp [dhas, hE.unl k hnk, hu]
      have he : lazyGet L (fuel + 1) o k = ⟨.ok (.ser c y),
          { (readAll (lazyGet L fuel) o (L.deps c)).obj with
            attrs := dset (readAll (lazyGet L fuel) o (L.deps c)).obj.attrs k (.ser c y)
            unloaded := ddel (readAll (lazyGet L fuel) o (L.deps c)).obj.unloaded k },
          .opened k f :: (readAll (lazyGet L fuel) o (L.deps c)).log ++ [.loaded k]⟩ := by
        simp only [lazyGet, hS.lazy, hu, hf, h1, hd, hhas]
        simp
      rw [he]
      refine ⟨rfl, ?_, by simp, ?_⟩
      · intro j x hj
        simp only
        by_cases hjk : j = k
        · subst hjk
          left
          rw [hk] at hj; cases hj
          exact ⟨by simp, by simp⟩
        · rw [dget_ddel_ne _ (Ne.symm hjk), dget_dset_ne _ _ (Ne.symm hjk)]
          exact h3 j x hj
      · intro j hj i hi
        subst hj
        have : loads (.opened k f :: (readAll (lazyGet L fuel) o (L.deps c)).log ++ [.loaded k]) =
            loads (readAll (lazyGet L fuel) o (L.deps c)).log ++ [k] := by simp [loads]
        rw [this] at hi
        rcases List.mem_append.1 hi with hi | hi
        · exact .inr (h4 i hi)
        · simp only [List.mem_singleton] at hi; exact .inl hi

theorem readAll_inv {L : LEnv} {saved : List (String × Val)} {rank : String → Nat} {depth : Nat} (hS : SerOK L saved rank depth) :
    ∀ (ns : List String) (o : LObj), LInv L.disk saved o → (∀ n ∈ ns, (dget saved n).isSome = true) →
      ∃ vs, (readAll (lazyGet L depth) o ns).res = .ok vs ∧ ns.map (dget saved) = vs.map some ∧
        LInv L.disk saved (readAll (lazyGet L depth) o ns).obj ∧
        ∀ n ∈ ns, dget (readAll (lazyGet L depth) o ns).obj.unloaded n = none := by
  intro ns
  induction ns with
  | nil => intro o h _; exact ⟨[], rfl, rfl, h, by simp⟩
  | cons n ns ih =>
    intro o h hn
    obtain ⟨y, hy⟩ := Option.isSome_iff_exists.1 (hn n (by simp))
    obtain ⟨h1, h2, h3, _⟩ := lazyGet_inv hS depth o n y h hy (hS.rank n (hn n (by simp)))
    obtain ⟨vs, h5, h6, h7, h8⟩ := ih _ h2 (fun d hd' => hn d (List.mem_cons_of_mem _ hd'))
    refine ⟨y :: vs, ?_, ?_, ?_, ?_⟩
    · simp [readAll, h1, h5, Except.map]
    · simp [hy, h6]
    · simp only [readAll, h1]; exact h7
    · simp only [readAll, h1]
      intro i hi
      rcases List.mem_cons.1 hi with rfl | hi
      · have hE := readAll_ext (fun o n => lazyGet_ext L depth o n) ns (lazyGet L depth o i).obj
        by_cases hm : i ∈ loads (readAll (lazyGet L depth) (lazyGet L depth o i).obj ns).log
        · exact (hE.was i hm).2
        · rw [hE.unl i hm]; exact h3
      · exact h8 i hi

end HS
