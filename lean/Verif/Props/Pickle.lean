import Verif.Props.Lazy
import Verif.Proofs.Events
import Verif.Proofs.Restore
/-!
# C62: pickled blobs are not read unless this has been allowed
-/
namespace HS

/-- C48: reading a field that is not lazy, or has been read already, has no effect, and returns the attribute if there is one. -/
theorem C48_plain (L : LEnv) (depth : Nat) (o : LObj) (n : String) (h : dget o.unloaded n = none) :
    (lazyGet L (depth + 1) o n).obj = o ∧ (lazyGet L (depth + 1) o n).log = [] ∧
      (∀ v, (lazyGet L (depth + 1) o n).res = .ok v ↔ dget o.attrs n = some v) ∧
      (dget o.attrs n = none → (lazyGet L (depth + 1) o n).res = .error .attributeError) := by
  have : lazyGet L (depth + 1) o n = plainGet o n := by simp only [lazyGet, h]; cases L.isLazy <;> rfl
  rw [this]
  unfold plainGet
  cases dget o.attrs n <;> simp

/-- `disk'` agrees with the disk of `L` in which files of unread fields exist, and in the contents of the files of those unread fields
that are not pickled -/
def SameButPickles (disk disk' : String → Option Val) (o : LObj) : Prop :=
  ∀ k e, dget o.unloaded k = some e →
    (disk' e.file).isSome = (disk e.file).isSome ∧ (e.pickle = false → disk' e.file = disk e.file)

theorem lazyGet_blind (L : LEnv) (hp : L.pickleOk = false) (disk' : String → Option Val) : ∀ (fuel : Nat) (o : LObj) (name : String),
    SameButPickles L.disk disk' o → lazyGet { L with disk := disk' } fuel o name = lazyGet L fuel o name := by
  intro fuel
  induction fuel with
  | zero => intro o name _; rfl
  | succ fuel ih =>
    intro o name h
    have hall : ∀ (ns : List String) (o : LObj), SameButPickles L.disk disk' o →
        readAll (lazyGet { L with disk := disk' } fuel) o ns = readAll (lazyGet L fuel) o ns := by
      intro ns
      induction ns with
      | nil => intro o _; rfl
      | cons n ns ihn =>
        intro o hn
        have h2 := ihn (lazyGet L fuel o n).obj (fun k e he => hn k e ((lazyGet_ext L fuel o n).shrink k e he))
        simp only [readAll, ih o n hn, h2]
    simp only [lazyGet]
    cases hl : L.isLazy with
    | false => rfl
    | true =>
      cases he : dget o.unloaded name with
      | none => rfl
      | some e =>
        have h1 := hall (L.deps e.cls) o h
        simp only [hl] at h1
        obtain ⟨h2, h3⟩ := h name e he
        cases hpk : e.pickle with
        | false => simp only [h3 hpk, h1]
        | true =>
          simp only [hp, Bool.not_false]
          cases hd : L.disk e.file with
          | none => rw [hd] at h2; rw [Option.isSome_eq_false_iff.1 h2 |> Option.isNone_iff_eq_none.1]
          | some x =>
            rw [hd] at h2
            obtain ⟨y, hy⟩ := Option.isSome_iff_exists.1 h2
            simp [hy, hpk]

/-- C62: unless `UNSAFE_DESERIALIZE_PICKLE` is set, no history of reads and assignments depends on what is in a pickle: changing the
contents of the files of pickled fields in any way changes no result, no attribute and no effect. -/
theorem C62_blind (L : LEnv) (hp : L.pickleOk = false) (disk' : String → Option Val) (depth : Nat) (ops : List LOp) (o : LObj)
    (h : SameButPickles L.disk disk' o) : lazyRun { L with disk := disk' } depth o ops = lazyRun L depth o ops := by
  induction ops generalizing o with
  | nil => rfl
  | cons op ops ih =>
    have h1 : lazyStep { L with disk := disk' } depth o op = lazyStep L depth o op := by
      cases op with
      | set n v => rfl
      | get n => simp only [lazyStep, lazyGet_blind L hp disk' depth o n h]
    have hx := lazyStep_ext L depth o op
    have h2 : SameButPickles L.disk disk' (lazyStep L depth o op).2.1 := by
      intro k e he
      refine h k e ?_
      by_cases hk : k ∈ loads (lazyStep L depth o op).2.2
      · rw [(hx.was k hk).2] at he; exact (nomatch he)
      · rw [← hx.unl k hk]; exact he
    simp only [lazyRun, h1, ih _ h2]

/-- C62: a pickled field is never loaded then: reading it raises (RuntimeError, if the file exists), at any time in any history. -/
theorem C62_refused (L : LEnv) (hp : L.pickleOk = false) (hl : L.isLazy = true) (depth : Nat) (o : LObj) (ops : List LOp) (k : String)
    (e : LazyEntry) (he : dget o.unloaded k = some e) (hk : e.pickle = true) :
    k ∉ loads (lazyRun L depth o ops).2.2 ∧
    (lazyGet L (depth + 1) (lazyRun L depth o ops).2.1 k).res =
      .error (if (L.disk e.file).isSome then .runtimeError else .fileNotFound) := by
  have key : ∀ (fuel : Nat) (o : LObj) (name : String), dget o.unloaded k = some e → k ∉ loads (lazyGet L fuel o name).log := by
    intro fuel
    induction fuel with
    | zero => intro o name _; simp [lazyGet, loads]
    | succ fuel ih =>
      intro o name he
      have hall : ∀ (ns : List String) (o : LObj), dget o.unloaded k = some e →
          k ∉ loads (readAll (lazyGet L fuel) o ns).log := by
        intro ns
        induction ns with
        | nil => intro o _; simp [readAll, loads]
        | cons n ns ihn =>
          intro o hn
          have h1 := ih o n hn
          have h2 := ihn (lazyGet L fuel o n).obj (by rw [(lazyGet_ext L fuel o n).unl k h1]; exact hn)
          simp only [readAll]
          split
          · exact h1
          · simp only [loads_append, List.mem_append, not_or]; exact ⟨h1, h2⟩
      simp only [lazyGet, hl]
      split
      · rename_i e' _ he'
        split
        · simp [loads]
        · split
          · simp [loads]
          · rename_i hne
            have hnk : name ≠ k := by
              rintro rfl
              rw [he] at he'
              cases he'
              simp [hk, hp] at hne
            have h3 := hall (L.deps e'.cls) o he
            split
            · simpa [loads] using h3
            · split
              · simpa [loads] using h3
              · split
                · simp only [List.cons_append, loads, List.filterMap_cons, List.filterMap_append, List.mem_append, List.filterMap_nil,
                    List.mem_singleton, not_or]
                  exact ⟨h3, fun h => hnk h.symm⟩
                · simpa [loads] using h3
      · unfold plainGet
        split <;> simp [loads]
  have hrun : ∀ (ops : List LOp) (o : LObj), dget o.unloaded k = some e → k ∉ loads (lazyRun L depth o ops).2.2 := by
    intro ops
    induction ops with
    | nil => intro o _; simp [lazyRun, loads]
    | cons op ops ih =>
      intro o he
      have h1 : k ∉ loads (lazyStep L depth o op).2.2 := by
        cases op with
        | set n v => simp [lazyStep, loads]
        | get n => exact key depth o n he
      have h2 : dget (lazyStep L depth o op).2.1.unloaded k = some e := by rw [(lazyStep_ext L depth o op).unl k h1]; exact he
      simp only [lazyRun, loads_append, List.mem_append, not_or]
      exact ⟨h1, ih _ h2⟩
  have h1 := hrun ops o he
  refine ⟨h1, ?_⟩
  have h2 : dget (lazyRun L depth o ops).2.1.unloaded k = some e := by rw [(lazyRun_ext L depth ops o).unl k h1]; exact he
  simp only [lazyGet, hl, h2]
  cases hd : L.disk e.file with
  | none => simp
  | some x => simp [hk, hp]

/-- is this the name of a msgpack file? -/
def IsMsgpack (file : String) : Prop := ∃ s, file = s ++ ".msgpack"

/-- C62: which fields count as pickled is decided by the document alone, whatever it contains: a field that is not takes its value
from a file with the suffix `.msgpack`. -/
theorem C62_document (c : DCfg) (ron : RonParse) (os : Option (List String)) (ig : Bool) (ty : PyTy) (doc : Val) (r : Loaded)
    (h : typedLoad c ron os ig ty doc = .ok r) (k : String) (e : LazyEntry) (he : dget r.lazyFields k = some e)
    (hk : e.pickle = false) : IsMsgpack e.file := by
  have key : ∀ d, (do
      let (v, es) ← fromDict c ty ig "" d
      return (⟨v, ← regAll [] es, lazyAll es⟩ : Loaded)) = .ok r → IsMsgpack e.file := by
    intro d h
    simp only [bind, Except.bind, pure, Except.pure] at h
    split at h
    · exact (nomatch h)
    · rename_i y hy
      split at h
      · exact (nomatch h)
      · simp only [Except.ok.injEq] at h
        subst h
        have := fromDict_evs c (P := fun ev => ∀ p cl f, ev = .lazy p cl f false → IsMsgpack f) (by intro _ _ _ _ _ _ _ h; exact (nomatch h))
          (by
            intro _ path cls v w es hw ev hev p cl f hf
            subst hf
            unfold lazyHook at hw
            split at hw
            · cases hw; simp at hev
            · cases hw; simp at hev
            · cases hw
              simp only [List.mem_singleton, Ev.lazy.injEq] at hev
              rw [hev.2.2.1]
              exact ⟨_, rfl⟩
            · exact (nomatch hw)) ty ig "" d y.1 y.2 hy
        rcases lazyInto_mem y.2 [] k e he with h | h
        · simp [dget] at h
        · exact this _ h _ _ _ (by rw [hk])
  cases os with
  | none => exact key doc h
  | some os =>
    simp only [typedLoad] at h
    cases h1 : applyOverrides ron ty os doc with
    | error e => rw [h1] at h; exact (nomatch h)
    | ok d => rw [h1] at h; exact key d h

/-- C62, put together: whatever document the state was loaded from, only the contents of files `*.msgpack` can have an effect on what a
program sees of it. -/
theorem C62_only_msgpack (L : LEnv) (hp : L.pickleOk = false) (disk' : String → Option Val)
    (hm : ∀ f, IsMsgpack f → disk' f = L.disk f) (he : ∀ f, (disk' f).isSome = (L.disk f).isSome)
    (c : DCfg) (ron : RonParse) (os : Option (List String)) (ig : Bool) (ty : PyTy) (doc : Val) (r : Loaded)
    (h : typedLoad c ron os ig ty doc = .ok r) (o : LObj) (ho : r.obj = some o) (depth : Nat) (ops : List LOp) :
    lazyRun { L with disk := disk' } depth o ops = lazyRun L depth o ops := by
  refine C62_blind L hp disk' depth ops o ?_
  intro k e hk
  refine ⟨he _, fun hpk => hm _ ?_⟩
  refine C62_document c ron os ig ty doc r h k e ?_ hpk
  simp only [Loaded.obj] at ho
  split at ho
  · cases ho; exact hk
  · simp at ho

/-- joining texts that contain none of `.`, `[` and `]` with dots, and then putting slashes for the dots -/
theorem slashes (ns : List (List Char)) (h : ∀ n ∈ ns, '.' ∉ n ∧ '[' ∉ n ∧ ']' ∉ n) :
    ((List.intercalate ['.'] ns).map (fun c => if c = '.' then '/' else if c = '[' then '/' else c)).filter (· ≠ ']') =
      List.intercalate ['/'] ns := by
  have h1 : ∀ n : List Char, '.' ∉ n ∧ '[' ∉ n ∧ ']' ∉ n →
      (n.map (fun c => if c = '.' then '/' else if c = '[' then '/' else c)).filter (· ≠ ']') = n := by
    intro n
    induction n with
    | nil => intro _; rfl
    | cons c n ih =>
      rintro ⟨a, b, d⟩
      simp only [List.mem_cons, not_or] at a b d
      simp only [List.map_cons, Ne.symm a.1, Ne.symm b.1, if_false, List.filter_cons, Ne.symm d.1, ne_eq, not_false_eq_true,
        decide_true, if_true]
      rw [show (List.map (fun c => if c = '.' then '/' else if c = '[' then '/' else c) n).filter (fun c => decide ¬c = ']') = n from
        ih ⟨a.2, b.2, d.2⟩]
  induction ns with
  | nil => rfl
  | cons n ns ih =>
    have hn := h1 n (h n (by simp))
    have ih := ih fun m hm => h m (List.mem_cons_of_mem _ hm)
    cases ns with
    | nil => simpa [List.intercalate] using hn
    | cons m ns =>
      simp only [List.intercalate, List.intersperse_cons_cons, List.flatten_cons] at ih ⊢
      simp only [List.map_append, List.filter_append, hn, ih]
      rfl

/-- C62: where the value of a field is looked for. For the field with the path `a.b.c`, the file is `state.a.b.c.msgpack`; for a pickled
one it is `state.a.b.c.pickle`, or `c` in the directory `a/b`. -/
theorem C62_where (c : DCfg) (ron : RonParse) (os : Option (List String)) (ig : Bool) (ty : PyTy) (doc : Val) (r : Loaded)
    (h : typedLoad c ron os ig ty doc = .ok r) (k : String) (e : LazyEntry) (he : dget r.lazyFields k = some e)
    (ns : List String) (hk : k.toList = List.intercalate ['.'] (ns.map String.toList))
    (hn : ∀ n ∈ ns, '.' ∉ n.toList ∧ '[' ∉ n.toList ∧ ']' ∉ n.toList) :
    (e.pickle = false ∧ e.file = "state." ++ k ++ ".msgpack") ∨
    (e.pickle = true ∧ (e.file = "state." ++ k ++ ".pickle" ∨ e.file.toList = List.intercalate ['/'] (ns.map String.toList))) := by
  have hmem : ∀ (ms : List (List Char)) (c : Char), c ∈ List.intercalate ['.'] ms → c = '.' ∨ ∃ m ∈ ms, c ∈ m := by
    intro ms c hc
    induction ms with
    | nil => simp [List.intercalate] at hc
    | cons m ms ih =>
      cases ms with
      | nil => exact .inr ⟨m, by simp, by simpa [List.intercalate] using hc⟩
      | cons m' ms =>
        simp only [List.intercalate, List.intersperse_cons_cons, List.flatten_cons, List.mem_append, List.mem_singleton] at hc ih
        rcases hc with h | h | h
        · exact .inr ⟨m, by simp, h⟩
        · exact .inl h
        · rcases ih h with h | ⟨x, hx, h⟩
          · exact .inl h
          · exact .inr ⟨x, List.mem_cons_of_mem _ hx, h⟩
  have hnb : noBr k := by
    constructor
    all_goals
      intro hc
      rw [hk] at hc
      rcases hmem _ _ hc with h | ⟨m, hm, h⟩
      · exact absurd h (by decide)
      · obtain ⟨n, hn', rfl⟩ := List.mem_map.1 hm
        first | exact (hn n hn').2.1 h | exact (hn n hn').2.2 h
  have key : ∀ d, (do
      let (v, es) ← fromDict c ty ig "" d
      return (⟨v, ← regAll [] es, lazyAll es⟩ : Loaded)) = .ok r →
      ∃ v : Val, ∃ es, lazyHook k e.cls v = .ok (.none, es) ∧ .lazy k e.cls e.file e.pickle ∈ es := by
    intro d h
    simp only [bind, Except.bind, pure, Except.pure] at h
    split at h
    · exact (nomatch h)
    · rename_i y hy
      split at h
      · exact (nomatch h)
      · simp only [Except.ok.injEq] at h
        subst h
        have := fromDict_evs c (P := fun ev => ∀ p cl f b, ev = .lazy p cl f b → ∃ v : Val, ∃ es, lazyHook p cl v = .ok (.none, es) ∧
            .lazy p cl f b ∈ es) (by intro _ _ _ _ _ _ _ _ h; exact (nomatch h))
          (by
            intro _ path cls v w es hw ev hev p cl f b hf
            subst hf
            have hw' := hw
            unfold lazyHook at hw
            split at hw
            all_goals first
              | (cases hw; simp only [List.mem_singleton, Ev.lazy.injEq] at hev; obtain ⟨rfl, rfl, rfl, rfl⟩ := hev
                 exact ⟨_, _, hw', by simp⟩)
              | exact (nomatch hw)) ty ig "" d y.1 y.2 hy
        rcases lazyInto_mem y.2 [] k e he with h | h
        · simp [dget] at h
        · exact this _ h _ _ _ _ rfl
  obtain ⟨v, es, hv, hm⟩ : ∃ v : Val, ∃ es, lazyHook k e.cls v = .ok (.none, es) ∧ .lazy k e.cls e.file e.pickle ∈ es := by
    cases os with
    | none => exact key doc h
    | some os =>
      simp only [typedLoad] at h
      cases h1 : applyOverrides ron ty os doc with
      | error e => rw [h1] at h; exact (nomatch h)
      | ok d => rw [h1] at h; exact key d h
  unfold lazyHook at hv
  split at hv
  · cases hv
    simp only [List.mem_singleton, Ev.lazy.injEq, true_and] at hm
    refine .inr ⟨hm.2, .inr ?_⟩
    rw [hm.1, legacyBlobPath, String.toList_ofList, hk]
    exact slashes _ (by intro n hn'; obtain ⟨m, hm, rfl⟩ := List.mem_map.1 hn'; exact hn m hm)
  · cases hv
    simp only [List.mem_singleton, Ev.lazy.injEq, true_and] at hm
    exact .inr ⟨hm.2, .inl (by rw [hm.1, blobName_noBr hnb])⟩
  · cases hv
    simp only [List.mem_singleton, Ev.lazy.injEq, true_and] at hm
    exact .inl ⟨hm.2, by rw [hm.1, blobFile, blobName_noBr hnb]⟩
  · exact (nomatch hv)

namespace ExL
/-- a state directory of an old version: one field pickled, one in the current format -/
def oldTy : PyTy := .data "State" [.mk "net" (.blob "Net") .none, .mk "opt" (.blob "Opt") .none] .none
def oldDoc : Val := .dict [("net", .str "<blob:pickle>"), ("opt", .str "<blob:msgpack>")]
def oldObj : LObj := ⟨"State", [("net", .none), ("opt", .none)],
  [("net", ⟨"Net", "state.net.pickle", true⟩), ("opt", ⟨"Opt", "state.opt.msgpack", false⟩)]⟩
def Lp (x : Val) (ok : Bool) : LEnv :=
  { isLazy := true, disk := fun f => if f = "state.net.pickle" then some x else if f = "state.opt.msgpack" then some (.int 8) else none,
    pickleOk := ok, deps := fun _ => [], deser := fun c p _ => .ok (.ser c p) }
end ExL

/-- the three formats, in a nested object -/
example : (typedLoad (Ex.world.dcfg false true) Ex.world.ron .none false
    (.data "State" [.mk "a" (.data "A" [.mk "x" (.blob "N") .none, .mk "y" (.blob "N") .none, .mk "z" (.blob "N") .none] .none) .none] .none)
    (.dict [("a", .dict [("x", .str "<BLOB>"), ("y", .str "<blob:pickle>"), ("z", .str "<blob:msgpack>")])])).toOption.map Loaded.lazyFields =
    some [("a.x", ⟨"N", "a/x", true⟩), ("a.y", ⟨"N", "state.a.y.pickle", true⟩), ("a.z", ⟨"N", "state.a.z.msgpack", false⟩)] := by
  decide +kernel

/-- A state with a pickled field, loaded from a document. Without the environment variable the field is refused; with it, the contents
of the pickle matter. -/
example (x : Val) : (typedLoad (Ex.world.dcfg false true) Ex.world.ron .none false ExL.oldTy ExL.oldDoc).toOption.bind Loaded.obj =
      some ExL.oldObj ∧
    (lazyRun (ExL.Lp x false) 5 ExL.oldObj [.get "net", .get "opt", .get "net"]).1 =
      [some (.error .runtimeError), some (.ok (.ser "Opt" (.int 8))), some (.error .runtimeError)] ∧
    (lazyRun (ExL.Lp x true) 5 ExL.oldObj [.get "net", .get "opt"]).1 =
      [some (.ok (.ser "Net" x)), some (.ok (.ser "Opt" (.int 8)))] ∧
    (∃ e, dget ExL.oldObj.unloaded "net" = some e ∧ e.pickle = true) ∧
    ∀ y, SameButPickles (ExL.Lp x false).disk (ExL.Lp y false).disk ExL.oldObj := by
  refine ⟨rfl, rfl, rfl, ⟨_, rfl, rfl⟩, ?_⟩
  intro y k e he
  simp only [ExL.oldObj, dget] at he
  split at he
  · cases he; simp [ExL.Lp]
  · split at he
    · cases he; simp [ExL.Lp]
    · exact (nomatch he)

end HS
