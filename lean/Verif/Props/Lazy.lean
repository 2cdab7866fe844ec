import Verif.Proofs.Lazy
/-!
# C48, C49: lazily loaded fields
-/
namespace HS

/-! ## C48: loaded on first access, at most once -/

/-- C48: in every history of reads and assignments a field is loaded at most once, only fields that were unread are
loaded, and after its load a field is not unread any more. -/
theorem C48_once (L : LEnv) (depth : Nat) (o : LObj) (ops : List LOp) :
    (loads (lazyRun L depth o ops).2.2).Nodup ∧
    ∀ k ∈ loads (lazyRun L depth o ops).2.2,
      (dget o.unloaded k).isSome = true ∧ dget (lazyRun L depth o ops).2.1.unloaded k = none :=
  ⟨(lazyRun_ext L depth ops o).nodup, (lazyRun_ext L depth ops o).was⟩

/-- C48: once a field has been loaded, no later operation opens its file. -/
theorem C48_never_again (L : LEnv) (depth : Nat) (o : LObj) (pre : List LOp) (op : LOp) (k file : String)
    (h : k ∈ loads (lazyRun L depth o pre).2.2) :
    .opened k file ∉ (lazyStep L depth (lazyRun L depth o pre).2.1 op).2.2 := by
  intro hm
  cases op with
  | set n v => simp [lazyStep] at hm
  | get n =>
    obtain ⟨_, e, he, _⟩ := lazyGet_opens L depth _ n k file hm
    rw [((lazyRun_ext L depth pre o).was k h).2] at he
    exact (nomatch he)

/-- C48: assigning opens no file; reading a field only opens the files of unread fields that the read needs: the field
itself, and the fields that the `deserialize` of such a field reads. Reading a field that is not lazy opens none. -/
theorem C48_opens (L : LEnv) (depth : Nat) (o : LObj) (op : LOp) (k file : String)
    (h : .opened k file ∈ (lazyStep L depth o op).2.2) :
    ∃ n, op = .get n ∧ (dget o.unloaded n).isSome = true ∧ Reach L.deps o n k ∧
      ∃ e, dget o.unloaded k = some e ∧ e.file = file := by
  cases op with
  | set n v => simp [lazyStep] at h
  | get n =>
    obtain ⟨hr, e, he, hf⟩ := lazyGet_opens L depth o n k file h
    refine ⟨n, rfl, ?_, hr, e, he, hf⟩
    cases hr with
    | refl => simp [he]
    | step h1 _ _ => simp [h1]

/-- C48, for `deserialize` methods that do not read the state: reading a field opens at most that field's file. -/
theorem C48_opens_own (L : LEnv) (hd : ∀ c, L.deps c = []) (depth : Nat) (o : LObj) (n k file : String)
    (h : .opened k file ∈ (lazyGet L depth o n).log) : k = n := by
  obtain ⟨hr, _⟩ := lazyGet_opens L depth o n k file h
  cases hr with
  | refl => rfl
  | step h1 h2 _ => rw [hd] at h2; exact absurd h2 (by simp)

/-- C48: a missing (or damaged) file matters only to reads that need it: a read gives the same result, with the same
effects, whatever the files of the other fields contain. -/
theorem C48_missing_file (L : LEnv) (disk' : String → Option Val) (depth : Nat) (o : LObj) (n : String)
    (h : ∀ k e, Reach L.deps o n k → dget o.unloaded k = some e → disk' e.file = L.disk e.file) :
    lazyGet { L with disk := disk' } depth o n = lazyGet L depth o n :=
  lazyGet_frame L disk' depth o n h

/-- C48: a missing file is reported when its field is read, and the field stays unread. -/
theorem C48_missing_reported (L : LEnv) (hl : L.isLazy = true) (depth : Nat) (o : LObj) (n : String) (e : LazyEntry)
    (he : dget o.unloaded n = some e) (hf : L.disk e.file = none) :
    lazyGet L (depth + 1) o n = ⟨.error .fileNotFound, o, []⟩ := by
  simp [lazyGet, hl, he, hf]

namespace ExL

def L : LEnv := { isLazy := true, disk := fun f => if f = "state.net.msgpack" then some (.int 7) else if f = "state.opt.msgpack" then some (.int 8) else none, pickleOk := false, deps := fun c => if c = "Opt" then ["net"] else [], deser := fun c p _ => .ok (.ser c p) }

def o : LObj := ⟨"State", [("step", .int 3), ("net", .none), ("opt", .none), ("ema", .none)],
  [("net", ⟨"Net", "state.net.msgpack", false⟩), ("opt", ⟨"Opt", "state.opt.msgpack", false⟩),
   ("ema", ⟨"Net", "state.ema.msgpack", false⟩)]⟩

/-- reading `opt` reads `net`, too; `ema`'s file is missing, which matters only to the read of `ema` -/
example : (lazyRun L 10 o [.get "step", .get "opt", .get "net", .get "ema"]).2.2 =
      [.opened "opt" "state.opt.msgpack", .opened "net" "state.net.msgpack", .loaded "net", .loaded "opt"] ∧
    (lazyRun L 10 o [.get "step", .get "opt", .get "net", .get "ema"]).1 =
      [some (.ok (.int 3)), some (.ok (.ser "Opt" (.int 8))), some (.ok (.ser "Net" (.int 7))), some (.error .fileNotFound)] := by
  constructor <;> rfl

end ExL

/-! ## C49: like ordinary attributes -/

/-- the last value assigned to a field in a history -/
def lastSet (k : String) : List LOp → Option Val
  | [] => none
  | op :: ops => match lastSet k ops with
    | some v => some v
    | none => match op with
      | .set n v => if n = k then some v else none
      | .get _ => none

/-- what is stored for a field: what `deserialize` makes of its file, the attribute if it is not lazy -/
def stored (L : LEnv) (o : LObj) (k : String) : Option Val :=
  match L.isLazy, dget o.unloaded k with
  | true, some e => match L.disk e.file with
    | some payload => match L.deser e.cls payload [] with
      | .ok v => some v
      | .error _ => none
    | none => none
  | _, _ => dget o.attrs k

theorem lazyGet_stored (L : LEnv) (hd : ∀ c, L.deps c = []) (depth : Nat) (o : LObj) (n : String) :
    (∀ v, (lazyGet L depth o n).res = .ok v → stored L o n = some v) ∧
    ∀ k, stored L (lazyGet L depth o n).obj k = stored L o k := by
  cases depth with
  | zero => simp [lazyGet]
  | succ depth =>
    have hp : (∀ v, (plainGet o n).res = .ok v → dget o.attrs n = some v) ∧ (plainGet o n).obj = o := by
      simp only [plainGet]
      split
      · rename_i v hv; simp [hv]
      · simp
    simp only [lazyGet, stored]
    split
    · rename_i e hl he
      split
      · rename_i hf
        simp [hl]
      · rename_i payload hf
        split
        · simp [hl]
        · simp only [hd, readAll]
          split
          · simp [hl]
          · rename_i v hv
            have hh : dhas o.unloaded n = true := by simp [dhas, he]
            simp only [hh, if_true, Except.ok.injEq]
            refine ⟨by intro v' hv'; subst hv'; simp [hl, he, hf, hv], ?_⟩
            intro k
            by_cases hk : k = n
            · subst hk; simp [hl, he, hf, hv]
            · rw [dget_ddel_ne _ (Ne.symm hk), dget_dset_ne _ _ (Ne.symm hk)]
    · rename_i hx
      refine ⟨?_, ?_⟩
      · intro v hv
        rw [hp.1 v hv]
        split
        · rename_i e hl he; exact absurd he (by intro he; exact hx e hl he)
        · rfl
      · intro k; rw [hp.2]

/-- in every history: what is stored at the end, when a field is assigned only after it has been read -/
theorem lazyRun_stored (L : LEnv) (hd : ∀ c, L.deps c = []) (depth : Nat) (k : String) : ∀ (ops : List LOp) (o : LObj),
    (∀ pre v post, ops = pre ++ .set k v :: post → dget o.unloaded k = none ∨
      ∃ pre1 pre2 x, pre = pre1 ++ .get k :: pre2 ∧
        (lazyGet L depth (lazyRun L depth o pre1).2.1 k).res = .ok x) →
    L.isLazy = true →
    stored L (lazyRun L depth o ops).2.1 k = (lastSet k ops).or (stored L o k) := by
  intro ops
  induction ops with
  | nil => intro o _ _; simp [lazyRun, lastSet]
  | cons op ops ih =>
    intro o h hl
    cases op with
    | get n =>
      have hs := (lazyGet_stored L hd depth o n).2 k
      have := ih (lazyGet L depth o n).obj ?_ hl
      · simp only [lazyRun, lazyStep, lastSet, this, hs]
        cases lastSet k ops <;> simp
      · intro pre v post e
        rcases h (.get n :: pre) v post (by rw [e]; rfl) with h | ⟨pre1, pre2, x, h1, h2⟩
        · left
          have := (lazyGet_ext L depth o n)
          by_cases hm : k ∈ loads (lazyGet L depth o n).log
          · exact (this.was k hm).2
          · rw [this.unl k hm]; exact h
        · cases pre1 with
          | nil =>
            simp only [List.nil_append, List.cons.injEq, LOp.get.injEq] at h1
            obtain ⟨rfl, rfl⟩ := h1
            left
            simp only [lazyRun] at h2
            exact lazyGet_done L hl depth o n x h2
          | cons op' pre1 =>
            simp only [List.cons_append, List.cons.injEq] at h1
            obtain ⟨rfl, rfl⟩ := h1
            right
            exact ⟨pre1, pre2, x, rfl, h2⟩
    | set n v =>
      have := ih (lazySet o n v) ?_ hl
      · simp only [lazyRun, lazyStep, lastSet, this]
        cases hls : lastSet k ops with
        | some w => simp
        | none =>
          simp only [Option.none_or]
          by_cases hn : n = k
          · subst hn
            have hu : dget o.unloaded n = none := by
              rcases h [] v ops rfl with h | ⟨pre1, pre2, x, h1, _⟩
              · exact h
              · simp at h1
            simp [stored, lazySet, hu]
          · simp [stored, lazySet, hn, dget_dset_ne _ _ hn]
      · intro pre w post e
        rcases h (.set n v :: pre) w post (by rw [e]; rfl) with h | ⟨pre1, pre2, x, h1, h2⟩
        · left; exact h
        · cases pre1 with
          | nil => simp at h1
          | cons op' pre1 =>
            simp only [List.cons_append, List.cons.injEq] at h1
            obtain ⟨rfl, rfl⟩ := h1
            right
            exact ⟨pre1, pre2, x, rfl, h2⟩

/-- C49 (partial): a successful read returns the last value assigned, or the stored value if none was assigned, for every
history in which the field is not assigned before it has been read once. Missing: assignments before the first read, for
which the claim is false (C49_false); `deserialize` methods that read the state. -/
theorem C49_partial (L : LEnv) (hl : L.isLazy = true) (hd : ∀ c, L.deps c = []) (depth : Nat) (o : LObj) (k : String)
    (ops : List LOp)
    (h : ∀ pre v post, ops = pre ++ .set k v :: post → dget o.unloaded k = none ∨
      ∃ pre1 pre2 x, pre = pre1 ++ .get k :: pre2 ∧ (lazyGet L depth (lazyRun L depth o pre1).2.1 k).res = .ok x)
    (v : Val) (hv : (lazyGet L depth (lazyRun L depth o ops).2.1 k).res = .ok v) :
    some v = (lastSet k ops).or (stored L o k) := by
  rw [← lazyRun_stored L hd depth k ops o h hl]
  exact ((lazyGet_stored L hd depth _ k).1 v hv).symm

/-- C49 is false: a value assigned to a lazy field before the first read is lost, the read returns the stored value. -/
theorem C49_false : ∃ (L : LEnv) (o : LObj) (v w : Val), L.isLazy = true ∧ (∀ c, L.deps c = []) ∧
    (lazyRun L 10 o [.set "net" v, .get "net"]).1 = [none, some (.ok w)] ∧ w ≠ v ∧
    lastSet "net" [.set "net" v] = some v :=
  ⟨{ ExL.L with deps := fun _ => [] }, ExL.o, .int 1, .ser "Net" (.int 7), rfl, fun _ => rfl, rfl, by simp, rfl⟩

/-- C49: how the value is lost, for every object: an assignment before the first successful read never survives it. -/
theorem C49_lost (L : LEnv) (hl : L.isLazy = true) (hd : ∀ c, L.deps c = []) (depth : Nat) (o : LObj) (k : String) (v w : Val)
    (hu : (dget o.unloaded k).isSome = true) (hw : (lazyGet L depth (lazySet o k v) k).res = .ok w) :
    stored L o k = some w := by
  have h := (lazyGet_stored L hd depth (lazySet o k v) k).1 w hw
  obtain ⟨e, he⟩ := Option.isSome_iff_exists.1 hu
  simpa [stored, lazySet, hl, he] using h

/-- the hypotheses of C49_partial hold in a history with reads before and after an assignment -/
example : ((lazyRun { ExL.L with deps := fun _ => [] } 10 ExL.o [.get "net", .set "net" (.int 1), .get "opt"]).2.1.attrs) =
      [("step", .int 3), ("net", .int 1), ("opt", .ser "Opt" (.int 8)), ("ema", .none)] ∧
    (∀ pre v post, [LOp.get "net", .set "net" (.int 1), .get "opt"] = pre ++ .set "net" v :: post →
      dget ExL.o.unloaded "net" = none ∨
      ∃ pre1 pre2 x, pre = pre1 ++ .get "net" :: pre2 ∧
        (lazyGet { ExL.L with deps := fun _ => [] } 10 (lazyRun { ExL.L with deps := fun _ => [] } 10 ExL.o pre1).2.1 "net").res = .ok x) := by
  refine ⟨rfl, ?_⟩
  intro pre v post e
  right
  match pre, e with
  | [], e => simp at e
  | [a], e =>
    simp only [List.cons_append, List.nil_append, List.cons.injEq] at e
    obtain ⟨rfl, -⟩ := e
    exact ⟨[], [], _, rfl, rfl⟩
  | a :: b :: pre, e =>
    simp only [List.cons_append, List.cons.injEq] at e
    obtain ⟨_, _, e⟩ := e
    cases pre with
    | nil => simp at e
    | cons c pre => cases pre <;> simp at e

/-! ## C49: the exact behaviour -/

/-- what the first read of a field gives: the contents of its file if it is unread (FileNotFoundError if there is none,
RuntimeError for a pickle that is not permitted, whatever `deserialize` raises), the attribute otherwise -/
def firstRead (L : LEnv) (o : LObj) (k : String) : Except Err Val :=
  match dget o.unloaded k with
  | some e => match L.disk e.file with
    | none => .error .fileNotFound
    | some payload => if e.pickle && !L.pickleOk then .error .runtimeError else L.deser e.cls payload []
  | none => match dget o.attrs k with
    | some v => .ok v
    | none => .error .attributeError

/-- the operations after the first read of a field -/
def afterRead (k : String) : List LOp → List LOp
  | [] => []
  | .get n :: ops => if n = k then ops else afterRead k ops
  | .set _ _ :: ops => afterRead k ops

/-- what a read of `k` gives after a history -/
def readsAs (L : LEnv) (o : LObj) (k : String) (ops : List LOp) : Except Err Val :=
  match dget o.unloaded k with
  | none => match lastSet k ops with
    | some v => .ok v
    | none => firstRead L o k
  | some _ => match firstRead L o k with
    | .error e => .error e
    | .ok w => .ok ((lastSet k (afterRead k ops)).getD w)

/-- one read, without recursion: the result is `firstRead`, and afterwards the field is an ordinary attribute with that
value if it succeeded; nothing else changes -/
theorem lazyGet_flat (L : LEnv) (hl : L.isLazy = true) (hd : ∀ c, L.deps c = []) (d : Nat) (o : LObj) (n : String) :
    (lazyGet L (d + 1) o n).res = firstRead L o n ∧
    (∀ k, k ≠ n → dget (lazyGet L (d + 1) o n).obj.unloaded k = dget o.unloaded k ∧
      dget (lazyGet L (d + 1) o n).obj.attrs k = dget o.attrs k) ∧
    (match firstRead L o n with
      | .ok w => dget (lazyGet L (d + 1) o n).obj.unloaded n = none ∧ dget (lazyGet L (d + 1) o n).obj.attrs n = some w
      | .error _ => (lazyGet L (d + 1) o n).obj = o) := by
  simp only [lazyGet, hl, firstRead]
  cases he : dget o.unloaded n with
  | none =>
    simp only [plainGet]
    cases ha : dget o.attrs n with
    | none => simp
    | some v => simp [ha, he]
  | some e =>
    simp only
    cases hf : L.disk e.file with
    | none => simp
    | some payload =>
      simp only
      by_cases hp : (e.pickle && !L.pickleOk) = true
      · simp [hp]
      · simp only [hp, hd, readAll]
        cases hv : L.deser e.cls payload [] with
        | error er => simp
        | ok v =>
          have hh : dhas o.unloaded n = true := by simp [dhas, he]
          simp only [hh, if_true]
          refine ⟨by simp, ?_, ?_⟩
          · intro k hk
            simp [dget_ddel_ne _ (Ne.symm hk), dget_dset_ne _ _ (Ne.symm hk)]
          · simp

theorem readsAs_congr (L : LEnv) (o o' : LObj) (k : String) (ops : List LOp) (h1 : dget o'.unloaded k = dget o.unloaded k)
    (h2 : dget o'.attrs k = dget o.attrs k) : readsAs L o' k ops = readsAs L o k ops := by
  simp only [readsAs, firstRead, h1, h2]

/-- C49, exactly (for `deserialize` methods that do not read the state): after every history of reads and assignments, a read
of a field that was unread at the start fails exactly when its file cannot be loaded, and otherwise returns the last
value assigned after its first read, or the stored value; assignments before the first read have no effect. A read of any
other field returns the last value assigned, or the initial one. -/
theorem C49_exact (L : LEnv) (hl : L.isLazy = true) (hd : ∀ c, L.deps c = []) (d : Nat) (k : String) :
    ∀ (ops : List LOp) (o : LObj), (lazyGet L (d + 1) (lazyRun L (d + 1) o ops).2.1 k).res = readsAs L o k ops := by
  intro ops
  induction ops with
  | nil =>
    intro o
    simp only [lazyRun, (lazyGet_flat L hl hd d o k).1, readsAs, lastSet, afterRead, Option.getD_none]
    cases dget o.unloaded k with
    | none => simp
    | some e => cases firstRead L o k <;> simp
  | cons op ops ih =>
    intro o
    cases op with
    | get n =>
      simp only [lazyRun, lazyStep, ih]
      obtain ⟨-, h2, h3⟩ := lazyGet_flat L hl hd d o n
      by_cases hk : k = n
      · subst hk
        cases hr : firstRead L o k with
        | error e =>
          rw [hr] at h3
          rw [h3]
          simp only [readsAs, hr, lastSet]
          cases dget o.unloaded k with
          | none => cases lastSet k ops <;> simp
          | some _ => simp
        | ok w =>
          rw [hr] at h3
          have h4 : firstRead L (lazyGet L (d + 1) o k).obj k = .ok w := by simp [firstRead, h3.1, h3.2]
          simp only [readsAs, hr, h4, h3.1, lastSet, afterRead, if_true]
          cases dget o.unloaded k with
          | none => cases lastSet k ops <;> simp
          | some _ => cases lastSet k ops <;> simp
      · rw [readsAs_congr L o _ k ops (h2 k hk).1 (h2 k hk).2]
        simp only [readsAs, lastSet, afterRead, if_neg (Ne.symm hk)]
        cases lastSet k ops <;> simp
    | set n v =>
      simp only [lazyRun, lazyStep, ih]
      by_cases hk : n = k
      · subst hk
        simp only [readsAs, lazySet, firstRead, lastSet, afterRead, if_true, dget_dset_self]
        cases dget o.unloaded n with
        | none => cases lastSet n ops <;> simp
        | some e => simp
      · rw [readsAs_congr L o (lazySet o n v) k ops rfl (by simp [lazySet, dget_dset_ne _ _ hk])]
        simp only [readsAs, lastSet, afterRead, if_neg hk]
        cases lastSet k ops <;> simp

/-- `net` is assigned before and after its first read: only the second assignment counts; `ema` has no file -/
example : readsAs { ExL.L with deps := fun _ => [] } ExL.o "net"
      [.set "net" (.int 1), .get "net", .set "net" (.int 2), .get "opt"] = .ok (.int 2) ∧
    readsAs { ExL.L with deps := fun _ => [] } ExL.o "net" [.set "net" (.int 1), .set "step" (.int 2)] = .ok (.ser "Net" (.int 7)) ∧
    readsAs { ExL.L with deps := fun _ => [] } ExL.o "ema" [.get "ema", .set "ema" (.int 2)] = .error .fileNotFound ∧
    readsAs { ExL.L with deps := fun _ => [] } ExL.o "step" [.set "step" (.int 2)] = .ok (.int 2) :=
  ⟨rfl, rfl, rfl, rfl⟩

end HS
