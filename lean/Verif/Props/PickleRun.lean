import Verif.Props.Pickle
import Verif.Props.Life
/-!
# C91: a run that starts from pickled fields
-/
namespace HS

/-! ## without the permission -/

section
variable {L : LEnv} {k : String} {e : LazyEntry}

/-- a pickled field stays unread -/
theorem lazyGet_pickled (hp : L.pickleOk = false) (hl : L.isLazy = true) (hk : e.pickle = true) (fuel : Nat) (o : LObj) (n : String)
    (he : dget o.unloaded k = some e) : dget (lazyGet L fuel o n).obj.unloaded k = some e := by
  have h := (C62_refused L hp hl fuel o [.get n] k e he hk).1
  simp only [lazyRun, lazyStep, List.append_nil] at h
  rw [(lazyGet_ext L fuel o n).unl k h]
  exact he

theorem readAll_pickled (hp : L.pickleOk = false) (hl : L.isLazy = true) (hk : e.pickle = true) (fuel : Nat) :
    ∀ (ns : List String) (o : LObj), dget o.unloaded k = some e → dget (readAll (lazyGet L fuel) o ns).obj.unloaded k = some e := by
  intro ns
  induction ns with
  | nil => intro o he; exact he
  | cons n ns ih =>
    intro o he
    simp only [readAll]
    split
    · exact lazyGet_pickled hp hl hk fuel o n he
    · exact ih _ (lazyGet_pickled hp hl hk fuel o n he)

/-- the fields can not be read when one of them is pickled -/
theorem readAll_raises (hp : L.pickleOk = false) (hl : L.isLazy = true) (hk : e.pickle = true) (fuel : Nat) (ns : List String) (o : LObj)
    (he : dget o.unloaded k = some e) (hn : k ∈ ns) (vs : List Val) : (readAll (lazyGet L fuel) o ns).res ≠ .ok vs := by
  intro h
  obtain ⟨h1, _, h2⟩ := readAll_settled L fuel ns o vs h
  have : k ∈ (ns.zip vs).map Prod.fst := by rw [List.map_fst_zip (by omega)]; exact hn
  obtain ⟨⟨k', x⟩, hm, hk'⟩ := List.mem_map.1 this
  simp only at hk'
  subst hk'
  have := (h2 _ _ hm).2 hl
  rw [readAll_pickled hp hl hk fuel ns o he] at this
  exact (nomatch this)
end

/-- `k` is a pickled field of the state that is read from the files `f` -/
structure Pickled (E : MgrEnv) (f : Files) (k : String) : Prop where
  refused : E.pickleOk = false
  isLazy : E.stLazy = true
  field : k ∈ E.stTy.fieldNames
  loads : ∃ o e, loadStateObj E f.state = .ok o ∧ dget o.unloaded k = some e ∧ e.pickle = true

/-- a StateManager opened on the directory `d0` takes the state from the files `f` -/
def FilesFrom (E : MgrEnv) (d0 : Dir Files) (f : Files) : Prop :=
  (∃ n, (Mgr.new E d0).last = some n ∧ dget d0 n = some (.full f)) ∨ ((Mgr.new E d0).last = none ∧ E.init = .dir f)

/-- the field has not been read, and the directory has no new checkpoints -/
structure Stuck (E : MgrEnv) (d0 : Dir Files) (k : String) (e : LazyEntry) (m : Mgr) : Prop where
  unread : ∀ o, m.state = some o → dget o.unloaded k = some e
  start : m.state = none → m.disk = d0 ∧ m.last = (Mgr.new E d0).last
  files : ∀ n x, dget m.disk n = some x → dget d0 n = some x

section
variable {E : MgrEnv} {d0 : Dir Files} {f : Files} {k : String} {e : LazyEntry} {o0 : LObj}

theorem stuck_config : Trip (Stuck E d0 k e) (configX E) (fun c m => Stuck E d0 k e m ∧ m.config = some c) (Stuck E d0 k e) :=
  configX_keeps fun _ _ _ h _ => ⟨h.unread, h.start, h.files⟩

theorem stuck_apply (o : LObj) : Trip (Stuck E d0 k e) (applyX E o) (fun _ => Stuck E d0 k e) (Stuck E d0 k e) :=
  applyX_keeps stuck_config (fun _ _ h _ => ⟨h.unread, h.start, h.files⟩) o

theorem stuck_load (hsrc : FilesFrom E d0 f) (hload : loadStateObj E f.state = .ok o0) :
    Trip (fun m => Stuck E d0 k e m ∧ m.state = none) (loadStateX E)
      (fun q m => (Stuck E d0 k e m ∧ m.state = none) ∧ q.1 = o0) (Stuck E d0 k e) := by
  have hc : Trip (fun m => Stuck E d0 k e m ∧ m.state = none) (configX E)
      (fun _ m => Stuck E d0 k e m ∧ m.state = none) (Stuck E d0 k e) :=
    (configX_keeps (P := fun m => Stuck E d0 k e m ∧ m.state = none) fun _ _ _ h _ => ⟨⟨h.1.unread, h.1.start, h.1.files⟩, h.2⟩).weaken
      (fun _ h => h) (fun _ _ h => h.1) (fun _ h => h.1)
  refine Trip.self.bind fun m => ?_
  intro m1 hm
  obtain ⟨rfl, hm⟩ := hm
  obtain ⟨hd, hl⟩ := hm.1.start hm.2
  rcases hsrc with ⟨n, h1, h2⟩ | ⟨h1, h2⟩
  · rw [h1] at hl
    rw [hl]
    refine (hc.bind (S := fun (q : LObj × Src) m => (Stuck E d0 k e m ∧ m.state = none) ∧ q.1 = o0) fun c => ?_) m hm
    intro m2 hm2
    have : ckptFiles m.disk n = .ok f := by simp [ckptFiles, hd, h2]
    simp only [Call.bind_eq, Call.lift_eq, this, hload, Call.pure_eq]
    exact ⟨hm2, trivial⟩
  · rw [h1] at hl
    rw [hl, h2]
    refine (hc.bind (S := fun (q : LObj × Src) m => (Stuck E d0 k e m ∧ m.state = none) ∧ q.1 = o0) fun c => ?_) m hm
    intro m2 hm2
    simp only [Call.bind_eq, Call.lift_eq, hload, Call.pure_eq]
    exact ⟨hm2, trivial⟩

theorem stuck_state (hsrc : FilesFrom E d0 f) (hload : loadStateObj E f.state = .ok o0) (he : dget o0.unloaded k = some e) :
    Trip (Stuck E d0 k e) (stateX E) (fun o m => Stuck E d0 k e m ∧ m.state = some o) (Stuck E d0 k e) := by
  refine Trip.self.bind fun m => ?_
  split
  · rename_i o ho
    refine Trip.pure ?_
    rintro m' ⟨rfl, h⟩
    exact ⟨h, ho⟩
  · rename_i hn
    refine ((stuck_load hsrc hload).weaken (by rintro m' ⟨rfl, h⟩; exact ⟨h, hn⟩) (fun _ _ h => h) (fun _ h => h)).bind fun q => ?_
    refine (Trip.modify (Q := fun _ m => Stuck E d0 k e m ∧ m.state = some q.1) ?_).bind fun _ => ?_
    · rintro m' ⟨⟨h, _⟩, h2⟩
      refine ⟨⟨?_, nofun, h.files⟩, rfl⟩
      intro o ho
      cases ho
      rw [h2]
      exact he
    · exact ((applyX_keeps (P := fun m => Stuck E d0 k e m ∧ m.state = some q.1)
        (configX_keeps fun _ _ _ h _ => ⟨⟨h.1.unread, h.1.start, h.1.files⟩, h.2⟩)
        (fun _ _ h _ => ⟨⟨h.1.unread, h.1.start, h.1.files⟩, h.2⟩) q.1).weaken (fun _ h => h) (fun _ _ h => h) (fun _ h => h.1)).bind
        fun _ => Trip.pure fun _ h => h

theorem stuck_obj (hp : E.pickleOk = false) (hl : E.stLazy = true) (hk : e.pickle = true) :
    ∀ m o o' r, Stuck E d0 k e m → m.state = some o → LExt o o' r → FromReads (m.lenv E) E.depth o o' →
      Stuck E d0 k e { m with state := some o' } := by
  rintro m o o' r h hs _ ⟨ks, rfl⟩
  refine ⟨?_, nofun, h.files⟩
  intro o' ho
  cases ho
  exact readAll_pickled hp hl hk _ ks o (h.unread o hs)

/-- removing the old checkpoint adds nothing -/
theorem removeOps_sub {P : Type} (mv : Move) (l : String) (d : Dir P) (n : String) (x : Ent P)
    (h : dget (runOps d (removeOps mv l)) n = some x) : dget d n = some x := by
  by_cases hn : l = n
  · subst hn
    exfalso
    simp only [removeOps] at h
    split at h <;> simp [runOps, Op.run] at h
  · simp only [removeOps] at h
    split at h
    · simp only [runOps, List.foldl, Op.run] at h
      rw [dget_ddel_ne _ hn, dget_dset_ne _ _ hn] at h
      exact h
    · simp only [runOps, List.foldl, Op.run] at h
      rw [dget_ddel_ne _ hn] at h
      exact h

theorem stuck_dump (hp : E.pickleOk = false) (hl : E.stLazy = true) (hk : e.pickle = true) (hf : k ∈ E.stTy.fieldNames) (c : Val)
    (o : LObj) : Trip (fun m => Stuck E d0 k e m ∧ m.state = some o) (dumpX E c o) (fun _ _ => False) (Stuck E d0 k e) := by
  refine Trip.self.bind fun m => (Trip.lift fun m h => h.2.1).bind fun q => ?_
  intro m' hm'
  obtain ⟨rfl, h, hs⟩ := hm'
  simp only [Call.bind_eq, Call.modify_eq, Call.lift_eq]
  cases hr : (readAll (lazyGet (m.lenv E) E.depth) o E.stTy.fieldNames).res with
  | ok vs => exact (readAll_raises (L := m.lenv E) hp hl hk E.depth _ o (h.unread o hs) hf vs hr).elim
  | error er => exact stuck_obj hp hl hk m o _ _ h hs (readAll_ext (fun o n => lazyGet_ext _ _ o n) _ _) ⟨_, rfl⟩

theorem stuck_checkpoint (hp : E.pickleOk = false) (hl : E.stLazy = true) (hk : e.pickle = true) (hf : k ∈ E.stTy.fieldNames)
    (hs : Trip (Stuck E d0 k e) (stateX E) (fun o m => Stuck E d0 k e m ∧ m.state = some o) (Stuck E d0 k e)) :
    Trip (Stuck E d0 k e) (checkpointX E) (fun _ _ => False) (Stuck E d0 k e) := by
  refine stuck_config.bind fun c => Trip.self.bind fun m => (Trip.lift fun m h => h.2.1).bind fun q => ?_
  refine (hs.weaken (fun m h => h.2.1) (fun _ m h => h) (fun m h => h)).bind fun o => Trip.self.bind fun m => ?_
  intro m' hm'
  obtain ⟨rfl, h, hs⟩ := hm'
  simp only [Call.bind_eq, Call.modify_eq, Call.lift_eq]
  cases hr : (readAll (lazyGet (m.lenv E) E.depth) o E.stTy.fieldNames).res with
  | ok vs => exact (readAll_raises (L := m.lenv E) hp hl hk E.depth _ o (h.unread o hs) hf vs hr).elim
  | error er => exact stuck_obj hp hl hk m o _ _ h hs (readAll_ext (fun o n => lazyGet_ext _ _ o n) _ _) ⟨_, rfl⟩

theorem stuck_step (hp : E.pickleOk = false) (hl : E.stLazy = true) (hk : e.pickle = true) (hf : k ∈ E.stTy.fieldNames)
    (hs : Trip (Stuck E d0 k e) (stateX E) (fun o m => Stuck E d0 k e m ∧ m.state = some o) (Stuck E d0 k e)) (mv : Move) :
    Trip (Stuck E d0 k e) (stepX E mv)
      (fun _ m => Stuck E d0 k e m ∧ (E.ckpt = true → ∃ val, dhas d0 (ckptName E.key val) = true)) (Stuck E d0 k e) := by
  refine (hs.weaken (fun m h => h) (fun _ m h => h.1) (fun _ h => h)).bind fun o => ?_
  refine (stuck_apply o).bind fun _ => ?_
  refine Trip.ite (fun _ => ?_) (fun hck => Trip.pure fun m h => ⟨h, fun hc => by rw [hck] at hc; exact (nomatch hc)⟩)
  refine (getStateX_keeps hs (stuck_obj hp hl hk) E.key).bind fun kv => ?_
  refine (Trip.lift fun _ h => h).bind fun val => ?_
  refine hs.bind fun o => ?_
  have hc' : Trip (fun m => Stuck E d0 k e m ∧ m.state = some o) (configX E) (fun _ m => Stuck E d0 k e m ∧ m.state = some o)
      (Stuck E d0 k e) :=
    (configX_keeps (P := fun m => Stuck E d0 k e m ∧ m.state = some o) fun _ _ _ h _ => ⟨⟨h.1.unread, h.1.start, h.1.files⟩, h.2⟩).weaken
      (fun _ h => h) (fun _ _ h => h.1) (fun _ h => h.1)
  refine hc'.bind fun c => Trip.self.bind fun m => ?_
  refine (Trip.ite (Q := fun _ m' => m' = m ∧ Stuck E d0 k e m ∧ m.state = some o ∧ dhas m.disk (ckptName E.key val) = true)
    (fun hh => Trip.pure ?_) (fun _ => ?_)).bind fun files => ?_
  · rintro m' ⟨rfl, h, h2⟩; exact ⟨rfl, h, h2, hh⟩
  · intro m' hm'
    obtain ⟨rfl, h⟩ := hm'
    have := stuck_dump hp hl hk hf c o m h
    split at this
    · exact this.elim
    · exact this
  · intro m' hm'
    obtain ⟨rfl, h, h2, hh⟩ := hm'
    have hd0 : dhas d0 (ckptName E.key val) = true := by
      simp only [dhas] at hh ⊢
      obtain ⟨x, hx⟩ := Option.isSome_iff_exists.1 hh
      rw [h.files _ _ hx]
      rfl
    have hn : ∀ l d, Stuck E d0 k e m' → (∀ n x, dget d n = some x → dget d0 n = some x) →
        Stuck E d0 k e { m' with disk := d, last := l } := by
      intro l d h hd
      exact ⟨h.unread, fun hn => by simp only at hn; rw [h2] at hn; exact (nomatch hn), hd⟩
    simp only [stepOps, hh, if_true]
    cases hlast : m'.last with
    | none =>
      simp only [Call.modify_eq]
      exact ⟨hn _ _ h h.files, fun _ => ⟨val, hd0⟩⟩
    | some l =>
      simp only
      by_cases hx : dhas (runOps m'.disk []) l = true
      · simp only [hx, if_true]
        exact ⟨hn _ _ h fun n x hx => h.files n x (removeOps_sub mv l _ n x hx), fun _ => ⟨val, hd0⟩⟩
      · simp only [hx, Bool.false_eq_true, if_false]
        exact ⟨h.unread, fun hn => by simp only at hn; rw [h2] at hn; exact (nomatch hn), h.files⟩

/-- what one operation does -/
theorem stuck_exec (h : Pickled E f k) (hsrc : FilesFrom E d0 f) (hload : loadStateObj E f.state = .ok o0)
    (he : dget o0.unloaded k = some e) (hk : e.pickle = true) {m : Mgr} (hm : Stuck E d0 k e m) (op : MOp) :
    Stuck E d0 k e (m.execX E op).2 ∧
    (op = .checkpoint → ∃ er, (m.execX E op).1 = .error er) ∧
    ((∃ mv, op = .step mv) → E.ckpt = true → (∀ val, dhas d0 (ckptName E.key val) = false) → ∃ er, (m.execX E op).1 = .error er) := by
  have hs := stuck_state (d0 := d0) hsrc hload he
  have ho := stuck_obj (E := E) (d0 := d0) (k := k) h.refused h.isLazy hk
  cases op with
  | readConfig =>
    exact ⟨(stuck_config.bind fun _ => Trip.pure (Q := fun _ => Stuck E d0 k e) fun _ h => h.1).both (fun _ _ h => h) hm, nofun, nofun⟩
  | getState j =>
    exact ⟨((getStateX_keeps hs ho j).bind fun _ => Trip.pure (Q := fun _ => Stuck E d0 k e) fun _ h => h).both (fun _ _ h => h) hm,
      nofun, nofun⟩
  | setState j v =>
    refine ⟨(hs.bind fun o => Trip.modify (Q := fun _ => Stuck E d0 k e)
      (f := fun m => { m with state := some (lazySet o j v) }) ?_).both (fun _ _ h => h) hm, nofun, nofun⟩
    rintro m' ⟨h, h2⟩
    refine ⟨?_, nofun, h.files⟩
    intro o' ho'
    cases ho'
    exact h.unread o h2
  | configDict =>
    exact ⟨((configDictX_keeps stuck_config).bind fun _ => Trip.pure (Q := fun _ => Stuck E d0 k e) fun _ h => h).both
      (fun _ _ h => h) hm, nofun, nofun⟩
  | checkpoint =>
    have ht := (stuck_checkpoint h.refused h.isLazy hk h.field hs) m hm
    simp only [Mgr.execX, Call.bind_eq]
    split at ht
    · exact ht.elim
    · rename_i er m' heq
      exact ⟨ht, fun _ => ⟨er, rfl⟩, nofun⟩
  | step mv =>
    have ht := (stuck_step h.refused h.isLazy hk h.field hs mv) m hm
    simp only [Mgr.execX]
    split at ht
    · rename_i a m' heq
      rw [heq]
      refine ⟨ht.1, nofun, fun _ hc hno => ?_⟩
      obtain ⟨val, hv⟩ := ht.2 hc
      rw [hno val] at hv
      exact (nomatch hv)
    · rename_i er m' heq
      rw [heq]
      exact ⟨ht, nofun, fun _ _ _ => ⟨er, rfl⟩⟩

theorem stuck_new : Stuck E d0 k e (Mgr.new E d0) := ⟨nofun, fun _ => ⟨rfl, rfl⟩, fun _ _ h => h⟩
end

/-- C91: without the permission to read pickles, a StateManager whose state has a pickled field never writes a checkpoint: in any history
of operations, whether or not they raise and whatever is assigned to the field, every call of `checkpoint` raises, and the directory
contains nothing that was not there at the beginning. -/
theorem C91_no_checkpoint (E : MgrEnv) (d0 : Dir Files) (f : Files) (k : String) (h : Pickled E f k) (hsrc : FilesFrom E d0 f)
    (ops : List MOp) :
    (∀ n x, dget ((Mgr.new E d0).runX E ops).2.disk n = some x → dget d0 n = some x) ∧
    (∀ i : Nat, ops[i]? = some .checkpoint → ∃ er, ((Mgr.new E d0).runX E ops).1[i]? = some (.error er)) ∧
    (E.ckpt = true → (∀ val, dhas d0 (ckptName E.key val) = false) →
      ∀ (i : Nat) mv, ops[i]? = some (.step mv) → ∃ er, ((Mgr.new E d0).runX E ops).1[i]? = some (.error er)) := by
  obtain ⟨o, e, h1, h2, h3⟩ := h.loads
  have key : ∀ (ops : List MOp) (m : Mgr), Stuck E d0 k e m →
      Stuck E d0 k e (m.runX E ops).2 ∧ (∀ i : Nat, ops[i]? = some .checkpoint → ∃ er, (m.runX E ops).1[i]? = some (.error er)) ∧
      (E.ckpt = true → (∀ val, dhas d0 (ckptName E.key val) = false) →
        ∀ (i : Nat) mv, ops[i]? = some (.step mv) → ∃ er, (m.runX E ops).1[i]? = some (.error er)) := by
    intro ops
    induction ops with
    | nil => intro m hm; exact ⟨hm, by simp, by simp⟩
    | cons op ops ih =>
      intro m hm
      obtain ⟨g1, g2, g3⟩ := stuck_exec h hsrc h1 h2 h3 hm op
      obtain ⟨i1, i2, i3⟩ := ih _ g1
      refine ⟨i1, ?_, ?_⟩
      · intro i hi
        cases i with
        | zero =>
          simp only [List.getElem?_cons_zero, Option.some.injEq] at hi
          obtain ⟨er, her⟩ := g2 hi
          exact ⟨er, by simp only [Mgr.runX, List.getElem?_cons_zero, her]⟩
        | succ i => simpa only [Mgr.runX, List.getElem?_cons_succ] using i2 i (by simpa using hi)
      · intro hc hno i mv hi
        cases i with
        | zero =>
          simp only [List.getElem?_cons_zero, Option.some.injEq] at hi
          obtain ⟨er, her⟩ := g3 ⟨mv, hi⟩ hc hno
          exact ⟨er, by simp only [Mgr.runX, List.getElem?_cons_zero, her]⟩
        | succ i => simpa only [Mgr.runX, List.getElem?_cons_succ] using i3 hc hno i mv (by simpa using hi)
  obtain ⟨g1, g2, g3⟩ := key ops _ stuck_new
  exact ⟨g1.files, g2, g3⟩

/-! ## with the permission -/

/-- C91 (partial: the conditions of C72): a run that was allowed to read pickles, or not, and was interrupted any number of times: once a
step has returned, a process goes on with what was saved whether or not it may read pickles. -/
theorem C91_migrated_partial {E : MgrEnv} (hE : RunOK E) {d0 : Dir Files} {s : LSys} (h : Life E d0 s) (hs : s.safe.isSome = true)
    (b : Bool) :
    ∃ t o m, (Mgr.new { E with pickleOk := b } s.disk).readState { E with pickleOk := b } = .ok (o, m) ∧
      Holds { E with pickleOk := b } m t.config t.schedules t.state ∧ (s.safe = some t ∨ s.pend = some t) := by
  have hi := life_inv hE h
  obtain ⟨sn, h1, h2, h3⟩ := C72_crash_safe_partial hE h
  cases sn with
  | none =>
    rcases h1 with h1 | ⟨h1, h2⟩
    · rw [← h1] at hs; exact (nomatch hs)
    · rw [← h2] at h1; exact (nomatch h1)
  | some t =>
    have hw : Wrote E t := h1.elim (fun h => hi.safe t h.symm) (fun h => hi.pend t h.2.symm)
    obtain ⟨o, m, g1, g2⟩ := hw.restoreWith b (Mgr.new { E with pickleOk := b } s.disk) rfl rfl (by
      simp only [restored] at h2
      cases hl : openMgr s.disk with
      | none => rw [hl] at h2; exact (nomatch h2)
      | some n =>
        rw [hl] at h2
        simp only [Mgr.new, hE.ckpt, if_true]
        refine ⟨n, hl, ?_⟩
        simp only at h2
        split at h2
        · rename_i p hp
          cases h2
          exact hp
        · exact (nomatch h2))
    exact ⟨t, o, m, g1, g2, h1.elim (fun h => .inl h.symm) (fun h => .inr h.2.symm)⟩

namespace ExPk
open ExM ExLife

/-- files of an old version, in which `net` is pickled -/
def files : Files :=
  ⟨blobFiles.config, .dict [("step", .int 10), ("net", .str "<blob:pickle>")], [("state.net.pickle", .int 7)]⟩

/-- a run that starts from them, with or without the permission to read pickles -/
def env (b : Bool) : MgrEnv := { ExLife.env with init := .dir files, pickleOk := b }

theorem pickled : Pickled (env false) files "net" where
  refused := rfl
  isLazy := rfl
  field := by simp [env, ExLife.env, blobEnv, blobTy, PyTy.fieldNames, Fld.name]
  loads := ⟨⟨"State", [("step", .int 10), ("net", .none)], [("net", ⟨"Net", "state.net.pickle", true⟩)]⟩, _, rfl, rfl, rfl⟩

theorem filesFrom : FilesFrom (env false) [] files := by
  refine .inr ⟨?_, rfl⟩
  have : openMgr ([] : Dir Files) = none := by decide +kernel
  simp [Mgr.new, env, ExLife.env, blobEnv, E, this]

/-- without the permission: the step raises, also after an assignment to the field -/
example : ∃ er, (((Mgr.new (env false) []).runX (env false)
    [.setState "net" (.ser "Net" (.int 8)), .setState "step" (.int 11), .step ⟨.none, false⟩]).1)[2]? = some (.error er) :=
  (C91_no_checkpoint (env false) [] files "net" pickled filesFrom _).2.2 rfl (fun _ => rfl) 2 _ rfl

theorem runOKb (b : Bool) : RunOK (env b) where
  ckpt := rfl
  cls := ⟨blob_class.cfg, blob_class.ty, blob_class.ids, blob_class.decl, blob_class.firm, .nil⟩
  doc := ExLife.runOK.doc
  cfgEnv := ExLife.runOK.cfgEnv
  mat := rfl
  st := ⟨_, _, _, rfl⟩
  stEnv := ExLife.runOK.stEnv
  deser := ExLife.runOK.deser

theorem step10 : (Mgr.new (env true) []).step (env true) ⟨.none, false⟩ = .ok (after 10 "latest-step000000000010" .init) := by
  have h0 : Mgr.new (env true) [] = ⟨.none, [], .none, .init, .none, []⟩ := by
    have : openMgr ([] : Dir Files) = none := by decide +kernel
    simp [Mgr.new, env, ExLife.env, blobEnv, E, this]
  have h1 : (Mgr.new (env true) []).readState (env true) =
      .ok (⟨"State", [("step", .int 10), ("net", .none)], [("net", ⟨"Net", "state.net.pickle", true⟩)]⟩,
        ⟨some (cfgV 10), regd, some ⟨"State", [("step", .int 10), ("net", .none)], [("net", ⟨"Net", "state.net.pickle", true⟩)]⟩,
          .init, .none, []⟩) := by
    rw [h0]
    rfl
  simp only [Mgr.step, h1, bind, Except.bind]
  simp only [Mgr.readState, Mgr.apply, Mgr.readConfig, bind, Except.bind]
  rfl

theorem snap10 : SnapOK (env true) (after 10 "latest-step000000000010" .init) (snap 10) := by
  have h := snapOK 10 (by simp [KeyInRange]) _ name10 .init
  exact ⟨h.config, h.schedules, h.cls, h.names, h.state, h.stFits, h.direct, h.ser.imp (fun ⟨r, h⟩ => ⟨r, h.lazy, h.inv, h.deps, h.rank⟩) id,
    h.key, h.range, h.sv, h.files⟩

/-- a first process with the permission makes one step and ends; the second one needs no permission -/
example : ∃ t o m, (Mgr.new (env false) disk10).readState (env false) = .ok (o, m) ∧
    Holds (env false) m t.config t.schedules t.state ∧ t = snap 10 := by
  have h1 : Life (env true) [] ⟨disk10, some (after 10 "latest-step000000000010" .init), some (snap 10), .none⟩ := by
    refine Life.step (s := ⟨[], some (Mgr.new (env true) []), .none, .none⟩) ⟨.none, false⟩ (snap 10) ?_ rfl step10 snap10 nofun
    exact Life.start (s := ⟨[], .none, .none, .none⟩) .none (.init nofun) (.inl rfl) (by
      have : openMgr ([] : Dir Files) = none := by decide +kernel
      simp [restored, this])
  obtain ⟨t, o, m, g1, g2, g3⟩ := C91_migrated_partial (runOKb true) h1.crash rfl false
  refine ⟨t, o, m, g1, g2, ?_⟩
  rcases g3 with g3 | g3
  · cases g3; rfl
  · exact (nomatch g3)

end ExPk

end HS
