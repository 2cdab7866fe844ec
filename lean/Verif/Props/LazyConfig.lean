import Verif.Proofs.LazyConfig
import Verif.Props.LazyDeps
import Verif.Props.Restore
/-!
# C94: the config that `deserialize` of a lazy field is given
-/
namespace HS

theorem configFrom_at {E : MgrEnv} (dc : DeserC) (c : Val) {disk : Dir Files} {doc : Option Val} :
    ConfigFrom (E.atCfg dc c) disk doc ↔ ConfigFrom E disk doc := by
  constructor
  · rintro (⟨a, b, c⟩ | ⟨a, b⟩ | ⟨a, b⟩ | ⟨a, b⟩)
    · exact .ckpt a b c
    · exact .file a b
    · exact .dir a b
    · exact .absent a b
  · rintro (⟨a, b, c⟩ | ⟨a, b⟩ | ⟨a, b⟩ | ⟨a, b⟩)
    · exact .ckpt a b c
    · exact .file a b
    · exact .dir a b
    · exact .absent a b

theorem runC_good {E : MgrEnv} {dc : DeserC} {disk : Dir Files} {P : Loaded → Val → Prop}
    (hP : ∀ l : Loaded, ∀ doc, ConfigFrom E disk doc → smLoadConfig E.w E.cfgTy doc E.overrides E.ignoreExtra = .ok l → P l l.value)
    (hk : KeptX E P) : ∀ (ops : List MOp) (m : Mgr), Good E disk P m → Good E disk P (m.runC E dc ops).2 := by
  intro ops
  induction ops with
  | nil => intro m h; exact h
  | cons op ops ih =>
    intro m h
    refine ih _ ?_
    rw [execC_at]
    have h' : Good (E.atCfg dc (cfgIn E m op)) disk P m := by
      rcases h with ⟨h1, h2 | ⟨doc, l, c, h2, h3⟩⟩
      · exact ⟨h1, .inl h2⟩
      · exact ⟨h1, .inr ⟨doc, l, c, (configFrom_at dc _).2 h2, h3⟩⟩
    have := execX_good (E := E.atCfg dc (cfgIn E m op)) (disk := disk) (P := P) (fun l doc hd => hP l doc ((configFrom_at dc _).1 hd)) hk h' op
    rcases this with ⟨h1, h2 | ⟨doc, l, c, h2, h3⟩⟩
    · exact ⟨h1, .inl h2⟩
    · exact ⟨h1, .inr ⟨doc, l, c, (configFrom_at dc _).1 h2, h3⟩⟩

theorem new_good (E : MgrEnv) (disk : Dir Files) (P : Loaded → Val → Prop) : Good E disk P (Mgr.new E disk) :=
  ⟨MInv.new E disk, .inl ⟨rfl, rfl, rfl⟩⟩

theorem runC_inv (E : MgrEnv) (dc : DeserC) (disk : Dir Files) (ops : List MOp) : MInv ((Mgr.new E disk).runC E dc ops).2 :=
  (runC_good (P := fun _ _ => True) (fun _ _ _ _ => trivial) (fun _ _ _ _ _ => trivial) ops _ (new_good E disk _)).1

theorem stateX_config {E : MgrEnv} {m m1 : Mgr} {o : LObj} (hI : MInv m) (h : stateX E m = (.ok o, m1)) : ∃ c, m1.config = some c := by
  simp only [stateX, Call.bind_eq, Call.self] at h
  cases hs : m.state with
  | some o' =>
    rw [hs] at h
    cases h
    exact Option.isSome_iff_exists.1 (hI.cfg (by rw [hs]; rfl))
  | none =>
    rw [hs] at h
    simp only [Call.bind_eq] at h
    rcases h1 : loadStateX E m with ⟨r, m2⟩
    rw [h1] at h
    cases r with
    | error e => exact (nomatch h)
    | ok q =>
      simp only [Call.modify] at h
      rcases h2 : applyX E q.1 { m2 with state := some q.1, src := q.2 } with ⟨r3, m3⟩
      rw [h2] at h
      cases r3 with
      | error e => exact (nomatch h)
      | ok u =>
        have hm : m3 = m1 := congrArg Prod.snd h
        exact hm ▸ (applyX_sets h2).2

theorem getStateC_eq {E : MgrEnv} {dc : DeserC} {m m1 : Mgr} {o : LObj} (h : stateX E m = (.ok o, m1)) (k : String) :
    getStateC E dc k m = ((lazyGet (m1.lenvC E dc) E.depth o k).res, { m1 with state := some (lazyGet (m1.lenvC E dc) E.depth o k).obj }) := by
  simp [getStateC, Call.bind_eq, h, Call.self, Call.modify, Call.lift]

/-- C94: an access to a field of the state returns what `deserialize` makes of the file of the field, of the fields it uses and of `c`,
where `c` is what `manager.config` returns at this moment (when the state has been restored: right before and right after the access).
This holds after every history of operations, any of which may have raised. -/
theorem C94_exact (E : MgrEnv) (dc : DeserC) (hl : E.stLazy = true) (disk : Dir Files) (ops : List MOp) (o : LObj) (m1 : Mgr)
    (hs : stateX E ((Mgr.new E disk).runC E dc ops).2 = (.ok o, m1)) (hd : o.unloaded.length < E.depth) :
    ∃ c, configX E m1 = (.ok c, m1) ∧ ∀ k,
      (configX E (getStateC E dc k ((Mgr.new E disk).runC E dc ops).2).2).1 = .ok c ∧
      ∀ v, (getStateC E dc k ((Mgr.new E disk).runC E dc ops).2).1 = .ok v ↔ FieldVal (m1.lenv (E.atCfg dc c)) o k v := by
  obtain ⟨c, hc⟩ := stateX_config (runC_inv E dc disk ops) hs
  refine ⟨c, configX_some hc, fun k => ?_⟩
  rw [getStateC_eq hs k]
  constructor
  · rw [configX_some (m := { m1 with state := some (lazyGet (m1.lenvC E dc) E.depth o k).obj }) (c := c) hc]
  · intro v
    rw [lenvC_at (c := c) (by rw [hc]; rfl)]
    exact C93_exact (m1.lenv (E.atCfg dc c)) hl E.depth o hd [] k v

/-- C94: the values of `c` in fields without schedule are those of the config as it was loaded. -/
theorem C94_config (E : MgrEnv) (dc : DeserC) (disk : Dir Files) (ops : List MOp) (m1 : Mgr) (c : Val)
    (hr : ((Mgr.new E disk).runC E dc ops).2.readConfig E = .ok (c, m1)) :
    ∃ doc l, ConfigFrom E disk doc ∧ smLoadConfig E.w E.cfgTy doc E.overrides E.ignoreExtra = .ok l ∧ m1.schedules = l.schedules ∧
      ∀ segs x, (∀ n kvs, x ≠ .inst n kvs) → (∀ p y, Reg.at (some (.node l.schedules)) p = some y → ¬ p <+: segs) →
        (valAt c segs = some x ↔ valAt l.value segs = some x) := by
  let P : Loaded → Val → Prop := fun l c => ∀ segs x, (∀ n kvs, x ≠ .inst n kvs) →
    (∀ p y, Reg.at (some (.node l.schedules)) p = some y → ¬ p <+: segs) → (valAt c segs = some x ↔ valAt l.value segs = some x)
  have hP : ∀ l : Loaded, ∀ doc, ConfigFrom E disk doc → smLoadConfig E.w E.cfgTy doc E.overrides E.ignoreExtra = .ok l → P l l.value :=
    fun l doc _ _ segs x _ _ => Iff.rfl
  have hk : KeptX E P := by
    intro l c attrs htop hP segs x hx hp
    rw [← hP segs x hx hp]
    exact applyX_frame _ segs _ _ htop x hx hp
  have h := runC_good (dc := dc) hP hk ops _ (new_good E disk P)
  obtain ⟨k1, k2⟩ := h.2.readConfig hP hr
  exact k1.loaded k2

theorem lazyGet_read {L : LEnv} {d : Nat} {o : LObj} {k : String} {v : Val} (hl : L.isLazy = true) (h : (lazyGet L d o k).res = .ok v) :
    dget (lazyGet L d o k).obj.unloaded k = none ∧ dget (lazyGet L d o k).obj.attrs k = some v := by
  cases d with
  | zero => exact (nomatch h)
  | succ d =>
    revert h
    simp only [lazyGet, hl]
    cases hu : dget o.unloaded k with
    | none =>
      simp only [plainGet]
      cases ha : dget o.attrs k with
      | none => intro h; exact (nomatch h)
      | some w => intro h; cases h; exact ⟨hu, ha⟩
    | some e =>
      simp only
      cases L.disk e.file with
      | none => intro h; exact (nomatch h)
      | some p =>
        simp only
        split
        · intro h; exact (nomatch h)
        · cases (readAll (lazyGet L d) o (L.deps e.cls)).res with
          | error er => intro h; exact (nomatch h)
          | ok vs =>
            simp only
            cases L.deser e.cls p vs with
            | error er => intro h; exact (nomatch h)
            | ok w =>
              simp only
              split
              · intro h; cases h; simp
              · intro h; exact (nomatch h)

/-- the field has been read, and its value is `v` -/
def ReadAs (k : String) (v : Val) (m : Mgr) : Prop := ∃ o, m.state = some o ∧ dget o.unloaded k = none ∧ dget o.attrs k = some v

theorem readAs_exec {E : MgrEnv} {dc : DeserC} {k : String} {v : Val} {m : Mgr} (h : ReadAs k v m) (op : MOp) (hop : ∀ w, op ≠ .setState k w) :
    ReadAs k v (m.execC E dc op).2 := by
  obtain ⟨o, hs, hu, ha⟩ := h
  by_cases hset : ∃ k' w, op = .setState k' w
  · obtain ⟨k', w, rfl⟩ := hset
    have he : (m.execC E dc (.setState k' w)).2 = { m with state := some (lazySet o k' w) } := by
      simp [Mgr.execC, setStateX, Call.bind_eq, stateX_some' hs, Call.modify]
    rw [he]
    refine ⟨_, rfl, hu, ?_⟩
    have : k' ≠ k := fun e => hop w (by rw [e])
    simp only [lazySet]
    rw [dget_dset_ne _ _ this]
    exact ha
  · rw [execC_at]
    obtain ⟨o', h1, _, h3⟩ := C71_state (E.atCfg dc (cfgIn E m op)) m o hs op (.inl fun k' w e => hset ⟨k', w, e⟩)
    exact ⟨o', h1, (h3 k hu).2, (h3 k hu).1.trans ha⟩

theorem readAs_run {E : MgrEnv} {dc : DeserC} {k : String} {v : Val} : ∀ (ops : List MOp) {m : Mgr}, ReadAs k v m →
    (∀ w, MOp.setState k w ∉ ops) → ReadAs k v (m.runC E dc ops).2 := by
  intro ops
  induction ops with
  | nil => intro m h _; exact h
  | cons op ops ih =>
    intro m h hop
    exact ih (readAs_exec h op fun w e => hop w (e ▸ List.mem_cons_self)) fun w hm => hop w (List.mem_cons_of_mem _ hm)

/-- C94: once a field has been read its value does not depend on the config any more: whatever happens later (steps that change the
config, exceptions), unless the field is assigned, an access returns the same value. -/
theorem C94_once (E : MgrEnv) (dc : DeserC) (hl : E.stLazy = true) (m : Mgr) (k : String) (v : Val) (hv : (getStateC E dc k m).1 = .ok v)
    (ops : List MOp) (hop : ∀ w, MOp.setState k w ∉ ops) : (getStateC E dc k ((getStateC E dc k m).2.runC E dc ops).2).1 = .ok v := by
  have hd : E.depth ≠ 0 ∧ ReadAs k v (getStateC E dc k m).2 := by
    rcases hs : stateX E m with ⟨r, m1⟩
    cases r with
    | error e => simp [getStateC, Call.bind_eq, hs] at hv
    | ok o =>
      rw [getStateC_eq hs k] at hv ⊢
      refine ⟨fun h0 => ?_, _, rfl, lazyGet_read (L := m1.lenvC E dc) hl hv⟩
      rw [h0] at hv
      exact (nomatch hv)
  obtain ⟨hd, hh⟩ := hd
  obtain ⟨o, hs, hu, ha⟩ := readAs_run (E := E) (dc := dc) ops hh hop
  rw [getStateC_eq (stateX_some' hs) k]
  obtain ⟨d, hd'⟩ := Nat.exists_eq_succ_of_ne_zero hd
  rw [hd']
  have hL : (((getStateC E dc k m).2.runC E dc ops).2.lenvC E dc).isLazy = true := hl
  simp only [lazyGet, hL, hu, plainGet, ha]

/-! ## an example -/

namespace ExLC
/-- `deserialize` keeps the learning rate of the config that it is given beside the stored weights -/
def dc : DeserC := fun c cls p _ => .ok (.ser cls (.list [p, (valAt c ["opt", "lr"]).getD .none]))
def netV (lr : Int) : Val := .ser "Net" (.list [.int 7, .int lr])
def ops : List MOp := [.setState "step" (.int 20), .step ⟨.none, false⟩]

theorem new_eq : Mgr.new ExM.blobEnv ExM.blobDisk = ⟨.none, [], .none, .init, some "latest-step000000000010", ExM.blobDisk⟩ := by
  have : openMgr ExM.blobDisk = some "latest-step000000000010" := by decide +kernel
  simp [Mgr.new, ExM.blobEnv, ExM.E, this]

theorem restored : stateX ExM.blobEnv (Mgr.new ExM.blobEnv ExM.blobDisk) = (.ok ExM.unread, ExM.restoredMgr) := by
  rw [new_eq]
  rfl

/-- the payload of the file of `net` in the newest checkpoint -/
def saved (m : Mgr) : Option Val :=
  match m.last.bind (dget m.disk ·) with
  | some (.full f) => dget f.blobs "state.net.msgpack"
  | _ => .none

theorem late : (getStateC ExM.blobEnv dc "net" ((Mgr.new ExM.blobEnv ExM.blobDisk).runC ExM.blobEnv dc ops).2).1 = .ok (netV 20) := by
  rw [new_eq]
  rfl

theorem early : (getStateC ExM.blobEnv dc "net" ((Mgr.new ExM.blobEnv ExM.blobDisk).runC ExM.blobEnv dc (.getState "net" :: ops)).2).1 =
    .ok (netV 10) := by
  rw [new_eq]
  rfl

theorem late_saved : saved ((Mgr.new ExM.blobEnv ExM.blobDisk).runC ExM.blobEnv dc ops).2 = some (.list [.int 7, .int 20]) := by
  rw [new_eq]
  rfl

theorem early_saved : saved ((Mgr.new ExM.blobEnv ExM.blobDisk).runC ExM.blobEnv dc (.getState "net" :: ops)).2 =
    some (.list [.int 7, .int 10]) := by
  rw [new_eq]
  rfl

theorem late_last : ((Mgr.new ExM.blobEnv ExM.blobDisk).runC ExM.blobEnv dc ops).2.last = some "latest-step000000000020" := by
  rw [new_eq]
  rfl

theorem early_last : ((Mgr.new ExM.blobEnv ExM.blobDisk).runC ExM.blobEnv dc (.getState "net" :: ops)).2.last =
    some "latest-step000000000020" := by
  rw [new_eq]
  rfl

theorem late_ok : ((Mgr.new ExM.blobEnv ExM.blobDisk).runC ExM.blobEnv dc ops).1 = [.ok (), .ok ()] := by
  rw [new_eq]
  rfl

theorem early_ok : ((Mgr.new ExM.blobEnv ExM.blobDisk).runC ExM.blobEnv dc (.getState "net" :: ops)).1 = [.ok (), .ok (), .ok ()] := by
  rw [new_eq]
  rfl

/-- C94_exact applies, at the start and after a read -/
example : ∃ c, configX ExM.blobEnv ExM.restoredMgr = (.ok c, ExM.restoredMgr) ∧
    (getStateC ExM.blobEnv dc "net" (Mgr.new ExM.blobEnv ExM.blobDisk)).1 = .ok (netV 10) := by
  obtain ⟨c, hc, h⟩ := C94_exact ExM.blobEnv dc rfl ExM.blobDisk [] ExM.unread ExM.restoredMgr restored (by decide)
  refine ⟨c, hc, ((h "net").2 _).2 ⟨1, ?_⟩⟩
  have : c = ExM.cfgV 10 := by
    have := congrArg Prod.fst hc
    cases this
    rfl
  subst this
  rfl

/-- C94_once applies: the step changes the config, not the field -/
example : (getStateC ExM.blobEnv dc "net" ((getStateC ExM.blobEnv dc "net" ExM.restoredMgr).2.runC ExM.blobEnv dc ops).2).1 = .ok (netV 10) :=
  C94_once ExM.blobEnv dc rfl ExM.restoredMgr "net" (netV 10) rfl ops (by simp [ops])

end ExLC

/-- C94: what a lazy field holds depends on when it is read first, and so does what the next checkpoint stores: with and without a read
before the same assignment and step, which all succeed, both the values of the field and the saved files differ. -/
theorem C94_when_false : ∃ (E : MgrEnv) (dc : DeserC) (disk : Dir Files) (k : String) (ops : List MOp) (v v' : Val),
    (∀ w, MOp.setState k w ∉ ops) ∧
    (∀ r ∈ ((Mgr.new E disk).runC E dc ops).1, r = .ok ()) ∧ (∀ r ∈ ((Mgr.new E disk).runC E dc (.getState k :: ops)).1, r = .ok ()) ∧
    (getStateC E dc k ((Mgr.new E disk).runC E dc ops).2).1 = .ok v ∧
    (getStateC E dc k ((Mgr.new E disk).runC E dc (.getState k :: ops)).2).1 = .ok v' ∧ v ≠ v' ∧
    ((Mgr.new E disk).runC E dc ops).2.last = ((Mgr.new E disk).runC E dc (.getState k :: ops)).2.last ∧
    ((Mgr.new E disk).runC E dc ops).2.disk ≠ ((Mgr.new E disk).runC E dc (.getState k :: ops)).2.disk := by
  refine ⟨ExM.blobEnv, ExLC.dc, ExM.blobDisk, "net", ExLC.ops, ExLC.netV 20, ExLC.netV 10, by simp [ExLC.ops], ?_, ?_, ExLC.late, ExLC.early,
    by simp [ExLC.netV], ExLC.late_last.trans ExLC.early_last.symm, ?_⟩
  · rw [ExLC.late_ok]; simp
  · rw [ExLC.early_ok]; simp
  · intro h
    have h1 := ExLC.late_saved
    rw [ExLC.saved, ExLC.late_last, h, ← ExLC.early_last, ← ExLC.saved, ExLC.early_saved] at h1
    simp at h1

end HS
