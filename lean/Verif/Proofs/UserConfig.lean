import Verif.Model.UserConfig
import Verif.Proofs.ManagerExc
/-!
# Lemmas on assignments to the config
-/
namespace HS

/-! ## what an assignment changes -/

theorem setAttrAt_get {v : Val} : ∀ {path : List String} {c c' : Val}, setAttrAt v path c = .ok c' → valAt c' path = some v := by
  intro path
  induction path with
  | nil => intro c c' h; exact (nomatch h)
  | cons k ks ih =>
    intro c c' h
    cases ks with
    | nil =>
      obtain ⟨n, kvs, rfl, rfl⟩ := setAttr_inst h
      simp [valAt]
    | cons k' ks =>
      simp only [setAttrAt, bind, Except.bind] at h
      cases h1 : getAttr k c with
      | error e => rw [h1] at h; exact (nomatch h)
      | ok c1 =>
        rw [h1] at h
        simp only at h
        cases h2 : setAttrAt v (k' :: ks) c1 with
        | error e => rw [h2] at h; exact (nomatch h)
        | ok c2 =>
          rw [h2] at h
          obtain ⟨n, kvs, rfl, rfl⟩ := setAttr_inst h
          simp only [valAt, dget_dset_self]
          exact ih h2

/-- nothing else changes -/
theorem setAttrAt_apart {v : Val} : ∀ {path : List String} {c c' : Val}, setAttrAt v path c = .ok c' →
    ∀ segs : List String, ¬ path <+: segs → ¬ segs <+: path → valAt c' segs = valAt c segs := by
  intro path
  induction path with
  | nil => intro c c' h; exact (nomatch h)
  | cons k ks ih =>
    intro c c' h segs hp hq
    cases segs with
    | nil => exact absurd (List.nil_prefix) hq
    | cons s ss =>
      cases ks with
      | nil =>
        obtain ⟨n, kvs, rfl, rfl⟩ := setAttr_inst h
        have hne : k ≠ s := by
          rintro rfl
          exact hp (List.cons_prefix_cons.2 ⟨rfl, List.nil_prefix⟩)
        simp only [valAt, dget_dset_ne _ _ hne]
      | cons k' ks =>
        simp only [setAttrAt, bind, Except.bind] at h
        cases h1 : getAttr k c with
        | error e => rw [h1] at h; exact (nomatch h)
        | ok c1 =>
          rw [h1] at h
          simp only at h
          cases h2 : setAttrAt v (k' :: ks) c1 with
          | error e => rw [h2] at h; exact (nomatch h)
          | ok c2 =>
            rw [h2] at h
            obtain ⟨n, kvs, rfl, rfl⟩ := setAttr_inst h
            by_cases hks : k = s
            · subst hks
              obtain ⟨n', kvs', he, hg⟩ := getAttr_inst h1
              cases he
              simp only [valAt, dget_dset_self, hg]
              exact ih h2 ss (fun hh => hp (List.cons_prefix_cons.2 ⟨rfl, hh⟩)) (fun hh => hq (List.cons_prefix_cons.2 ⟨rfl, hh⟩))
            · simp only [valAt, dget_dset_ne _ _ hks]

/-- below a value that is no object nothing can be assigned -/
theorem setAttrAt_below {v x : Val} (hx : ∀ n kvs, x ≠ .inst n kvs) : ∀ {segs path : List String} {c : Val}, valAt c segs = some x →
    segs <+: path → segs ≠ path → ∃ e, setAttrAt v path c = .error e := by
  intro segs
  induction segs with
  | nil =>
    intro path c h _ hne
    simp only [valAt, Option.some.injEq] at h
    subst h
    cases path with
    | nil => exact absurd rfl hne
    | cons k ks =>
      cases ks with
      | nil =>
        cases c with
        | inst n kvs => exact absurd rfl (hx n kvs)
        | _ => exact ⟨_, rfl⟩
      | cons k' ks =>
        cases c with
        | inst n kvs => exact absurd rfl (hx n kvs)
        | _ => exact ⟨_, rfl⟩
  | cons s ss ih =>
    intro path c h hp hne
    cases path with
    | nil => simp at hp
    | cons k ks =>
      obtain ⟨rfl, hpre⟩ := List.cons_prefix_cons.1 hp
      have hks : ss ≠ ks := fun he => hne (by rw [he])
      cases ks with
      | nil =>
        have := List.prefix_nil.1 hpre
        exact absurd this hks
      | cons k' ks =>
        cases c with
        | inst n kvs =>
          simp only [valAt] at h
          cases hd : dget kvs s with
          | none => rw [hd] at h; exact (nomatch h)
          | some y =>
            rw [hd] at h
            obtain ⟨e, he⟩ := ih h hpre hks
            exact ⟨e, by simp only [setAttrAt, getAttr, hd, bind, Except.bind, he]⟩
        | _ => exact (nomatch h)

/-! ## a property of the config that applying the schedules keeps -/

section
variable {E : MgrEnv} {P : Mgr → Prop}

/-- `P` says something of a manager that has read its config, and is kept by all that the operations do: applying the schedules,
also half-way; assigning to the state; writing checkpoints -/
structure KeptU (E : MgrEnv) (P : Mgr → Prop) : Prop where
  read : ∀ m, P m → m.config.isSome = true
  apply : ∀ m c attrs, P m → m.config = some c → P { m with config := some (applyRegDX (E.sv attrs) m.schedules c).2 }
  state : ∀ m o src, P m → P { m with state := some o, src := src }
  disk : ∀ m d l, P m → P { m with disk := d, last := l }

theorem KeptU.obj (h : KeptU E P) (m : Mgr) (o : LObj) (hm : P m) : P { m with state := some o } := h.state m o m.src hm

theorem configX_keptU (h : KeptU E P) : Trip P (configX E) (fun c m => P m ∧ m.config = some c) P :=
  configX_keeps fun m v s hm hn => by
    have := h.read m hm
    rw [hn] at this
    exact (nomatch this)

theorem applyX_keptU (h : KeptU E P) (o : LObj) : Trip P (applyX E o) (fun _ => P) P := by
  refine (configX_keptU h).bind fun c => Trip.self.bind fun m => ?_
  refine (Trip.modify (Q := fun _ => P) ?_).bind fun _ => Trip.lift fun m h => h
  rintro m' ⟨rfl, hm, hs⟩
  exact h.apply _ _ _ hm hs

theorem stateX_keptU (h : KeptU E P) : Trip P (stateX E) (fun o m => P m ∧ m.state = some o) P := by
  refine Trip.self.bind fun m => ?_
  split
  · rename_i o ho
    refine Trip.pure ?_
    rintro m' ⟨rfl, h⟩
    exact ⟨h, ho⟩
  · refine ((loadStateX_keeps (configX_keptU h)).weaken (fun m h => h.2) (fun _ m h => h) (fun m h => h)).bind fun q => ?_
    refine (Trip.modify (Q := fun _ m => P m ∧ m.state = some q.1) fun m hm => ⟨h.state m _ _ hm, rfl⟩).bind fun _ => ?_
    refine Trip.bind (Q := fun _ m => P m ∧ m.state = some q.1) ?_ fun _ => Trip.pure fun m h => h
    -- applying the schedules does not touch the state
    intro m hm
    have h1 := applyX_keptU h q.1 m hm.1
    have h2 : (applyX E q.1 m).2.state = m.state := by
      simp only [applyX, Call.bind_eq, configX]
      cases m.config with
      | some c => rfl
      | none =>
        simp only
        cases m.loadConfig E <;> rfl
    split at h1
    · rename_i a m' he
      rw [he] at h2
      exact ⟨h1, h2.trans hm.2⟩
    · exact h1

theorem stepX_keptU (h : KeptU E P) (mv : Move) : Trip P (stepX E mv) (fun _ => P) P := by
  have ho : ∀ m o o' r, P m → m.state = some o → LExt o o' r → FromReads (m.lenv E) E.depth o o' → P { m with state := some o' } :=
    fun m _ o' _ hm _ _ _ => h.obj m o' hm
  refine ((stateX_keptU h).weaken (fun m h => h) (fun _ m h => h.1) fun m h => h).bind fun o => ?_
  refine (applyX_keptU h o).bind fun _ => Trip.ite (fun _ => ?_) (fun _ => Trip.pure fun m h => h)
  refine (getStateX_keeps (stateX_keptU h) ho E.key).bind fun kv => (Trip.lift fun m h => h).bind fun val => ?_
  refine (stateX_keptU h).bind fun o => ?_
  have hc' : Trip (fun m => P m ∧ m.state = some o) (configX E) (fun _ m => P m ∧ m.state = some o) P := by
    intro m hm
    have := configX_keptU h m hm.1
    have hst : (configX E m).2.state = m.state := by
      simp only [configX]
      split
      · rfl
      · split <;> rfl
    split at this
    · rename_i c m' he
      rw [he] at hst
      exact ⟨this.1, hst.trans hm.2⟩
    · exact this
  refine hc'.bind fun c => Trip.self.bind fun m => ?_
  refine (Trip.ite (Q := fun _ => P) (fun _ => Trip.pure fun m h => h.2.1) (fun _ => ?_)).bind fun files => ?_
  · exact (dumpX_keeps (E := E) ho c o).weaken (fun m h => h.2) (fun _ m h => h) fun m h => h
  split
  · exact Trip.modify fun m hm => h.disk m _ _ hm
  · exact (Trip.modify (Q := fun _ => P) fun m hm => h.disk m _ m.last hm).bind fun _ => fun m h => h

theorem execX_keptU (h : KeptU E P) {m : Mgr} (h0 : P m) (op : MOp) : P (m.execX E op).2 := by
  have ho : ∀ m o o' r, P m → m.state = some o → LExt o o' r → FromReads (m.lenv E) E.depth o o' → P { m with state := some o' } :=
    fun m _ o' _ hm _ _ _ => h.obj m o' hm
  have hc := configX_keptU h
  have hst := stateX_keptU h
  cases op with
  | readConfig => exact (hc.bind fun _ => Trip.pure (Q := fun _ => P) fun _ h => h.1).both (fun _ _ h => h) h0
  | getState k => exact ((getStateX_keeps hst ho k).bind fun _ => Trip.pure (Q := fun _ => P) fun _ h => h).both (fun _ _ h => h) h0
  | setState k v =>
    exact (hst.bind fun o => Trip.modify (Q := fun _ => P)
      (f := fun m => { m with state := some (lazySet o k v) }) fun m hm => h.obj m _ hm.1).both (fun _ _ h => h) h0
  | step mv => exact (stepX_keptU h mv).both (fun _ _ h => h) h0
  | configDict => exact ((configDictX_keeps hc).bind fun _ => Trip.pure (Q := fun _ => P) fun _ h => h).both (fun _ _ h => h) h0
  | checkpoint => exact ((checkpointX_keeps hc hst ho).bind fun _ => Trip.pure (Q := fun _ => P) fun _ h => h).both (fun _ _ h => h) h0
end

/-- assigning to the config once it has been read -/
theorem setConfigX_some {E : MgrEnv} {m : Mgr} {c : Val} (hc : m.config = some c) (path : List String) (v : Val) :
    setConfigX E path v m = match setAttrAt v path c with
      | .ok c' => (.ok (), { m with config := some c' })
      | .error e => (.error e, m) := by
  simp only [setConfigX, Call.bind_eq, configX, hc, Call.lift_eq]
  cases setAttrAt v path c <;> rfl

/-! ## histories with assignments to the config -/

section
variable {E : MgrEnv} {disk : Dir Files} {P : Loaded → Val → Prop}

theorem setConfigX_good (hP : ∀ l : Loaded, ∀ doc, ConfigFrom E disk doc →
      smLoadConfig E.w E.cfgTy doc E.overrides E.ignoreExtra = .ok l → P l l.value) {path : List String} {v : Val}
    (hset : ∀ l c c', P l c → setAttrAt v path c = .ok c' → P l c') {m : Mgr} (h : Good E disk P m) :
    Good E disk P (setConfigX E path v m).2 := by
  have hc := configX_trip hP m h
  simp only [setConfigX, Call.bind_eq]
  split at hc
  · rename_i c m' he
    simp only [Call.lift, Call.modify]
    cases hs : setAttrAt v path c with
    | error e => exact hc.1.good
    | ok c' =>
      obtain ⟨⟨h1, h2, h3⟩, h4⟩ := hc
      obtain ⟨doc, l, a, b, d, e⟩ := h2.loaded h4
      exact ⟨⟨h1.top, fun _ => rfl⟩, .inr ⟨doc, l, c', a, b, d, rfl, hset l c c' e hs⟩⟩
  · exact hc

theorem runU_good (hP : ∀ l : Loaded, ∀ doc, ConfigFrom E disk doc →
      smLoadConfig E.w E.cfgTy doc E.overrides E.ignoreExtra = .ok l → P l l.value) (hk : KeptX E P) :
    ∀ (ops : List UOp) (m : Mgr), (∀ path v, UOp.setConfig path v ∈ ops → ∀ l c c', P l c → setAttrAt v path c = .ok c' → P l c') →
      Good E disk P m → Good E disk P (m.runU E ops).2 := by
  intro ops
  induction ops with
  | nil => intro m _ h; exact h
  | cons op ops ih =>
    intro m hset h
    refine ih _ (fun p v hm => hset p v (List.mem_cons_of_mem _ hm)) ?_
    cases op with
    | op o => exact execX_good hP hk h o
    | setConfig p v => exact setConfigX_good hP (hset p v (List.mem_cons_self ..)) h

theorem runU_inv (E : MgrEnv) (disk : Dir Files) (ops : List UOp) : MInv ((Mgr.new E disk).runU E ops).2 :=
  (runU_good (P := fun _ _ => True) (fun _ _ _ _ => trivial) (fun _ _ _ _ _ => trivial) ops _ (fun _ _ _ _ _ _ _ _ => trivial)
    ⟨MInv.new E disk, .inl ⟨rfl, rfl, rfl⟩⟩).1

theorem config_historyU (hP : ∀ l : Loaded, ∀ doc, ConfigFrom E disk doc →
      smLoadConfig E.w E.cfgTy doc E.overrides E.ignoreExtra = .ok l → P l l.value) (hk : KeptX E P) (ops : List UOp)
    (hset : ∀ path v, UOp.setConfig path v ∈ ops → ∀ l c c', P l c → setAttrAt v path c = .ok c' → P l c')
    {m1 : Mgr} {c : Val} (hr : ((Mgr.new E disk).runU E ops).2.readConfig E = .ok (c, m1)) :
    ∃ doc l, ConfigFrom E disk doc ∧ smLoadConfig E.w E.cfgTy doc E.overrides E.ignoreExtra = .ok l ∧
      m1.schedules = l.schedules ∧ P l c := by
  have h := runU_good hP hk ops _ hset ⟨MInv.new E disk, .inl ⟨rfl, rfl, rfl⟩⟩
  obtain ⟨k1, k2⟩ := h.2.readConfig hP hr
  exact k1.loaded k2

theorem runU_append (E : MgrEnv) : ∀ (a b : List UOp) (m : Mgr), (m.runU E (a ++ b)).2 = ((m.runU E a).2.runU E b).2 := by
  intro a
  induction a with
  | nil => intro b m; rfl
  | cons op a ih => intro b m; exact ih b _

/-- without assignments to the config: the histories of Model/ManagerExc.lean -/
theorem runU_runX (E : MgrEnv) : ∀ (ops : List MOp) (m : Mgr), m.runU E (ops.map .op) = m.runX E ops := by
  intro ops
  induction ops with
  | nil => intro m; rfl
  | cons op ops ih =>
    intro m
    simp only [List.map_cons, Mgr.runU, Mgr.runX, Mgr.execU, ih]
end

end HS
