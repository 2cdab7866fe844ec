import Verif.Props.Manager
/-!
# What can happen to the config of a StateManager in a history
-/
namespace HS

/-- a property of the config that is kept by applying schedules -/
def Kept1 (E : MgrEnv) (P : Loaded → Val → Prop) : Prop :=
  ∀ l c c' attrs, TopOK l.schedules → P l c → applyRegD (E.sv attrs) l.schedules c = .ok c' → P l c'

/-- the config is not read yet, or it was loaded and has the property since -/
def HInv (E : MgrEnv) (disk : Dir Files) (P : Loaded → Val → Prop) (m : Mgr) : Prop :=
  (m.config = none ∧ m.last = (Mgr.new E disk).last ∧ m.disk = disk) ∨
  ∃ doc l c, ConfigFrom E disk doc ∧ smLoadConfig E.w E.cfgTy doc E.overrides E.ignoreExtra = .ok l ∧
    m.schedules = l.schedules ∧ m.config = some c ∧ P l c

theorem HInv.loaded {E : MgrEnv} {disk : Dir Files} {P : Loaded → Val → Prop} {m : Mgr} {c : Val} (h : HInv E disk P m)
    (hc : m.config = some c) : ∃ doc l, ConfigFrom E disk doc ∧ smLoadConfig E.w E.cfgTy doc E.overrides E.ignoreExtra = .ok l ∧
    m.schedules = l.schedules ∧ P l c := by
  rcases h with ⟨h, _⟩ | ⟨doc, l, c', h1, h2, h3, h4, h5⟩
  · rw [hc] at h; exact (nomatch h)
  · rw [hc] at h4
    cases h4
    exact ⟨doc, l, h1, h2, h3, h5⟩

/-- only config and schedules matter once the config is loaded -/
theorem HInv.congr {E : MgrEnv} {disk : Dir Files} {P : Loaded → Val → Prop} {m m' : Mgr} {c : Val} (h : HInv E disk P m)
    (h0 : m.config = some c) (h1 : m'.config = some c) (h2 : m'.schedules = m.schedules) : HInv E disk P m' := by
  obtain ⟨doc, l, a, b, d, e⟩ := h.loaded h0
  exact .inr ⟨doc, l, c, a, b, by rw [h2, d], h1, e⟩

theorem HInv.readConfig {E : MgrEnv} {disk : Dir Files} {P : Loaded → Val → Prop} (hP : ∀ l : Loaded, ∀ doc,
      ConfigFrom E disk doc → smLoadConfig E.w E.cfgTy doc E.overrides E.ignoreExtra = .ok l → P l l.value)
    {m m1 : Mgr} {c : Val} (h : HInv E disk P m) (hr : m.readConfig E = .ok (c, m1)) : HInv E disk P m1 ∧ m1.config = some c := by
  rcases readConfig_inv hr with ⟨hc, rfl⟩ | ⟨hc, l, hl, rfl, rfl⟩
  · exact ⟨h, hc⟩
  · rcases h with ⟨_, h2, h3⟩ | ⟨_, _, c', _, _, _, h4, _⟩
    · obtain ⟨doc, a, b⟩ := (loadConfig_iff h2 h3 l).1 hl
      exact ⟨.inr ⟨doc, l, l.value, a, b, rfl, rfl, hP l doc a b⟩, rfl⟩
    · rw [hc] at h4; exact (nomatch h4)

theorem HInv.apply {E : MgrEnv} {disk : Dir Files} {P : Loaded → Val → Prop} (hP : ∀ l : Loaded, ∀ doc,
      ConfigFrom E disk doc → smLoadConfig E.w E.cfgTy doc E.overrides E.ignoreExtra = .ok l → P l l.value) (hk : Kept1 E P)
    {m m1 : Mgr} {o : LObj} (hI : MInv m) (h : HInv E disk P m) (hr : m.apply E o = .ok m1) :
    HInv E disk P m1 ∧ m1.config.isSome = true := by
  obtain ⟨_, _, _, _, _, c, c', m0, h1, rfl, h3⟩ := apply_inv hI hr
  obtain ⟨k1, k2⟩ := h.readConfig hP h1
  obtain ⟨doc, l, a, b, d, e⟩ := k1.loaded k2
  dsimp only at h3
  rw [d] at h3
  have htop : TopOK l.schedules := d ▸ (readConfig_keep hI h1).1.top
  exact ⟨.inr ⟨doc, l, c', a, b, d, rfl, hk l c c' _ htop e h3⟩, rfl⟩

theorem HInv.readState {E : MgrEnv} {disk : Dir Files} {P : Loaded → Val → Prop} (hP : ∀ l : Loaded, ∀ doc,
      ConfigFrom E disk doc → smLoadConfig E.w E.cfgTy doc E.overrides E.ignoreExtra = .ok l → P l l.value) (hk : Kept1 E P)
    {m m1 : Mgr} {o : LObj} (hI : MInv m) (h : HInv E disk P m) (hr : m.readState E = .ok (o, m1)) :
    HInv E disk P m1 ∧ m1.config.isSome = true := by
  have hr0 := hr
  simp only [Mgr.readState] at hr
  split at hr
  · rename_i hs
    simp only [Except.ok.injEq, Prod.mk.injEq] at hr
    obtain ⟨rfl, rfl⟩ := hr
    exact ⟨h, hI.cfg (by rw [hs]; rfl)⟩
  · simp only [bind, Except.bind, pure, Except.pure] at hr
    cases hl : m.loadState E with
    | error e => rw [hl] at hr; exact (nomatch hr)
    | ok q =>
      obtain ⟨o', src, m0⟩ := q
      rw [hl] at hr
      simp only at hr
      split at hr
      · exact (nomatch hr)
      · rename_i m2 ha
        simp only [Except.ok.injEq, Prod.mk.injEq] at hr
        obtain ⟨rfl, rfl⟩ := hr
        obtain ⟨i1, _, _, _, c, hc⟩ := loadState_inv hI hl
        obtain ⟨k1, k2⟩ := h.readConfig hP hc
        have hI' : MInv { m0 with state := some o', src := src } := ⟨i1.top, fun _ => by rw [k2]; rfl⟩
        exact HInv.apply hP hk hI' (k1.congr k2 (m' := { m0 with state := some o', src := src }) k2 rfl) ha

theorem HInv.exec {E : MgrEnv} {disk : Dir Files} {P : Loaded → Val → Prop} (hP : ∀ l : Loaded, ∀ doc,
      ConfigFrom E disk doc → smLoadConfig E.w E.cfgTy doc E.overrides E.ignoreExtra = .ok l → P l l.value) (hk : Kept1 E P)
    {m m' : Mgr} {op : MOp} (hI : MInv m) (h : HInv E disk P m) (hr : m.exec E op = .ok m') : HInv E disk P m' := by
  cases op with
  | readConfig =>
    simp only [Mgr.exec, bind, Except.bind, pure, Except.pure] at hr
    split at hr
    · exact (nomatch hr)
    · rename_i q hq
      simp only [Except.ok.injEq] at hr
      subst hr
      exact (h.readConfig hP (c := q.1) hq).1
  | getState k =>
    simp only [Mgr.exec, bind, Except.bind, pure, Except.pure] at hr
    split at hr
    · exact (nomatch hr)
    · rename_i q hq
      simp only [Except.ok.injEq] at hr
      subst hr
      obtain ⟨_, o, m0, h1, _, h3⟩ := getState_inv hI (v := q.1) hq
      obtain ⟨k1, k2⟩ := h.readState hP hk hI h1
      obtain ⟨c, hc⟩ := Option.isSome_iff_exists.1 k2
      exact k1.congr hc (by rw [h3]; exact hc) (by rw [h3])
  | setState k v =>
    obtain ⟨_, o, m0, h1, rfl⟩ := setState_inv hI hr
    obtain ⟨k1, k2⟩ := h.readState hP hk hI h1
    obtain ⟨c, hc⟩ := Option.isSome_iff_exists.1 k2
    exact k1.congr hc hc rfl
  | step mv =>
    obtain ⟨o, m0, m1, h1, h2, _, _, _, _, _, hor⟩ := step_inv hI hr
    obtain ⟨k1, _⟩ := h.readState hP hk hI h1
    obtain ⟨j1, j2⟩ := HInv.apply hP hk (readState_inv hI h1).1 k1 h2
    rcases hor with ⟨_, rfl⟩ | ⟨_, c', kv, val, files, o', d', l', hc', _, _, _, _, rfl⟩
    · exact j1
    · exact j1.congr hc' hc' rfl
  | configDict =>
    simp only [Mgr.exec, bind, Except.bind, pure, Except.pure] at hr
    split at hr
    · exact (nomatch hr)
    · rename_i q hq
      simp only [Except.ok.injEq] at hr
      subst hr
      obtain ⟨c, hc, _⟩ := configDict_inv (d := q.1) hq
      exact (h.readConfig hP hc).1
  | checkpoint =>
    simp only [Mgr.exec, bind, Except.bind, pure, Except.pure] at hr
    split at hr
    · exact (nomatch hr)
    · rename_i q hq
      simp only [Except.ok.injEq] at hr
      subst hr
      obtain ⟨c, m0, _, _, o, m1, _, _, _, h1, _, h3, _, _, _, h7⟩ := checkpoint_inv (files := q.1) hq
      obtain ⟨k1, _⟩ := h.readConfig hP h1
      obtain ⟨j1, j2⟩ := k1.readState hP hk (readConfig_keep hI h1).1 h3
      obtain ⟨c', hc'⟩ := Option.isSome_iff_exists.1 j2
      rw [h7]
      exact j1.congr hc' hc' rfl

/-- what holds of the loaded config and is kept by applying schedules holds whenever the config is read -/
theorem config_history {E : MgrEnv} {disk : Dir Files} {P : Loaded → Val → Prop} (hP : ∀ l : Loaded, ∀ doc,
      ConfigFrom E disk doc → smLoadConfig E.w E.cfgTy doc E.overrides E.ignoreExtra = .ok l → P l l.value) (hk : Kept1 E P)
    (ops : List MOp) {m m1 : Mgr} {c : Val} (h : (Mgr.new E disk).run E ops = .ok m) (hr : m.readConfig E = .ok (c, m1)) :
    ∃ doc l, ConfigFrom E disk doc ∧ smLoadConfig E.w E.cfgTy doc E.overrides E.ignoreExtra = .ok l ∧
      m1.schedules = l.schedules ∧ P l c := by
  have key : ∀ (ops : List MOp) (m m' : Mgr), MInv m → HInv E disk P m → m.run E ops = .ok m' → HInv E disk P m' := by
    intro ops
    induction ops with
    | nil => intro m m' _ h he; simp [Mgr.run] at he; exact he ▸ h
    | cons op ops ih =>
      intro m m' hI h he
      simp only [Mgr.run, bind, Except.bind] at he
      split at he
      · exact (nomatch he)
      · rename_i m1 h1
        exact ih _ _ (exec_inv hI h1) (h.exec hP hk hI h1) he
  have h1 := key ops _ m (.new E disk) (.inl ⟨rfl, rfl, rfl⟩) h
  obtain ⟨k1, k2⟩ := h1.readConfig hP hr
  exact k1.loaded k2

end HS
