import Verif.Proofs.Manager
/-!
# C39, C46, C47: schedules and the StateManager
-/
namespace HS

/-! ## an example used below -/
namespace ExM

/-- the value of the schedule `step: 0@0 lin 1000000@1000000` -/
def ramp (attrs : List (String × Val)) : Except Err Flt :=
  match dget attrs "step" with
  | some (.int i) => .ok (.fin i)
  | _ => .error .typeError

def txt : String := "step: 0@0 lin 1000000@1000000"

def w : World :=
  { ext := { parseFloat := fun _ => .none, schedAt0 := fun _ => .ok (.fin 0), typeArgOk := fun _ => true }
    ron := fun _ => .error .valueError
    env := fun c => if c = "Opt" then ⟨.none, [("lr", .none)]⟩
      else if c = "Config" then ⟨.none, [("opt", .none), ("n", .none)]⟩
      else if c = "State" then ⟨.none, [("step", .none), ("net", .none)]⟩
      else ⟨.none, []⟩ }

/-- `class Opt: lr: int`, `class Config: opt: Opt; n: int` -/
def cfgTy : PyTy := .data "Config" [.mk "opt" (.data "Opt" [.mk "lr" .int .none] .none) .none, .mk "n" .int .none] .none
/-- `class State(Lazy): step: int` -/
def stTy : PyTy := .data "State" [.mk "step" .int .none] .none

def files : Files :=
  ⟨.dict [("opt", .dict [("lr", .str txt)]), ("n", .int 3)], .dict [("step", .int 10)], []⟩

def E : MgrEnv :=
  { w := w, cfgTy := cfgTy, stTy := stTy, init := .absent, overrides := [], ignoreExtra := false, key := "step", ckpt := true
    initial := fun _ => .ok ("State", [("step", .int 0)])
    sv := fun attrs _ => ramp attrs
    stLazy := true, pickleOk := false, deps := fun _ => [], deser := fun c y _ => .ok (.ser c y), depth := 100 }

def disk : Dir Files := [("latest-step000000000010", .full files)]

def cfgV (i : Int) : Val := .inst "Config" [("opt", .inst "Opt" [("lr", .int i)]), ("n", .int 3)]
def regd : RegD := [("opt", .node [("lr", .sched txt true "lr")])]

theorem new_last : Mgr.new E disk = ⟨.none, [], .none, .init, some "latest-step000000000010", disk⟩ := by
  have : openMgr disk = some "latest-step000000000010" := by decide +kernel
  simp [Mgr.new, E, this]

theorem read_config : (Mgr.new E disk).readConfig E =
    .ok (cfgV 0, { Mgr.new E disk with config := some (cfgV 0), schedules := regd }) := by
  rw [new_last]
  rfl

theorem read_state : ({ Mgr.new E disk with config := some (cfgV 0), schedules := regd } : Mgr).readState E =
    .ok (⟨"State", [("step", .int 10)], []⟩,
      { Mgr.new E disk with config := some (cfgV 10), schedules := regd, state := some ⟨"State", [("step", .int 10)], []⟩,
                            src := .ckpt "latest-step000000000010" }) := by
  rw [new_last]
  rfl

end ExM

/-! ## C46: scheduled fields reflect the state -/

/-- C46 (partial): after every history of reads, assignments and steps with at least one step, the config that is returned
has the value of its schedule in every scheduled field, at the state as it was when the last step began.
Missing: the config read before the first access to the state (C46_false). -/
theorem C46_step_partial (E : MgrEnv) (disk : Dir Files) (pre post : List MOp) (mv : Move) (m m1 m2 : Mgr)
    (h0 : (Mgr.new E disk).run E pre = .ok m) (h1 : m.step E mv = .ok m1) (h2 : m1.run E post = .ok m2)
    (hpost : ∀ mv, MOp.step mv ∉ post) :
    ∃ o m0 c, m.readState E = .ok (o, m0) ∧ m2.readConfig E = .ok (c, m2) ∧
      Current (E.sv o.attrs) (some (.node m2.schedules)) c := by
  have hI := run_inv pre _ m (.new E disk) h0
  have hI1 := exec_inv (op := .step mv) hI h1
  obtain ⟨o, m0, m1', hr, _, _, ⟨c, hc, hcur⟩, hst, _, _, hfin⟩ := step_inv hI h1
  have hm1 : m1.config = some c ∧ m1.schedules = m1'.schedules ∧ m1.state.isSome = true := by
    rcases hfin with ⟨_, rfl⟩ | ⟨_, c', kv, val, files, o', d', l', _, _, _, _, _, rfl⟩
    · exact ⟨hc, rfl, by rw [hst]; rfl⟩
    · exact ⟨hc, rfl, rfl⟩
  obtain ⟨f1, f2, _⟩ := run_frame post m1 m2 hI1 hm1.2.2 hpost h2
  refine ⟨o, m0, c, hr, by simp [Mgr.readConfig, f1, hm1.1], ?_⟩
  rw [f2, hm1.2.1]
  exact hcur

/-- C46 (partial): the same from the first access to the state up to the first step, at the state as it was loaded. -/
theorem C46_load_partial (E : MgrEnv) (disk : Dir Files) (pre post : List MOp) (o : LObj) (m m1 m2 : Mgr)
    (h0 : (Mgr.new E disk).run E pre = .ok m) (hs : m.state = none) (h1 : m.readState E = .ok (o, m1))
    (h2 : m1.run E post = .ok m2) (hpost : ∀ mv, MOp.step mv ∉ post) :
    ∃ c, m2.readConfig E = .ok (c, m2) ∧ Current (E.sv o.attrs) (some (.node m2.schedules)) c := by
  have hI := run_inv pre _ m (.new E disk) h0
  obtain ⟨hI1, hst, _, _, hor⟩ := readState_inv hI h1
  rcases hor with ⟨hs', _⟩ | ⟨_, c, hc, hcur⟩
  · rw [hs] at hs'; exact (nomatch hs')
  · obtain ⟨f1, f2, _⟩ := run_frame post m1 m2 hI1 (by rw [hst]; rfl) hpost h2
    refine ⟨c, by simp [Mgr.readConfig, f1, hc], ?_⟩
    rw [f2]
    exact hcur

example : ∃ m o m1, (Mgr.new ExM.E ExM.disk).run ExM.E [.readConfig] = .ok m ∧ m.state = none ∧
    m.readState ExM.E = .ok (o, m1) ∧ m1.config = some (ExM.cfgV 10) ∧ m1.schedules ≠ [] :=
  ⟨_, _, _, by simp only [Mgr.run, Mgr.exec, ExM.read_config, bind, Except.bind, pure, Except.pure], rfl, ExM.read_state,
    rfl, by simp [ExM.regd]⟩

/-- C46 is false for a config that is read before the state: the scheduled field holds the schedule's value at 0, whatever
the state in the checkpoint is. Here the state has `step = 10`, the config has 0 instead of 10. -/
theorem C46_false : ∃ (E : MgrEnv) (disk : Dir Files) (c : Val) (o : LObj) (m m1 : Mgr),
    (Mgr.new E disk).readConfig E = .ok (c, m) ∧ m.readState E = .ok (o, m1) ∧ o.unloaded = [] ∧
    ¬ Current (E.sv o.attrs) (some (.node m.schedules)) c := by
  refine ⟨ExM.E, ExM.disk, _, _, _, _, ExM.read_config, ExM.read_state, rfl, ?_⟩
  intro h
  obtain ⟨x, h1, h2⟩ := h ["opt", "lr"] ExM.txt true rfl
  have h3 : schedVal (ExM.E.sv [("step", .int 10)]) ExM.txt true = .ok (.int 10) := by
    rfl
  rw [← schedVal_iff, h3] at h1
  cases h1
  simp [valAt, ExM.cfgV, dget] at h2

/-! ## C39: schedules at any field -/

/-- C39 (partial): for every config whose scheduled fields are fields of the config or of a dataclass directly in it, the
document written into a checkpoint is read back with the same schedules for the same fields, and applying them gives the same
config. Missing: deeper fields and list elements, for which the claim is false. -/
theorem C39_written_partial (w : World) {n : String} {fs : List Fld} {ver : Option VerInfo} {reg : RegD} {v : Val}
    (hfit : Fits w.ext false (.data n fs ver) (some (.node reg)) v) (henv : EnvOK w.env (.data n fs ver))
    (hmat : (materialize (.data n fs ver)).isOk = true)
    (hdepth : ∀ segs x, Reg.at (some (.node reg)) segs = some x → segs.length ≤ 2)
    (sv : String → Except Err Flt) (hcur : Current sv (some (.node reg)) v) (ig : Bool) :
    ∃ doc v' reg', typedDump w.env (some reg) false v = .ok (doc, []) ∧
      smLoadConfig w (.data n fs ver) (some doc) [] ig = .ok ⟨v', reg', []⟩ ∧
      RegEqv (some (.node reg)) (some (.node reg')) ∧ applyRegD sv reg' v' = .ok v := by
  obtain ⟨doc, v', reg', h1, h2, h3, _, h5⟩ := config_roundtrip w hfit henv hmat hdepth sv hcur ig
  exact ⟨doc, v', reg', h1, h2, h3, h5⟩

/-- C39: a schedule registered for a field is applied to that field by every step and by the first access to the state;
no other value of the config changes. For every registry a load can produce. -/
theorem C39_applied (w : World) (ty : PyTy) (doc : Option Val) (os : List String) (ig : Bool) (l : Loaded)
    (hl : smLoadConfig w ty doc os ig = .ok l) (sv : String → Except Err Flt) (c c' : Val)
    (h : applyRegD sv l.schedules c = .ok c') :
    (∀ segs txt i, Reg.at (some (.node l.schedules)) segs = some (txt, i) →
      ∃ x, SchedIs sv txt i x ∧ valAt c' segs = some x) ∧
    ∀ segs x, valAt c segs = some x → (∀ n kvs, x ≠ .inst n kvs) →
      (∀ p y, Reg.at (some (.node l.schedules)) p = some y → ¬ p <+: segs) → valAt c' segs = some x := by
  have htop : TopOK l.schedules := by
    cases doc <;> (simp only [smLoadConfig] at hl; exact typedLoad_ok hl)
  exact ⟨fun segs txt i hat => apply_current sv segs _ c c' htop h txt i hat,
    fun segs x hx hni hp => apply_frame sv segs _ c c' htop h x hx hni hp⟩

example : applyRegD (fun _ => ExM.ramp [("step", .int 7)]) ExM.regd (ExM.cfgV 0) = .ok (ExM.cfgV 7) := rfl

/-- C39 is false from depth three: the registry looks up the second segment at the top level. The first schedule at
`a.b.c` cannot be registered at all, for any two distinct names. -/
theorem C39_depth_false {a b c : String} (ha : IdOK a) (hb : IdOK b) (hc : IdOK c) (hab : a ≠ b) (t : String) (i : Bool) :
    regInsert [] (a ++ "." ++ b ++ "." ++ c) t i = .error .keyError := by
  have hs : pySplit '.' (a ++ "." ++ b ++ "." ++ c) = [a, b, c] := by
    rw [pySplit_join, pySplit_join, pySplit_id ha.2.1, pySplit_id hb.2.1, pySplit_id hc.2.1]; rfl
  simp only [regInsert, hs, List.dropLast, regWalk, regEnsure, bind, Except.bind]
  simp [dhas, dget, dset, hab, throw, throwThe, MonadExceptOf.throw]

/-- C39 is false from depth three: if the top level has an entry of that name, the schedule is registered for another field. -/
theorem C39_wrong_field_false {a b c d : String} (ha : IdOK a) (hb : IdOK b) (hc : IdOK c) (hd : IdOK d) (hab : a ≠ b)
    (hcd : d ≠ c) (t u : String) (i j : Bool) :
    ∃ reg, regAll [] [.sched (b ++ "." ++ d) u j, .sched (a ++ "." ++ b ++ "." ++ c) t i] = .ok reg ∧
      Reg.at (some (.node reg)) [a, b, c] = none ∧ Reg.at (some (.node reg)) [b, c] = some (t, i) := by
  have h1 : pySplit '.' (b ++ "." ++ d) = [b, d] := by
    rw [pySplit_join, pySplit_id hb.2.1, pySplit_id hd.2.1]; rfl
  have h2 : pySplit '.' (a ++ "." ++ b ++ "." ++ c) = [a, b, c] := by
    rw [pySplit_join, pySplit_join, pySplit_id ha.2.1, pySplit_id hb.2.1, pySplit_id hc.2.1]; rfl
  have hba : b ≠ a := fun h => hab h.symm
  refine ⟨[(b, .node [(d, .sched u j d), (c, .sched t i c)]), (a, .node [(b, .node [])])], ?_, ?_, ?_⟩
  · simp [regAll, regInsert, h1, h2, regWalk, regEnsure, bind, Except.bind, dhas, dget, dset, hba, hab, hcd, pure, Except.pure]
  · simp [Reg.at, dget, hba]
  · simp [Reg.at, dget, hcd]

namespace ExM

/-- `class A: b: B`, `class B: lr: int`, `class Deep: a: A` -/
def deepTy : PyTy := .data "Deep" [.mk "a" (.data "A" [.mk "b" (.data "B" [.mk "lr" .int .none] .none) .none] .none) .none] .none

/-- C39, depth three, seen by the user: the config file is rejected with a KeyError -/
example : (match smLoadConfig w deepTy (some (.dict [("a", .dict [("b", .dict [("lr", .str txt)])])])) [] false with
    | .error .keyError => true | _ => false) = true := by decide +kernel

/-- with a plain number the same document is accepted -/
example : smLoadConfig w deepTy (some (.dict [("a", .dict [("b", .dict [("lr", .int 3)])])])) [] false =
    .ok ⟨.inst "Deep" [("a", .inst "A" [("b", .inst "B" [("lr", .int 3)])])], [], []⟩ := rfl

/-- `class L: xs: List[int]` -/
def listTy : PyTy := .data "L" [.mk "xs" (.list .int) .none] .none

end ExM

/-- C39 is false for list elements: the document is accepted, the element gets the value at 0 and applying the schedule does
not change it but adds an attribute called `xs[0]`. -/
theorem C39_list_false : ∃ (w : World) (ty : PyTy) (doc : Val) (l : Loaded) (sv : String → Except Err Flt) (c' : Val),
    smLoadConfig w ty (some doc) [] false = .ok l ∧ applyRegD sv l.schedules l.value = .ok c' ∧
    valAt l.value ["xs"] = some (.list [.int 0]) ∧ valAt c' ["xs"] = some (.list [.int 0]) ∧
    valAt c' ["xs[0]"] = some (.int 10) := by
  refine ⟨ExM.w, ExM.listTy, .dict [("xs", .list [.str ExM.txt])],
    ⟨.inst "L" [("xs", .list [.int 0])], [("xs[0]", .sched ExM.txt true "xs[0]")], []⟩, fun _ => .ok (.fin 10),
    .inst "L" [("xs", .list [.int 0]), ("xs[0]", .int 10)], ?_, ?_, ?_, ?_, ?_⟩
  · rfl
  · rfl
  · rfl
  · rfl
  · rfl

/-! ## C47: where config and state come from -/

/-- the config file that is read: that of the restorable checkpoint if there is one, otherwise `init_path` or the file in it,
otherwise none -/
inductive ConfigFrom (E : MgrEnv) (disk : Dir Files) : Option Val → Prop
  | ckpt {n f} : E.ckpt = true → openMgr disk = some n → dget disk n = some (.full f) → ConfigFrom E disk (some f.config)
  | file {doc} : E.ckpt = false ∨ openMgr disk = none → E.init = .file doc → ConfigFrom E disk (some doc)
  | dir {f} : E.ckpt = false ∨ openMgr disk = none → E.init = .dir f → ConfigFrom E disk (some f.config)
  | absent : E.ckpt = false ∨ openMgr disk = none → E.init = .absent → ConfigFrom E disk none

/-- the state file that is read: that of the restorable checkpoint if there is one, otherwise that in `init_path` if it is a
directory, otherwise none (`initial_state` is called) -/
inductive StateFrom (E : MgrEnv) (disk : Dir Files) : Option Val → Prop
  | ckpt {n f} : E.ckpt = true → openMgr disk = some n → dget disk n = some (.full f) → StateFrom E disk (some f.state)
  | dir {f} : E.ckpt = false ∨ openMgr disk = none → E.init = .dir f → StateFrom E disk (some f.state)
  | initial : E.ckpt = false ∨ openMgr disk = none → (∀ f, E.init ≠ .dir f) → StateFrom E disk none

theorem new_last_none {E : MgrEnv} {disk : Dir Files} :
    (Mgr.new E disk).last = none ↔ E.ckpt = false ∨ openMgr disk = none := by
  simp only [Mgr.new]
  cases E.ckpt <;> simp

theorem new_last_some {E : MgrEnv} {disk : Dir Files} {n : String} :
    (Mgr.new E disk).last = some n ↔ E.ckpt = true ∧ openMgr disk = some n := by
  simp only [Mgr.new]
  cases E.ckpt <;> simp

theorem ckptFiles_ok {disk : Dir Files} {n : String} {f : Files} : ckptFiles disk n = .ok f ↔ dget disk n = some (.full f) := by
  simp only [ckptFiles]
  split
  · rename_i h; rw [h]; simp
  · rename_i h
    constructor
    · intro h; exact (nomatch h)
    · intro h'; exact absurd h' (h f)

theorem loadConfig_iff {E : MgrEnv} {disk : Dir Files} {m : Mgr} (hl : m.last = (Mgr.new E disk).last) (hd : m.disk = disk) (l : Loaded) :
    m.loadConfig E = .ok l ↔ ∃ doc, ConfigFrom E disk doc ∧ smLoadConfig E.w E.cfgTy doc E.overrides E.ignoreExtra = .ok l := by
  subst hd
  cases hlast : m.last with
  | some n =>
    rw [hlast] at hl
    have hck := new_last_some.1 hl.symm
    simp only [Mgr.loadConfig, hlast, bind, Except.bind]
    constructor
    · intro h
      cases hf : ckptFiles m.disk n with
      | error e => rw [hf] at h; exact (nomatch h)
      | ok f => rw [hf] at h; exact ⟨_, .ckpt hck.1 hck.2 (ckptFiles_ok.1 hf), h⟩
    · rintro ⟨doc, hfrom, h⟩
      have absurdN : ¬ (E.ckpt = false ∨ openMgr m.disk = none) := by
        rw [hck.1, hck.2]; simp
      cases hfrom with
      | @ckpt n' f h1 h2 h3 =>
        rw [hck.2] at h2
        cases h2
        rw [ckptFiles_ok.2 h3]
        exact h
      | file h1 => exact absurd h1 absurdN
      | dir h1 => exact absurd h1 absurdN
      | absent h1 => exact absurd h1 absurdN
  | none =>
    rw [hlast] at hl
    have hno := new_last_none.1 hl.symm
    simp only [Mgr.loadConfig, hlast]
    constructor
    · intro h
      split at h
      · rename_i hi; exact ⟨_, .absent hno hi, h⟩
      · rename_i doc hi; exact ⟨_, .file hno hi, h⟩
      · rename_i f hi; exact ⟨_, .dir hno hi, h⟩
    · rintro ⟨doc, hfrom, h⟩
      cases hfrom with
      | ckpt h1 h2 h3 => rw [h1, h2] at hno; simp at hno
      | file h1 h2 => rw [h2]; exact h
      | dir h1 h2 => rw [h2]; exact h
      | absent h1 h2 => rw [h2]; exact h

/-- C47: the config that is returned first is loaded, with the overrides, from the file given by `ConfigFrom`; it is returned
whenever that load succeeds. -/
theorem C47_config (E : MgrEnv) (disk : Dir Files) (c : Val) :
    (∃ m, (Mgr.new E disk).readConfig E = .ok (c, m)) ↔
    ∃ doc l, ConfigFrom E disk doc ∧ smLoadConfig E.w E.cfgTy doc E.overrides E.ignoreExtra = .ok l ∧ c = l.value := by
  constructor
  · rintro ⟨m, h⟩
    rcases readConfig_inv h with ⟨hc, _⟩ | ⟨_, l, hl, rfl, _⟩
    · simp [Mgr.new] at hc
    · obtain ⟨doc, h1, h2⟩ := (loadConfig_iff rfl rfl l).1 hl
      exact ⟨doc, l, h1, h2, rfl⟩
  · rintro ⟨doc, l, h1, h2, rfl⟩
    have hl := (loadConfig_iff (m := Mgr.new E disk) rfl rfl l).2 ⟨doc, h1, h2⟩
    have hc : (Mgr.new E disk).config = none := rfl
    exact ⟨{ Mgr.new E disk with config := some l.value, schedules := l.schedules }, by
      simp only [Mgr.readConfig, hc, hl, bind, Except.bind, pure, Except.pure]⟩

/-- C47: the state at its first access, whether or not the config has been read before, is loaded from the file given by
`StateFrom`, or is `initial_state` of the config (before schedules are applied). -/
theorem C47_state (E : MgrEnv) (disk : Dir Files) (pre : List MOp) (hpre : ∀ op ∈ pre, op = .readConfig) (m m1 : Mgr) (o : LObj)
    (h0 : (Mgr.new E disk).run E pre = .ok m) (h : m.readState E = .ok (o, m1)) :
    (∃ doc l, StateFrom E disk (some doc) ∧ smLoadState E.w E.stTy doc E.ignoreExtra = .ok l ∧
      l.value = .inst o.cls o.attrs ∧ o.unloaded = l.lazyFields) ∨
    (StateFrom E disk none ∧ o.unloaded = [] ∧ ∃ c mc, (Mgr.new E disk).readConfig E = .ok (c, mc) ∧
      E.initial c = .ok (o.cls, o.attrs)) := by
  -- the manager is new, or the config has been read
  have hm : ∀ (pre : List MOp) (m' m : Mgr), (∀ op ∈ pre, op = .readConfig) → m'.run E pre = .ok m →
      m' = Mgr.new E disk ∨ (∃ c, (Mgr.new E disk).readConfig E = .ok (c, m')) →
      m = Mgr.new E disk ∨ (∃ c, (Mgr.new E disk).readConfig E = .ok (c, m)) := by
    intro pre
    induction pre with
    | nil => intro m' m _ h hor; simp [Mgr.run] at h; exact h ▸ hor
    | cons op pre ih =>
      intro m' m hp h hor
      obtain rfl := hp op (by simp)
      simp only [Mgr.run, Mgr.exec, bind, Except.bind, pure, Except.pure] at h
      cases hq : m'.readConfig E with
      | error e => rw [hq] at h; exact (nomatch h)
      | ok q =>
        obtain ⟨c, m2⟩ := q
        rw [hq] at h
        refine ih m2 m (fun op ho => hp op (List.mem_cons_of_mem _ ho)) h (.inr ?_)
        rcases hor with rfl | ⟨c', hc'⟩
        · exact ⟨c, hq⟩
        · have hk := (readConfig_keep (.new E disk) hc').2.1
          simp only [Mgr.readConfig, hk, Except.ok.injEq, Prod.mk.injEq] at hq
          exact ⟨c', hq.2 ▸ hc'⟩
  have hmm := hm pre _ m hpre h0 (.inl rfl)
  have hkeep : m.last = (Mgr.new E disk).last ∧ m.disk = disk ∧ m.state = none ∧
      ∀ c mc, m.readConfig E = .ok (c, mc) → ∃ mc, (Mgr.new E disk).readConfig E = .ok (c, mc) := by
    rcases hmm with rfl | ⟨c, hc⟩
    · exact ⟨rfl, rfl, rfl, fun c mc h => ⟨mc, h⟩⟩
    · obtain ⟨_, k2, k3, _, k5, k6⟩ := readConfig_keep (.new E disk) hc
      refine ⟨k5, k6, k3, ?_⟩
      intro c' mc h
      simp only [Mgr.readConfig, k2, Except.ok.injEq, Prod.mk.injEq] at h
      exact ⟨m, h.1 ▸ hc⟩
  obtain ⟨hlast, hdisk, hst, hcfg⟩ := hkeep
  have hI : MInv m := run_inv pre _ m (.new E disk) h0
  simp only [Mgr.readState, hst, bind, Except.bind, pure, Except.pure] at h
  cases hl : m.loadState E with
  | error e => rw [hl] at h; exact (nomatch h)
  | ok q =>
    obtain ⟨o', src, m2⟩ := q
    rw [hl] at h
    simp only at h
    have ho : o' = o := by
      split at h
      · exact (nomatch h)
      · simp only [Except.ok.injEq, Prod.mk.injEq] at h; exact h.1
    subst ho
    obtain ⟨_, _, _, hd2, _⟩ := loadState_inv hI hl
    have key : ∀ doc, loadStateObj E doc = .ok o' → ∃ l, smLoadState E.w E.stTy doc E.ignoreExtra = .ok l ∧
        l.value = .inst o'.cls o'.attrs ∧ o'.unloaded = l.lazyFields := by
      intro doc hs
      simp only [loadStateObj, bind, Except.bind, pure, Except.pure] at hs
      cases hsl : smLoadState E.w E.stTy doc E.ignoreExtra with
      | error e => rw [hsl] at hs; exact (nomatch hs)
      | ok l =>
        rw [hsl] at hs
        simp only [Loaded.obj] at hs
        cases hv : l.value with
        | inst cls kvs =>
          rw [hv] at hs
          simp only [Except.ok.injEq] at hs
          subst hs
          exact ⟨l, rfl, hv, rfl⟩
        | _ => rw [hv] at hs; exact (nomatch hs)
    simp only [Mgr.loadState, bind, Except.bind, pure, Except.pure] at hl
    cases hn : m.last with
    | some n =>
      rw [hn] at hl
      simp only at hl
      have hck := new_last_some.1 (hlast ▸ hn)
      cases hc : m.readConfig E with
      | error e => rw [hc] at hl; exact (nomatch hl)
      | ok q =>
        obtain ⟨c, mc⟩ := q
        rw [hc] at hl
        simp only at hl
        have hmd : mc.disk = disk := by rw [(readConfig_keep hI hc).2.2.2.2.2, hdisk]
        cases hf : ckptFiles mc.disk n with
        | error e => rw [hf] at hl; exact (nomatch hl)
        | ok f =>
          rw [hf] at hl
          simp only at hl
          split at hl
          · exact (nomatch hl)
          · rename_i o2 hs
            simp only [Except.ok.injEq, Prod.mk.injEq] at hl
            rw [hl.1] at hs
            obtain ⟨l, h1, h2, h3⟩ := key _ hs
            exact .inl ⟨_, l, .ckpt hck.1 hck.2 (by rw [← hmd]; exact ckptFiles_ok.1 hf), h1, h2, h3⟩
    | none =>
      rw [hn] at hl
      simp only at hl
      have hno := new_last_none.1 (hlast ▸ hn)
      cases hc : m.readConfig E with
      | error e =>
        rw [hc] at hl
        cases hi : E.init <;> rw [hi] at hl <;> exact (nomatch hl)
      | ok q =>
        obtain ⟨c, mc⟩ := q
        rw [hc] at hl
        have hinit : (∀ f, E.init ≠ .dir f) → (do
            let (cls, kvs) ← E.initial c
            return (⟨cls, kvs, []⟩, .init, mc) : Except Err (LObj × Src × Mgr)) = .ok (o', src, m2) →
            (StateFrom E disk none ∧ o'.unloaded = [] ∧ ∃ c mc, (Mgr.new E disk).readConfig E = .ok (c, mc) ∧
              E.initial c = .ok (o'.cls, o'.attrs)) := by
          intro hnd h
          simp only [bind, Except.bind, pure, Except.pure] at h
          cases hin : E.initial c with
          | error e => rw [hin] at h; exact (nomatch h)
          | ok ck =>
            rw [hin] at h
            simp only [Except.ok.injEq, Prod.mk.injEq] at h
            obtain ⟨rfl, _, _⟩ := h
            obtain ⟨mc', hmc⟩ := hcfg c mc hc
            exact ⟨.initial hno hnd, rfl, c, mc', hmc, hin⟩
        cases hi : E.init with
        | dir f =>
          rw [hi] at hl
          simp only at hl
          split at hl
          · exact (nomatch hl)
          · rename_i o2 hs
            simp only [Except.ok.injEq, Prod.mk.injEq] at hl
            rw [hl.1] at hs
            obtain ⟨l, h1, h2, h3⟩ := key _ hs
            exact .inl ⟨_, l, .dir hno hi, h1, h2, h3⟩
        | file doc =>
          rw [hi] at hl
          exact .inr (hinit (by simp [hi]) hl)
        | absent =>
          rw [hi] at hl
          exact .inr (hinit (by simp [hi]) hl)

/-- C47: when there is a restorable checkpoint, `init_path` is ignored by every history of operations, also after steps have
replaced the checkpoint. -/
theorem C47_init_ignored (E : MgrEnv) (disk : Dir Files) (hck : E.ckpt = true) {n : String} (ho : openMgr disk = some n)
    (init : Init) (ops : List MOp) :
    (Mgr.new { E with init := init } disk).run { E with init := init } ops = (Mgr.new E disk).run E ops := by
  -- a checkpoint is the source of everything
  let Good (m : Mgr) : Prop := MInv m ∧ m.last.isSome = true ∧ (m.state.isSome = true → ∃ n, m.src = .ckpt n)
  have hcfg : ∀ m, Good m → m.readConfig { E with init := init } = m.readConfig E := by
    rintro m ⟨_, h2, _⟩
    obtain ⟨n, hn⟩ := Option.isSome_iff_exists.1 h2
    simp only [Mgr.readConfig, Mgr.loadConfig, hn]
  have happ : ∀ m o, Good m → m.apply { E with init := init } o = m.apply E o := by
    intro m o hg
    simp only [Mgr.apply, hcfg m hg]
  have hgood : ∀ m c m1, Good m → m.readConfig E = .ok (c, m1) → Good m1 := by
    rintro m c m1 ⟨h1, h2, h3⟩ h
    obtain ⟨k1, _, k3, k4, k5, _⟩ := readConfig_keep h1 h
    exact ⟨k1, by rw [k5]; exact h2, by rw [k3, k4]; exact h3⟩
  have hrs : ∀ m, Good m → m.readState { E with init := init } = m.readState E ∧
      ∀ o m1, m.readState E = .ok (o, m1) → Good m1 ∧ m1.state = some o := by
    intro m hg
    obtain ⟨n, hn⟩ := Option.isSome_iff_exists.1 hg.2.1
    have hload : m.loadState { E with init := init } = m.loadState E := by
      simp only [Mgr.loadState, hn, hcfg m hg, loadStateObj]
    have hsrc : ∀ o src m1, m.loadState E = .ok (o, src, m1) → Good { m1 with state := some o, src := src } := by
      intro o src m1 h
      obtain ⟨k1, k2, k3, k4, c, hc⟩ := loadState_inv hg.1 h
      refine ⟨⟨k1.top, fun _ => by rw [(readConfig_keep hg.1 hc).2.1]; rfl⟩, by simp only [k3]; exact hg.2.1, fun _ => ?_⟩
      simp only [Mgr.loadState, hn, bind, Except.bind, pure, Except.pure, hc] at h
      split at h
      · exact (nomatch h)
      · split at h
        · exact (nomatch h)
        · simp only [Except.ok.injEq, Prod.mk.injEq] at h
          exact ⟨n, h.2.1.symm⟩
    cases hs : m.state with
    | some o =>
      simp only [Mgr.readState, hs, true_and]
      intro o' m1 h
      simp only [Except.ok.injEq, Prod.mk.injEq] at h
      obtain ⟨rfl, rfl⟩ := h
      exact ⟨hg, hs⟩
    | none =>
      simp only [Mgr.readState, hs, hload, bind, Except.bind, pure, Except.pure]
      cases hl : m.loadState E with
      | error e => exact ⟨rfl, by intro o m1 h; exact (nomatch h)⟩
      | ok q =>
        obtain ⟨o, src, m1⟩ := q
        have hg1 := hsrc o src m1 hl
        simp only [happ _ o hg1, true_and]
        intro o' m2 h
        split at h
        · exact (nomatch h)
        · rename_i m3 ha
          simp only [Except.ok.injEq, Prod.mk.injEq] at h
          obtain ⟨rfl, rfl⟩ := h
          obtain ⟨j1, j2, j3, j4, j5, _⟩ := apply_inv hg1.1 ha
          exact ⟨⟨j1, by rw [j4]; exact hg1.2.1, by rw [j2, j3]; exact hg1.2.2⟩, j2⟩
  have hlenv : ∀ m, Good m → m.state.isSome = true → m.lenv { E with init := init } = m.lenv E := by
    intro m hg hs
    obtain ⟨n, hn⟩ := hg.2.2 hs
    simp only [Mgr.lenv, Mgr.blobs, hn]
  have hexec : ∀ m op, Good m → m.exec { E with init := init } op = m.exec E op ∧ ∀ m1, m.exec E op = .ok m1 → Good m1 := by
    intro m op hg
    cases op with
    | readConfig =>
      simp only [Mgr.exec, hcfg m hg, true_and, bind, Except.bind, pure, Except.pure]
      intro m1 h
      split at h
      · exact (nomatch h)
      · rename_i q hq
        simp only [Except.ok.injEq] at h
        subst h
        exact hgood m q.1 q.2 hg hq
    | setState k v =>
      simp only [Mgr.exec, Mgr.setState, (hrs m hg).1, true_and, bind, Except.bind, pure, Except.pure]
      intro m1 h
      split at h
      · exact (nomatch h)
      · rename_i q hq
        simp only [Except.ok.injEq] at h
        subst h
        obtain ⟨hg1, hs1⟩ := (hrs m hg).2 q.1 q.2 hq
        exact ⟨⟨hg1.1.top, fun _ => hg1.1.cfg (by rw [hs1]; rfl)⟩, hg1.2.1, fun _ => hg1.2.2 (by rw [hs1]; rfl)⟩
    | getState k =>
      simp only [Mgr.exec, Mgr.getState, (hrs m hg).1, bind, Except.bind, pure, Except.pure]
      cases hq : m.readState E with
      | error e => exact ⟨rfl, by intro m1 h; exact (nomatch h)⟩
      | ok q =>
        obtain ⟨o, m0⟩ := q
        obtain ⟨hg1, hs1⟩ := (hrs m hg).2 o m0 hq
        have hs1' : m0.state.isSome = true := by rw [hs1]; rfl
        simp only [hlenv m0 hg1 hs1', true_and]
        intro m1 h
        split at h
        · exact (nomatch h)
        · rename_i r hr
          simp only [Except.ok.injEq] at h
          subst h
          split at hr
          · exact (nomatch hr)
          · simp only [Except.ok.injEq] at hr
            subst hr
            exact ⟨⟨hg1.1.top, fun _ => hg1.1.cfg hs1'⟩, hg1.2.1, fun _ => hg1.2.2 hs1'⟩
    | step mv =>
      have hgo : ∀ m1, m.step E mv = .ok m1 → Good m1 := by
        intro m1 h
        have hI1 := exec_inv (op := .step mv) hg.1 h
        obtain ⟨o, m0, m2, hr, ha, j1, ⟨c, hc, _⟩, hst, hlast, _, hfin⟩ := step_inv hg.1 h
        obtain ⟨hg0, hs0⟩ := (hrs m hg).2 o m0 hr
        obtain ⟨a1, a2, a3, _⟩ := apply_inv hg0.1 ha
        obtain ⟨n', hn'⟩ := hg0.2.2 (by rw [hs0]; rfl)
        rcases hfin with ⟨_, rfl⟩ | ⟨_, c', kv, val, files, o', d', l', _, _, _, _, hrun, rfl⟩
        · exact ⟨hI1, by rw [hlast]; exact hg.2.1, fun _ => ⟨n', by rw [a3]; exact hn'⟩⟩
        · refine ⟨hI1, ?_, fun _ => ⟨n', by simp only [a3]; exact hn'⟩⟩
          simp only [stepRun] at hrun
          split at hrun
          · simp only [Option.some.injEq, Prod.mk.injEq] at hrun
            rw [← hrun.2]; rfl
          · exact (nomatch hrun)
      refine ⟨?_, hgo⟩
      simp only [Mgr.exec, Mgr.step, (hrs m hg).1, bind, Except.bind, pure, Except.pure]
      cases hq : m.readState E with
      | error e => rfl
      | ok q =>
        obtain ⟨o, m0⟩ := q
        obtain ⟨hg1, hs1⟩ := (hrs m hg).2 o m0 hq
        simp only [happ m0 o hg1]
        cases ha : m0.apply E o with
        | error e => rfl
        | ok m1 =>
          obtain ⟨a1, a2, a3, a4, a5, _⟩ := apply_inv hg1.1 ha
          have hg2 : Good m1 := ⟨a1, by rw [a4]; exact hg1.2.1, by rw [a2, a3]; exact hg1.2.2⟩
          have hs2 : m1.state = some o := by rw [a2, hs1]
          have hs2' : m1.state.isSome = true := by rw [hs2]; rfl
          obtain ⟨c, hc⟩ := Option.isSome_iff_exists.1 (a1.cfg hs2')
          simp only [if_pos hck]
          simp only [Mgr.getState, Mgr.readState, hs2, hlenv m1 hg2 hs2', bind, Except.bind, pure, Except.pure]
          cases hk : (lazyGet (m1.lenv E) E.depth o E.key).res with
          | error e => rfl
          | ok kv =>
            simp only
            cases hv : ckptVal kv with
            | error e => rfl
            | ok val =>
              simp only [Mgr.readConfig, hc]
              have hg3 : Good { m1 with config := some c, state := some (lazyGet (m1.lenv E) E.depth o E.key).obj } :=
                ⟨⟨a1.top, fun _ => rfl⟩, hg2.2.1, fun _ => hg2.2.2 hs2'⟩
              have hd : ∀ c o, Mgr.dump { E with init := init }
                  { m1 with config := some c, state := some (lazyGet (m1.lenv E) E.depth o E.key).obj } c
                  (lazyGet (m1.lenv E) E.depth o E.key).obj =
                  Mgr.dump E { m1 with config := some c, state := some (lazyGet (m1.lenv E) E.depth o E.key).obj } c
                  (lazyGet (m1.lenv E) E.depth o E.key).obj := by
                intro c o
                have hl := hlenv { m1 with config := some c, state := some (lazyGet (m1.lenv E) E.depth o E.key).obj }
                  ⟨⟨a1.top, fun _ => rfl⟩, hg2.2.1, fun _ => hg2.2.2 hs2'⟩ rfl
                simp only [Mgr.dump, hl]
              simp only [hd c o]
    | configDict =>
      simp only [Mgr.exec, Mgr.configDict, hcfg m hg, true_and, bind, Except.bind, pure, Except.pure]
      intro m1 h
      split at h
      · exact (nomatch h)
      · rename_i q hq
        simp only [Except.ok.injEq] at h
        subst h
        split at hq
        · exact (nomatch hq)
        · rename_i q1 hq1
          split at hq
          · exact (nomatch hq)
          · simp only [Except.ok.injEq] at hq
            subst hq
            exact hgood m q1.1 q1.2 hg hq1
    | checkpoint =>
      simp only [Mgr.exec, Mgr.checkpoint, hcfg m hg, bind, Except.bind, pure, Except.pure]
      cases hq : m.readConfig E with
      | error e => exact ⟨rfl, by intro m1 h; exact (nomatch h)⟩
      | ok q =>
        obtain ⟨c, m0⟩ := q
        have hg0 := hgood m c m0 hg hq
        dsimp only
        cases hd : typedDump E.w.env (some m0.schedules) false c with
        | error e => exact ⟨rfl, by intro m1 h; exact (nomatch h)⟩
        | ok q2 =>
          simp only [(hrs m0 hg0).1]
          cases hq3 : m0.readState E with
          | error e => exact ⟨rfl, by intro m1 h; exact (nomatch h)⟩
          | ok q3 =>
            obtain ⟨o, m1⟩ := q3
            obtain ⟨hg1, hs1⟩ := (hrs m0 hg0).2 o m1 hq3
            have hs1' : m1.state.isSome = true := by rw [hs1]; rfl
            simp only [hlenv m1 hg1 hs1', true_and]
            intro m2 h
            split at h
            · exact (nomatch h)
            · rename_i r hr
              simp only [Except.ok.injEq] at h
              subst h
              split at hr
              · exact (nomatch hr)
              · split at hr
                · exact (nomatch hr)
                · simp only [Except.ok.injEq] at hr
                  subst hr
                  exact ⟨⟨hg1.1.top, fun _ => hg1.1.cfg hs1'⟩, hg1.2.1, fun _ => hg1.2.2 hs1'⟩
  have hrun : ∀ ops m, Good m → m.run { E with init := init } ops = m.run E ops := by
    intro ops
    induction ops with
    | nil => intro m _; rfl
    | cons op ops ih =>
      intro m hg
      obtain ⟨h1, h2⟩ := hexec m op hg
      simp only [Mgr.run, h1, bind, Except.bind]
      cases hx : m.exec E op with
      | error e => rfl
      | ok m1 => exact ih m1 (h2 m1 hx)
  have hnew : Mgr.new { E with init := init } disk = Mgr.new E disk := rfl
  rw [hnew]
  exact hrun ops _ ⟨.new E disk, by simp [Mgr.new, hck, ho], by simp [Mgr.new]⟩

example : ConfigFrom ExM.E ExM.disk (some ExM.files.config) ∧ StateFrom ExM.E ExM.disk (some ExM.files.state) :=
  ⟨.ckpt (n := "latest-step000000000010") rfl (by decide +kernel) rfl,
   .ckpt (n := "latest-step000000000010") rfl (by decide +kernel) rfl⟩

example : ConfigFrom { ExM.E with init := .file ExM.files.config } [] (some ExM.files.config) ∧
    StateFrom { ExM.E with init := .file ExM.files.config } [] none :=
  ⟨.file (.inr rfl) rfl, .initial (.inr rfl) (by simp)⟩

/-- a history with steps in which the checkpoint is replaced -/
example : ((Mgr.new ExM.E ExM.disk).run ExM.E [.setState "step" (.int 20), .step ⟨.none, false⟩, .readConfig]).toOption.map
    (fun m => (m.last, match m.config.map (valAt · ["opt", "lr"]) with | some (some (.int i)) => i | _ => 0)) =
    some (some "latest-step000000000020", 20) := by
  decide +kernel

end HS
