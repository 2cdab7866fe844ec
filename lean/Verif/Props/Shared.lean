import Verif.Model.Shared
import Verif.Props.Checkpoint
import Verif.Props.ManagerExc
import Verif.Props.Restore
import Verif.Props.Life
/-!
# C77: reading the checkpoints of a process that is training
-/
namespace HS

/-! ## the trainer: what later contents of the directory have to do with earlier ones -/

section
variable {P : Type}

/-- `s'` comes after `s` in a history of the training process (the steps of `Hist`) -/
inductive Later (key : String) (val : P → Int) (s : Sys P) : Sys P → Prop where
  | refl : Later key val s s
  | start {t : Sys P} : Later key val s t → Later key val s ⟨t.dir, some (openMgr t.dir), restored t.dir, .none, t.crashes⟩
  | step {t : Sys P} {last last' : Option String} {d' : Dir P} (m : Move) (p : P) : Later key val s t → t.mgr = some last →
      KeyInRange (val p) → (∀ c, t.safe = some c → val c < val p) →
      stepRun m key (val p) p t.dir last = some (d', last') → Later key val s ⟨d', some last', some p, .none, t.crashes⟩
  /-- also any moment during a step -/
  | crashStep {t : Sys P} {last : Option String} (m : Move) (p : P) (n : Nat) : Later key val s t → t.mgr = some last →
      KeyInRange (val p) → (∀ c, t.safe = some c → val c < val p) →
      Later key val s ⟨stepCrash m key (val p) p t.dir last n, .none, t.safe, some p, t.crashes + 1⟩
  | crash {t : Sys P} : Later key val s t → Later key val s ⟨t.dir, .none, t.safe, t.pend, t.crashes⟩

variable {key : String} {val : P → Int}

theorem Later.hist {d0 : Dir P} {s t : Sys P} (hs : Hist key val d0 s) (h : Later key val s t) : Hist key val d0 t := by
  induction h with
  | refl => exact hs
  | start _ ih => exact ih.start
  | step m p _ h1 h2 h3 h4 ih => exact ih.step m p h1 h2 h3 h4
  | crashStep m p n _ h1 h2 h3 ih => exact ih.crashStep m p n h1 h2 h3
  | crash _ ih => exact ih.crash

/-- the effect writes no complete checkpoint under this name -/
def Op.keeps (n : String) : Op P → Prop
  | .put x e => x = n → e = .broken
  | .del _ => True
  | .mv _ b => b ≠ n

theorem keeps_run {n : String} : ∀ {ops : List (Op P)} {d : Dir P}, (∀ o ∈ ops, o.keeps n) → ∀ f, dget (runOps d ops) n = some (.full f) →
    dget d n = some (.full f) := by
  intro ops
  induction ops with
  | nil => intro d _ f h; exact h
  | cons o ops ih =>
    intro d hk f h
    have h1 := ih (d := o.run d) (fun o' ho => hk o' (List.mem_cons_of_mem _ ho)) f h
    have h2 := hk o (List.mem_cons_self ..)
    cases o with
    | put x e =>
      simp only [Op.run] at h1
      by_cases hx : x = n
      · subst hx
        rw [dget_dset_self, h2 rfl] at h1
        exact (nomatch h1)
      · rwa [dget_dset_ne _ _ hx] at h1
    | del x =>
      simp only [Op.run] at h1
      by_cases hx : x = n
      · subst hx; simp at h1
      · rwa [dget_ddel_ne _ hx] at h1
    | mv a b =>
      simp only [Op.run] at h1
      split at h1
      · rw [dget_dset_ne _ _ h2] at h1
        by_cases hx : a = n
        · subst hx; simp at h1
        · rwa [dget_ddel_ne _ hx] at h1
      · exact h1

theorem keeps_step (m : Move) (v : Int) (p : P) (d : Dir P) (last : Option String) {n : String} (hn : n ≠ ckptName key v)
    (hs : suffixInt n ≠ none) : ∀ o ∈ (stepOps m key v p d last).1, o.keeps n := by
  have h1 : ∀ o ∈ (checkpointOps m (ckptName key v) p : List (Op P)), o.keeps n := by
    intro o ho
    simp only [checkpointOps] at ho
    split at ho
    · simp only [List.mem_singleton] at ho
      subst ho
      exact fun e => absurd e.symm hn
    · rename_i id _
      have ht : ckptName key v ++ "." ++ id ++ ".tmp" ≠ n := by
        rintro rfl; exact hs (suffixInt_tmp _ _)
      simp only [List.mem_cons, List.not_mem_nil, or_false] at ho
      rcases ho with rfl | rfl | rfl
      · exact fun e => absurd e ht
      · exact fun e => absurd e ht
      · exact Ne.symm hn
  have h2 : ∀ l, ∀ o ∈ (removeOps m l : List (Op P)), o.keeps n := by
    intro l o ho
    simp only [removeOps] at ho
    split at ho
    · simp only [List.mem_cons, List.not_mem_nil, or_false] at ho
      rcases ho with rfl | rfl
      · exact fun _ => rfl
      · trivial
    · simp only [List.mem_singleton] at ho
      subst ho; trivial
  have h3 : ∀ o ∈ (if dhas d (ckptName key v) then [] else checkpointOps m (ckptName key v) p : List (Op P)), o.keeps n := by
    intro o ho
    split at ho
    · exact (nomatch ho)
    · exact h1 o ho
  intro o ho
  simp only [stepOps] at ho
  generalize (if dhas d (ckptName key v) then [] else checkpointOps m (ckptName key v) p : List (Op P)) = w at ho h3
  split at ho
  · exact h3 o ho
  · split at ho
    · rcases List.mem_append.1 ho with ho | ho
      · exact h3 o ho
      · exact h2 _ o ho
    · exact h3 o ho

/-- Once a checkpoint is complete, nothing else is ever complete under its name. -/
theorem later_contents {d0 : Dir P} {s t : Sys P} (hs : Hist key val d0 s) (h : Later key val s t) {c : P} (hc : restored s.dir = some c) :
    (∃ c', restored t.dir = some c' ∧ val c ≤ val c') ∧ ∀ f, dget t.dir (ckptName key (val c)) = some (.full f) → f = c := by
  have hk : KeyInRange (val c) ∧ dget s.dir (ckptName key (val c)) = some (.full c) := by
    obtain ⟨cur, h1, _⟩ := hist_inv hs
    rw [h1.openMgr_eq.2] at hc
    exact h1.2 c hc
  induction h with
  | refl => exact ⟨⟨c, hc, by omega⟩, fun f hf => by rw [hk.2] at hf; cases hf; rfl⟩
  | start _ ih => exact ih
  | crash _ ih => exact ih
  | @step t _ _ _ m p hl hm hp hlt hr ih =>
    obtain ⟨⟨c', h1, h2⟩, h3⟩ := ih
    obtain ⟨cur, h4, _, h5, _⟩ := hist_inv (hl.hist hs)
    obtain ⟨rfl, h6⟩ := h5 _ hm
    rw [h4.openMgr_eq.2] at h1
    rw [← h6] at hlt
    have hlt' := hlt c' h1
    obtain ⟨⟨d', h7, h8, _⟩, _⟩ := step_main h4 hp hlt m
    have hne : ckptName key (val c) ≠ ckptName key (val p) := fun e => by
      have h9 := suffixInt_ckptName key hp
      rw [← e, suffixInt_ckptName key hk.1, Option.some.injEq] at h9
      omega
    have hkeep := fun d => keeps_step m (val p) p d (cur.map (fun c => ckptName key (val c))) hne (by rw [suffixInt_ckptName key hk.1]; simp)
    rw [h7] at hr
    cases hr
    refine ⟨⟨p, h8.openMgr_eq.2, by omega⟩, fun f hf => h3 f ?_⟩
    simp only [stepRun] at h7
    split at h7
    · rename_i ops t' hops
      simp only [Option.some.injEq, Prod.mk.injEq] at h7
      refine keeps_run (hkeep t.dir) f ?_
      rw [hops, h7.1]; exact hf
    · exact (nomatch h7)
  | crashStep m p n hl hm hp hlt ih =>
    obtain ⟨⟨c', h1, h2⟩, h3⟩ := ih
    obtain ⟨cur, h4, _, h5, _⟩ := hist_inv (hl.hist hs)
    obtain ⟨rfl, h6⟩ := h5 _ hm
    rw [h4.openMgr_eq.2] at h1
    rw [← h6] at hlt
    have hlt' := hlt c' h1
    obtain ⟨_, h7⟩ := step_main h4 hp hlt m
    have hne : ckptName key (val c) ≠ ckptName key (val p) := fun e => by
      have h9 := suffixInt_ckptName key hp
      rw [← e, suffixInt_ckptName key hk.1, Option.some.injEq] at h9
      omega
    constructor
    · rcases (h7 n).1 with h8 | h8
      · exact ⟨c', by rw [h8.openMgr_eq.2, h1], h2⟩
      · exact ⟨p, h8.openMgr_eq.2, by omega⟩
    · intro f hf
      refine h3 f (keeps_run (ops := ((stepOps m key (val p) p _ (cur.map (fun c => ckptName key (val c)))).1.take n)) ?_ f hf)
      intro o ho
      exact keeps_step m (val p) p _ _ hne (by rw [suffixInt_ckptName key hk.1]; simp) o (List.mem_of_mem_take ho)

end

/-! ## the reader -/

/-- the reader refers to no checkpoint but `l`, and the directory was `d0` when it was opened -/
def ReadsOnly (l : Option String) (d0 : Dir Files) (m : Mgr) : Prop := m.disk = d0 ∧ m.last = l ∧ ∀ k, m.src = .ckpt k → l = some k

/-- if the checkpoint `l` is complete in `d`, it is as it was in `d0` -/
def Compat (l : Option String) (d0 d : Dir Files) : Prop := ∀ k f, l = some k → dget d k = some (.full f) → dget d0 k = some (.full f)

/-- on the directory `d` the call `x` fails because a file is missing (if there is a checkpoint at all), or does what `y` does on the original directory -/
def SimAt {α : Type} (l : Option String) (d0 d : Dir Files) (x y : Call α) (m : Mgr) : Prop :=
  (l.isSome = true ∧ (x (m.onDisk d)).1 = .error .fileNotFound) ∨
    ((x (m.onDisk d)).1 = (y m).1 ∧ (x (m.onDisk d)).2 = (y m).2.onDisk d ∧ ReadsOnly l d0 (y m).2)

def Sim {α : Type} (l : Option String) (d0 d : Dir Files) (x y : Call α) : Prop := ∀ m, ReadsOnly l d0 m → SimAt l d0 d x y m

section
variable {l : Option String} {d0 d : Dir Files}

theorem SimAt.bind {α β : Type} {x y : Call α} {f g : α → Call β} {m : Mgr} (h : SimAt l d0 d x y m)
    (hf : ∀ a m', y m = (.ok a, m') → ReadsOnly l d0 m' → SimAt l d0 d (f a) (g a) m') : SimAt l d0 d (x >>= f) (y >>= g) m := by
  simp only [SimAt, Call.bind_eq]
  rcases h with ⟨hn, h⟩ | ⟨h1, h2, h3⟩
  · cases hx : x (m.onDisk d) with
    | mk r m' =>
      rw [hx] at h
      cases r with
      | error e =>
        simp only [Except.error.injEq] at h
        subst h
        exact .inl ⟨hn, rfl⟩
      | ok a => exact (nomatch h)
  · cases hx : x (m.onDisk d) with
    | mk r m' =>
      cases hy : y m with
      | mk r' m'' =>
        rw [hx, hy] at h1 h2
        rw [hy] at h3
        simp only at h1 h2 h3
        subst h1 h2
        cases r with
        | error e => exact .inr ⟨rfl, rfl, h3⟩
        | ok a => exact hf a m'' hy h3

theorem Sim.bind {α β : Type} {x y : Call α} {f g : α → Call β} (h : Sim l d0 d x y) (hf : ∀ a, Sim l d0 d (f a) (g a)) :
    Sim l d0 d (x >>= f) (y >>= g) := fun m hm => (h m hm).bind fun a m' _ hr => hf a m' hr

theorem Sim.self {β : Type} {f g : Mgr → Call β} (h : ∀ m, ReadsOnly l d0 m → SimAt l d0 d (f (m.onDisk d)) (g m) m) :
    Sim l d0 d (Call.self >>= f) (Call.self >>= g) := h

theorem Sim.lift {α : Type} (x : Except Err α) : Sim l d0 d (Call.lift x) (Call.lift x) := fun _ h => .inr ⟨rfl, rfl, h⟩
theorem Sim.pure {α : Type} (a : α) : Sim l d0 d (pure a : Call α) (pure a) := fun _ h => .inr ⟨rfl, rfl, h⟩

theorem Sim.modify {f : Mgr → Mgr} (h1 : ∀ m, f (m.onDisk d) = (f m).onDisk d) (h2 : ∀ m, ReadsOnly l d0 m → ReadsOnly l d0 (f m)) :
    Sim l d0 d (Call.modify f) (Call.modify f) := fun m hm => .inr ⟨rfl, h1 m, h2 m hm⟩

variable (E : MgrEnv) (hc : Compat l d0 d)
include hc

theorem ckptFiles_sim {k : String} (hl : l = some k) : ckptFiles d k = .error .fileNotFound ∨ ckptFiles d k = ckptFiles d0 k := by
  simp only [ckptFiles]
  cases hd : dget d k with
  | none => exact .inl rfl
  | some e =>
    cases e with
    | full f => exact .inr (by rw [hc k f hl hd])
    | broken => exact .inl rfl
    | file => exact .inl rfl

theorem loadConfig_sim {m : Mgr} (hm : ReadsOnly l d0 m) :
    (l.isSome = true ∧ (m.onDisk d).loadConfig E = .error .fileNotFound) ∨ (m.onDisk d).loadConfig E = m.loadConfig E := by
  obtain ⟨rfl, rfl, h3⟩ := hm
  simp only [Mgr.loadConfig, Mgr.onDisk]
  cases hl : m.last with
  | none => exact .inr rfl
  | some k =>
    simp only
    rcases ckptFiles_sim hc hl with h | h
    · rw [h]; exact .inl ⟨rfl, rfl⟩
    · rw [h]; exact .inr rfl

theorem configX_sim : Sim l d0 d (configX E) (configX E) := by
  intro m hm
  cases hcf : m.config with
  | some c =>
    have h1 : ∀ m : Mgr, m.config = some c → configX E m = (.ok c, m) := fun m h => by simp only [configX, h]
    rw [SimAt, h1 m hcf, h1 (m.onDisk d) hcf]
    exact .inr ⟨rfl, rfl, hm⟩
  | none =>
    have h1 : ∀ m : Mgr, m.config = none → configX E m = match m.loadConfig E with
        | .error e => (.error e, m)
        | .ok l => (.ok l.value, { m with config := some l.value, schedules := l.schedules }) := fun m h => by
      simp only [configX, h]; cases m.loadConfig E <;> rfl
    rw [SimAt, h1 m hcf, h1 (m.onDisk d) hcf]
    rcases loadConfig_sim E hc hm with ⟨hn, h⟩ | h
    · rw [h]; exact .inl ⟨hn, rfl⟩
    · rw [h]
      cases m.loadConfig E with
      | error e => exact .inr ⟨rfl, rfl, hm⟩
      | ok r => exact .inr ⟨rfl, rfl, hm⟩

theorem loadStateX_sim : Sim l d0 d (loadStateX E) (loadStateX E) := by
  apply Sim.self
  intro m hm
  have hl := hm.2.1
  have hd := hm.1
  cases hml : m.last with
  | some k =>
    have hml' : (m.onDisk d).last = some k := hml
    rw [hml] at hl
    simp only [hml']
    refine (configX_sim E hc).bind (fun _ => ?_) m hm
    rcases ckptFiles_sim hc hl.symm with h | h
    · rw [show (m.onDisk d).disk = d from rfl, h]
      intro m _; exact .inl ⟨by rw [← hl]; rfl, rfl⟩
    · rw [show (m.onDisk d).disk = d from rfl, h, hd]
      exact (Sim.lift _).bind fun _ => (Sim.lift _).bind fun _ => Sim.pure _
  | none =>
    have hml' : (m.onDisk d).last = none := hml
    simp only [hml']
    cases E.init with
    | dir f => exact ((configX_sim E hc).bind fun _ => (Sim.lift _).bind fun _ => Sim.pure _) m hm
    | absent => exact ((configX_sim E hc).bind fun _ => (Sim.lift _).bind fun _ => Sim.pure _) m hm
    | file doc => exact ((configX_sim E hc).bind fun _ => (Sim.lift _).bind fun _ => Sim.pure _) m hm

theorem applyX_sim (o : LObj) : Sim l d0 d (applyX E o) (applyX E o) := by
  refine (configX_sim E hc).bind fun c => Sim.self fun m hm => ?_
  exact (Sim.bind (Sim.modify (f := fun m' => { m' with config := some (applyRegDX (E.sv o.attrs) m.schedules c).2 }) (fun _ => rfl) (fun _ h => h))
    fun _ => Sim.lift (applyRegDX (E.sv o.attrs) m.schedules c).1) m hm

omit hc in
theorem loadStateX_src {E : MgrEnv} {m m' : Mgr} {r : LObj × Src} (h : loadStateX E m = (.ok r, m')) : ∀ k, r.2 = .ckpt k → m.last = some k := by
  intro k hk
  simp only [loadStateX, Call.bind_eq, Call.self_eq] at h
  cases hl : m.last with
  | some n =>
    simp only [hl, Call.bind_eq] at h
    split at h
    · simp only [Call.lift] at h
      split at h
      · split at h
        · simp only [Call.pure_eq, Prod.mk.injEq, Except.ok.injEq] at h
          rw [← h.1] at hk
          simp only [Src.ckpt.injEq] at hk
          rw [hk]
        · exact (nomatch (Prod.mk.inj h).1)
      · exact (nomatch (Prod.mk.inj h).1)
    · exact (nomatch (Prod.mk.inj h).1)
  | none =>
    exfalso
    simp only [hl] at h
    cases hi : E.init <;> simp only [hi, Call.bind_eq] at h
    all_goals
      split at h
      · simp only [Call.lift] at h
        split at h
        · simp only [Call.pure_eq, Prod.mk.injEq, Except.ok.injEq] at h
          rw [← h.1] at hk
          exact (nomatch hk)
        · exact (nomatch (Prod.mk.inj h).1)
      · exact (nomatch (Prod.mk.inj h).1)

theorem stateX_sim : Sim l d0 d (stateX E) (stateX E) := by
  apply Sim.self
  intro m hm
  cases hst : m.state with
  | some o =>
    have hst' : (m.onDisk d).state = some o := hst
    simp only [hst']
    exact Sim.pure o m hm
  | none =>
    have hst' : (m.onDisk d).state = none := hst
    simp only [hst']
    refine (loadStateX_sim E hc m hm).bind fun r m' hr hm' => ?_
    have hsrc := loadStateX_src hr
    rw [hm.2.1] at hsrc
    refine SimAt.bind (m := m') ?_ fun _ m'' _ h => (applyX_sim E hc r.1).bind (fun _ => Sim.pure r.1) m'' h
    exact .inr ⟨rfl, rfl, hm'.1, hm'.2.1, hsrc⟩

/-! ## reading fields -/

omit hc in
theorem lazyGet_gone {P : Prop} (L L' : LEnv) (h : L' = L ∨ (P ∧ L' = { L with disk := fun _ => none })) (n : Nat) (o : LObj) (k : String) :
    (P ∧ (lazyGet L' n o k).res = .error .fileNotFound) ∨ lazyGet L' n o k = lazyGet L n o k := by
  rcases h with rfl | ⟨hP, rfl⟩
  · exact .inr rfl
  cases n with
  | zero => exact .inr rfl
  | succ n =>
    simp only [lazyGet]
    cases L.isLazy with
    | false => exact .inr rfl
    | true =>
      cases dget o.unloaded k with
      | none => exact .inr rfl
      | some e => exact .inl ⟨hP, rfl⟩

omit hc in
theorem readAll_gone {P : Prop} {f g : LObj → String → Out Val} (h : ∀ o k, (P ∧ (f o k).res = .error .fileNotFound) ∨ f o k = g o k) :
    ∀ (ks : List String) (o : LObj), (P ∧ (readAll f o ks).res = .error .fileNotFound) ∨ readAll f o ks = readAll g o ks := by
  intro ks
  induction ks with
  | nil => intro o; exact .inr rfl
  | cons k ks ih =>
    intro o
    simp only [readAll]
    rcases h o k with ⟨hP, h1⟩ | h1
    · rw [h1]; exact .inl ⟨hP, rfl⟩
    · rw [h1]
      cases hr : (g o k).res with
      | error e => exact .inr rfl
      | ok v =>
        simp only
        rcases ih (g o k).obj with ⟨hP, h2⟩ | h2
        · rw [h2]; exact .inl ⟨hP, rfl⟩
        · rw [h2]; exact .inr rfl

theorem lenv_sim {m : Mgr} (hm : ReadsOnly l d0 m) :
    (m.onDisk d).lenv E = m.lenv E ∨ (l.isSome = true ∧ (m.onDisk d).lenv E = { m.lenv E with disk := fun _ => none }) := by
  obtain ⟨hd, hl, h3⟩ := hm
  simp only [Mgr.lenv, Mgr.blobs, Mgr.onDisk]
  cases hs : m.src with
  | init => exact .inl rfl
  | ckpt k =>
    simp only
    have h4 := hc k
    have h5 : l.isSome = true := by rw [h3 k hs]; rfl
    cases hk : dget d k with
    | none => exact .inr ⟨h5, rfl⟩
    | some e =>
      cases e with
      | full f =>
        left
        rw [hd, h4 f (h3 k hs) hk]
      | broken => exact .inr ⟨h5, rfl⟩
      | file => exact .inr ⟨h5, rfl⟩

omit hc in
theorem setState_sim (s : LObj) :
    Sim l d0 d (Call.modify fun m => { m with state := some s }) (Call.modify fun m => { m with state := some s }) :=
  Sim.modify (fun _ => rfl) (fun _ h => h)

theorem getStateX_sim (k : String) : Sim l d0 d (getStateX E k) (getStateX E k) := by
  refine (stateX_sim E hc).bind fun o => Sim.self fun m hm => ?_
  have h := lazyGet_gone (m.lenv E) _ (lenv_sim E hc hm) E.depth o k
  simp only
  generalize lazyGet (m.lenv E) E.depth o k = r at h
  generalize lazyGet ((m.onDisk d).lenv E) E.depth o k = r' at h
  rcases h with ⟨hn, h⟩ | rfl
  · rw [h]; exact .inl ⟨hn, rfl⟩
  · exact ((setState_sim r'.obj).bind fun _ => Sim.lift r'.res) m hm

theorem setStateX_sim (k : String) (v : Val) : Sim l d0 d (setStateX E k v) (setStateX E k v) :=
  (stateX_sim E hc).bind fun _ => Sim.modify (fun _ => rfl) (fun _ h => h)

theorem configDictX_sim : Sim l d0 d (configDictX E) (configDictX E) :=
  (configX_sim E hc).bind fun _ => (Sim.lift _).bind fun _ => Sim.pure _

theorem checkpointX_sim : Sim l d0 d (checkpointX E) (checkpointX E) := by
  refine (configX_sim E hc).bind fun c => Sim.self fun m hm => ?_
  refine (Sim.lift _).bind (fun r => ?_) m hm
  refine (stateX_sim E hc).bind fun o => Sim.self fun m hm => ?_
  have h := readAll_gone (fun o k => lazyGet_gone (m.lenv E) _ (lenv_sim E hc hm) E.depth o k) E.stTy.fieldNames o
  simp only
  generalize readAll (lazyGet (m.lenv E) E.depth) o E.stTy.fieldNames = r1 at h
  generalize readAll (lazyGet ((m.onDisk d).lenv E) E.depth) o E.stTy.fieldNames = r1' at h
  rcases h with ⟨hn, h⟩ | rfl
  · rw [h]; exact .inl ⟨hn, rfl⟩
  · exact ((setState_sim r1'.obj).bind fun _ => (Sim.lift r1'.res).bind fun vs => (Sim.lift _).bind fun s => Sim.pure _) m hm

theorem execX_sim (op : MOp) (hr : op.reads = true) : Sim l d0 d (fun m => m.execX E op) (fun m => m.execX E op) := by
  cases op with
  | readConfig => exact (configX_sim E hc).bind fun _ => Sim.pure ()
  | getState k => exact (getStateX_sim E hc k).bind fun _ => Sim.pure ()
  | setState k v => exact setStateX_sim E hc k v
  | step mv => exact (nomatch hr)
  | configDict => exact (configDictX_sim E hc).bind fun _ => Sim.pure ()
  | checkpoint => exact (checkpointX_sim E hc).bind fun _ => Sim.pure ()

end

theorem runShared_sim {E : MgrEnv} {l : Option String} {d0 : Dir Files} : ∀ (ops : List (Dir Files × MOp)) (m m' : Mgr), ReadsOnly l d0 m →
    (∀ d, m'.onDisk d = m.onDisk d) → (∀ o ∈ ops, o.2.reads = true ∧ Compat l d0 o.1) →
    .error .fileNotFound ∈ (m'.runShared E ops).1 ∨
      ((m'.runShared E ops).1 = (m.runX E (ops.map Prod.snd)).1 ∧
        (∀ d, (m'.runShared E ops).2.onDisk d = (m.runX E (ops.map Prod.snd)).2.onDisk d) ∧ ReadsOnly l d0 (m.runX E (ops.map Prod.snd)).2) := by
  intro ops
  induction ops with
  | nil => intro m m' hm he _; exact .inr ⟨rfl, he, hm⟩
  | cons o ops ih =>
    intro m m' hm he hops
    obtain ⟨hr, hc⟩ := hops o (List.mem_cons_self ..)
    have hops' := fun o' ho => hops o' (List.mem_cons_of_mem _ ho)
    obtain ⟨d, op⟩ := o
    simp only [Mgr.runShared, Mgr.runX, List.map_cons]
    rw [he d]
    rcases execX_sim E hc op hr m hm with ⟨-, h⟩ | ⟨h1, h2, h3⟩
    · left
      simp only at h
      rw [h]; exact List.mem_cons_self ..
    · simp only at h1 h2 h3
      rw [h1, h2]
      rcases ih (m.execX E op).2 ((m.execX E op).2.onDisk d) h3 (fun _ => rfl) hops' with h | ⟨h4, h5, h6⟩
      · exact .inl (List.mem_cons_of_mem _ h)
      · exact .inr ⟨by rw [h4], h5, h6⟩

section
variable {key : String} {val : Files → Int}

theorem compat_later {d0 : Dir Files} {s t : Sys Files} (hs : Hist key val d0 s) (h : Later key val s t) :
    Compat (openMgr s.dir) s.dir t.dir := by
  intro k f hk hf
  obtain ⟨cur, h1, _⟩ := hist_inv hs
  obtain ⟨h2, h3⟩ := h1.openMgr_eq
  rw [hk] at h2
  cases cur with
  | none => exact (nomatch h2)
  | some c =>
    simp only [Option.map_some, Option.some.injEq] at h2
    subst h2
    rw [(later_contents hs h h3).2 f hf]
    exact (h1.2 c rfl).2

theorem reads_new (E : MgrEnv) (hck : E.ckpt = true) (d : Dir Files) : ReadsOnly (openMgr d) d (Mgr.new E d) :=
  ⟨rfl, by simp only [Mgr.new, hck, if_true], fun k h => nomatch h⟩

theorem onDisk_self {m : Mgr} {d : Dir Files} (h : m.disk = d) : m.onDisk d = m := by subst h; rfl

/-- C77: a process opens the directory that another one trains in, at any moment of its history, and reads from it, while the trainer
goes on, in whatever way: then either some read finds a file missing, or all of them give what they would have given had the
directory never changed. In particular config, state and all its fields are those of one checkpoint. -/
theorem C77_one_checkpoint {d0 : Dir Files} {s : Sys Files} (hs : Hist key val d0 s) (E : MgrEnv) (hck : E.ckpt = true)
    (ops : List (Dir Files × MOp)) (hr : ∀ o ∈ ops, o.2.reads = true) (hd : ∀ o ∈ ops, ∃ t, Later key val s t ∧ o.1 = t.dir) :
    .error .fileNotFound ∈ ((Mgr.new E s.dir).runShared E ops).1 ∨
      (((Mgr.new E s.dir).runShared E ops).1 = ((Mgr.new E s.dir).runX E (ops.map Prod.snd)).1 ∧
        ((Mgr.new E s.dir).runShared E ops).2.onDisk s.dir = ((Mgr.new E s.dir).runX E (ops.map Prod.snd)).2) := by
  rcases runShared_sim (E := E) ops (Mgr.new E s.dir) (Mgr.new E s.dir) (reads_new E hck s.dir) (fun _ => rfl) (fun o ho => by
    obtain ⟨t, h1, h2⟩ := hd o ho
    exact ⟨hr o ho, by rw [h2]; exact compat_later hs h1⟩) with h | ⟨h1, h2, h3⟩
  · exact .inl h
  · refine .inr ⟨h1, ?_⟩
    rw [h2 s.dir]
    exact onDisk_self h3.1

/-- C77: the values that such a process reads, at any later moment. -/
theorem C77_values {d0 : Dir Files} {s t : Sys Files} (hs : Hist key val d0 s) (E : MgrEnv) (hck : E.ckpt = true)
    (ops : List (Dir Files × MOp)) (hr : ∀ o ∈ ops, o.2.reads = true) (hd : ∀ o ∈ ops, ∃ t, Later key val s t ∧ o.1 = t.dir)
    (hok : .error .fileNotFound ∉ ((Mgr.new E s.dir).runShared E ops).1) (ht : Later key val s t) :
    let m := ((Mgr.new E s.dir).runShared E ops).2.onDisk t.dir
    let m0 := ((Mgr.new E s.dir).runX E (ops.map Prod.snd)).2
    ((configX E m).1 = .error .fileNotFound ∨ (configX E m).1 = (configX E m0).1) ∧
    ∀ k, (getStateX E k m).1 = .error .fileNotFound ∨ (getStateX E k m).1 = (getStateX E k m0).1 := by
  intro m m0
  have hc := compat_later hs ht
  rcases runShared_sim (E := E) ops (Mgr.new E s.dir) (Mgr.new E s.dir) (reads_new E hck s.dir) (fun _ => rfl) (fun o ho => by
    obtain ⟨t, h1, h2⟩ := hd o ho
    exact ⟨hr o ho, by rw [h2]; exact compat_later hs h1⟩) with h | ⟨h1, h2, h3⟩
  · exact absurd h hok
  · have hm : m = m0.onDisk t.dir := h2 t.dir
    rw [hm]
    constructor
    · rcases configX_sim E hc m0 h3 with h | h
      · exact .inl h.2
      · exact .inr h.1
    · intro k
      rcases getStateX_sim E hc k m0 h3 with h | h
      · exact .inl h.2
      · exact .inr h.1

/-- C77: reading does not disturb the trainer: the directory is left as it was, whatever it contains. -/
theorem C77_undisturbed (E : MgrEnv) (m : Mgr) (d : Dir Files) (op : MOp) (hr : op.reads = true) : ((m.onDisk d).execX E op).2.disk = d :=
  (C71_disk E (m.onDisk d) op (by rintro mv rfl; exact (nomatch hr))).1

theorem last_gone {P : Type} {key : String} (m : Move) (v : Int) (p : P) (d d' : Dir P) (n : String) (t : Option String)
    (h : stepRun m key v p d (some n) = some (d', t)) : dget d' n = none := by
  simp only [stepRun, stepOps] at h
  generalize (if dhas d (ckptName key v) then [] else checkpointOps m (ckptName key v) p : List (Op P)) = w at h
  split at h
  · rename_i ops t' hops
    split at hops
    · simp only [Prod.mk.injEq] at hops
      simp only [Option.some.injEq, Prod.mk.injEq] at h
      rw [← h.1, ← hops.1, runOps_append]
      simp only [removeOps]
      split <;> simp [runOps, List.foldl, Op.run]
    · exact (nomatch (Prod.mk.inj hops).2)
  · exact (nomatch h)

/-- C77 is false if the process is to succeed: when the trainer has completed a step since, the config cannot be loaded any more, nor a
state that has not been read. -/
theorem C77_gone_false {d0 : Dir Files} {s : Sys Files} (hs : Hist key val d0 s) (E : MgrEnv) (hck : E.ckpt = true) (mv : Move) (p : Files)
    {last t : Option String} {d' : Dir Files} (hm : s.mgr = some last) (hsome : s.safe.isSome = true) (hp : KeyInRange (val p))
    (hlt : ∀ c, s.safe = some c → val c < val p) (h : stepRun mv key (val p) p s.dir last = some (d', t)) :
    Later key val s ⟨d', some t, some p, none, s.crashes⟩ ∧
    (configX E ((Mgr.new E s.dir).onDisk d')).1 = .error .fileNotFound ∧
    ∀ k, (getStateX E k ((Mgr.new E s.dir).onDisk d')).1 = .error .fileNotFound := by
  obtain ⟨cur, h1, _, h3, _⟩ := hist_inv hs
  obtain ⟨rfl, h4⟩ := h3 _ hm
  obtain ⟨c, hc⟩ := Option.isSome_iff_exists.1 hsome
  obtain ⟨h5, _⟩ := h1.openMgr_eq
  rw [h4, hc] at h5
  simp only [Option.map_some] at h5
  have h' := h
  rw [h4, hc] at h'
  have hg := last_gone mv (val p) p s.dir d' (ckptName key (val c)) t h'
  have hcfg : configX E ((Mgr.new E s.dir).onDisk d') = (.error .fileNotFound, (Mgr.new E s.dir).onDisk d') := by
    simp only [configX, Mgr.new, Mgr.onDisk, Mgr.loadConfig, hck, if_true, h5, ckptFiles, hg, bind, Except.bind]
  refine ⟨.step mv p .refl hm hp hlt h, by rw [hcfg], fun k => ?_⟩
  have hls : loadStateX E ((Mgr.new E s.dir).onDisk d') = (.error .fileNotFound, (Mgr.new E s.dir).onDisk d') := by
    have : ((Mgr.new E s.dir).onDisk d').last = some (ckptName key (val c)) := by simp only [Mgr.new, Mgr.onDisk, hck, if_true, h5]
    simp only [loadStateX, Call.bind_eq, Call.self_eq, this, hcfg]
  have hst : ((Mgr.new E s.dir).onDisk d').state = none := rfl
  simp only [getStateX, stateX, Call.bind_eq, Call.self_eq, hst, hls]

/-- C77: a second process that trains in the same directory is another matter: once the first has completed a step, no step of the
second returns, whatever its key is (unless it is that of the checkpoint they both started from). -/
theorem C77_two_trainers_false {P : Type} (m m' : Move) (key : String) (a b : Int) (p q : P) (d d' : Dir P) (n : String) (t : Option String)
    (h : stepRun m key a p d (some n) = some (d', t)) (hb : n ≠ ckptName key b) (hs : suffixInt n ≠ none) :
    stepRun m' key b q d' (some n) = none := by
  have hg := last_gone m a p d d' n t h
  have hw : dget (runOps d' (checkpointOps m' (ckptName key b) q)) n = none := by
    simp only [checkpointOps]
    split
    · simp only [runOps, List.foldl, Op.run]
      rw [dget_dset_ne _ _ (Ne.symm hb), hg]
    · rename_i id _
      have hT : ckptName key b ++ "." ++ id ++ ".tmp" ≠ n := by rintro rfl; exact hs (suffixInt_tmp _ _)
      simp only [runOps, List.foldl, Op.run, dget_dset_self]
      rw [dget_dset_ne _ _ (Ne.symm hb), dget_ddel_ne _ hT, dget_dset_ne _ _ hT, dget_dset_ne _ _ hT, hg]
  have hw' : dhas (runOps d' (if dhas d' (ckptName key b) then [] else checkpointOps m' (ckptName key b) q)) n = false := by
    rw [dhas_false]
    split
    · exact hg
    · exact hw
  simp only [stepRun, stepOps, hw', if_neg Bool.false_ne_true]

end

/-! ## a concrete trainer and reader -/

namespace ExShared
open ExM ExLife

def val (f : Files) : Int :=
  match f.state with
  | .dict d => match dget d "step" with
    | some (.int i) => i
    | _ => 0
  | _ => 0

def mv : Move := ⟨.none, false⟩

/-- the trainer after the step with key 10 -/
def s10 : Sys Files := ⟨disk10, some (some (ckptName "step" 10)), some (filesAt 10), .none, 0⟩
/-- during the step with key 20: both checkpoints are there -/
def mid : Dir Files := [("latest-step000000000010", .full (filesAt 10)), ("latest-step000000000020", .full (filesAt 20))]
/-- after it -/
def disk20 : Dir Files := [("latest-step000000000020", .full (filesAt 20))]

theorem hist10 : Hist "step" val [] s10 := by
  have h1 : Hist "step" val [] ⟨[], some .none, .none, .none, 0⟩ := by
    have h := Hist.start (Hist.init (key := "step") (val := val) (d0 := []) (.empty nofun))
    have ho : openMgr ([] : Dir Files) = none := by decide +kernel
    simp only [restored, ho] at h
    exact h
  refine Hist.step mv (filesAt 10) h1 rfl (by simp [KeyInRange, val, filesAt, dget]) nofun ?_
  show some ([(ckptName "step" 10, _)], _) = some (disk10, _)
  rw [name10]; rfl

theorem later_mid : ∃ t, Later "step" val s10 t ∧ mid = t.dir := by
  refine ⟨_, Later.crashStep mv (filesAt 20) 1 .refl rfl (by simp [KeyInRange, val, filesAt, dget]) (by intro c hc; cases hc; decide), ?_⟩
  show mid = stepCrash mv "step" 20 (filesAt 20) disk10 (some (ckptName "step" 10)) 1
  simp only [stepCrash, stepOps, name10, name20]
  rfl

theorem later20 : ∃ t, Later "step" val s10 t ∧ disk20 = t.dir := by
  refine ⟨_, Later.step mv (filesAt 20) .refl rfl (by simp [KeyInRange, val, filesAt, dget]) (by intro c hc; cases hc; decide) (d' := disk20)
    (last' := some (ckptName "step" 20)) ?_, rfl⟩
  show stepRun mv "step" 20 (filesAt 20) disk10 (some (ckptName "step" 10)) = _
  simp only [stepRun, stepOps, name10, name20]
  rfl
end ExShared

open ExShared ExM ExLife in
/-- Reading the config before, the state and its field during the trainer's step: all from the checkpoint of step 10. Reading the field
only after the step fails. -/
example : (((Mgr.new env disk10).runShared env [(disk10, .readConfig), (mid, .getState "step"), (mid, .getState "net")]).1.map fun r => r.toOption.isSome)
      = [true, true, true] ∧
    (((Mgr.new env disk10).runShared env [(disk10, .readConfig), (mid, .getState "step"), (disk20, .getState "net")]).1.map fun r => match r with
      | .ok _ => "ok"
      | .error .fileNotFound => "missing"
      | .error _ => "other") = ["ok", "ok", "missing"] := by
  decide +kernel

end HS
