import Verif.Proofs.ConfigHist
import Verif.Proofs.SchedAt0
import Verif.Props.Schedule
/-!
# C64, C65: what can happen to the config of a StateManager
-/
namespace HS

/-! ## C64: only scheduled fields change -/

/-- `_apply_schedules` adds nothing else -/
theorem apply_frame_rev (sv : String → Except Err Flt) : ∀ (segs : List String) (es : RegD) (v v' : Val), TopOK es →
    applyRegD sv es v = .ok v' → ∀ x, valAt v' segs = some x → (∀ n kvs, x ≠ .inst n kvs) →
    (∀ p y, Reg.at (some (.node es)) p = some y → ¬ p <+: segs) → valAt v segs = some x := by
  intro segs
  induction segs with
  | nil =>
    intro es v v' hok h x hx hni _
    rcases applyRegD_inv sv es v v' hok h with ⟨rfl, rfl⟩ | ⟨n, kvs, kvs', rfl, rfl, hall⟩
    · exact hx
    · simp only [valAt, Option.some.injEq] at hx
      exact absurd hx.symm (hni n kvs')
  | cons s segs ih =>
    intro es v v' hok h x hx hni hp
    rcases applyRegD_inv sv es v v' hok h with ⟨rfl, rfl⟩ | ⟨n, kvs, kvs', rfl, rfl, hall⟩
    · exact hx
    · have := hall s
      cases hd : dget es s with
      | none =>
        rw [hd] at this
        simp only [Applied] at this
        simp only [valAt, this] at hx
        simpa only [valAt] using hx
      | some r =>
        rw [hd] at this
        cases r with
        | sched t j a =>
          exact absurd (List.prefix_append [s] segs) (hp [s] (t, j) (by simp [Reg.at, hd]))
        | node es' =>
          obtain ⟨c, c', h1, h2, h3⟩ := this
          simp only [valAt, h3] at hx
          have := ih es' c c' (hok.child hd) h2 x hx hni (fun p y hpy hpre => hp (s :: p) y (by simp [Reg.at, hd, hpy])
            (List.cons_prefix_cons.2 ⟨rfl, hpre⟩))
          simp only [valAt, h1, this]

/-- C64: after every history of reads, assignments to the state, checkpoints and steps, the config that is returned has the same
schedules as the config loaded from the file given by `ConfigFrom` with the overrides, and the same value as that config in every
field that has no schedule; nothing is added or removed. -/
theorem C64_frame (E : MgrEnv) (disk : Dir Files) (ops : List MOp) (m m1 : Mgr) (c : Val)
    (h : (Mgr.new E disk).run E ops = .ok m) (hr : m.readConfig E = .ok (c, m1)) :
    ∃ doc l, ConfigFrom E disk doc ∧ smLoadConfig E.w E.cfgTy doc E.overrides E.ignoreExtra = .ok l ∧ m1.schedules = l.schedules ∧
      ∀ segs x, (∀ n kvs, x ≠ .inst n kvs) → (∀ p y, Reg.at (some (.node l.schedules)) p = some y → ¬ p <+: segs) →
        (valAt c segs = some x ↔ valAt l.value segs = some x) := by
  refine config_history (P := fun l c => ∀ segs x, (∀ n kvs, x ≠ .inst n kvs) →
      (∀ p y, Reg.at (some (.node l.schedules)) p = some y → ¬ p <+: segs) →
      (valAt c segs = some x ↔ valAt l.value segs = some x)) (fun l doc _ _ segs x _ _ => Iff.rfl) ?_ ops h hr
  intro l c c' attrs htop hP ha segs x hx hp
  rw [← hP segs x hx hp]
  exact ⟨fun h => apply_frame_rev _ segs _ _ _ htop ha x h hx hp, fun h => apply_frame _ segs _ _ _ htop ha x h hx hp⟩

/-- C64: a config without schedules never changes. -/
theorem C64_constant (E : MgrEnv) (disk : Dir Files) (ops : List MOp) (m m1 : Mgr) (c : Val)
    (h : (Mgr.new E disk).run E ops = .ok m) (hr : m.readConfig E = .ok (c, m1)) (hn : m1.schedules = []) :
    ∃ m0, (Mgr.new E disk).readConfig E = .ok (c, m0) := by
  obtain ⟨doc, l, h1, h2, h3, h4⟩ := config_history (P := fun l c => l.schedules = [] → c = l.value) (fun l doc _ _ _ => rfl) (by
    intro l c c' attrs _ hP ha hn
    rw [hn] at ha
    simp only [applyRegD, Except.ok.injEq] at ha
    rw [← ha]
    exact hP hn) ops h hr
  exact (C47_config E disk c).2 ⟨doc, l, h1, h2, h4 (by rw [← h3, hn])⟩

/-- the schedules of the example are at `opt.lr`; after a step the other fields are as in the file -/
example : ∃ m, (Mgr.new ExM.E ExM.disk).readConfig ExM.E = .ok (ExM.cfgV 0, m) ∧ m.schedules = ExM.regd := ⟨_, ExM.read_config, rfl⟩

/-! ## C46, C65: the values of scheduled fields at any time -/

/-- the document that is loaded: the file with the overrides, `{}` without a file -/
def LoadedDoc (E : MgrEnv) (disk : Dir Files) (doc1 : Val) : Prop :=
  ∃ doc, ConfigFrom E disk doc ∧ applyOverrides E.w.ron E.cfgTy E.overrides (doc.getD (.dict [])) = .ok doc1

/-- A config read before the state holds, in every scheduled field, the value of the schedule at 0 (compare C46_false): -/
theorem load_current (E : MgrEnv) (disk : Dir Files) (n : String) (fs : List Fld) (ver : Option VerInfo)
    (hE : E.cfgTy = .data n fs ver) (hid : IdsOK (.data n fs ver))
    (hsh : ∀ doc1, LoadedDoc E disk doc1 → Shallow true (.data n fs ver) 2 doc1) (doc : Option Val) (l : Loaded)
    (hf : ConfigFrom E disk doc) (hl : smLoadConfig E.w E.cfgTy doc E.overrides E.ignoreExtra = .ok l) :
    Current E.w.ext.schedAt0 (some (.node l.schedules)) l.value := by
  have key : ∀ file, typedLoad (E.w.dcfg true file) E.w.ron (some E.overrides) E.ignoreExtra E.cfgTy (doc.getD (.dict [])) = .ok l →
      Current E.w.ext.schedAt0 (some (.node l.schedules)) l.value := by
    intro file hl
    simp only [typedLoad, bind, Except.bind, pure, Except.pure] at hl
    cases ho : applyOverrides E.w.ron E.cfgTy E.overrides (doc.getD (.dict [])) with
    | error e => rw [ho] at hl; exact (nomatch hl)
    | ok doc1 =>
      rw [ho] at hl
      dsimp only at hl
      have hs := hsh doc1 ⟨doc, hf, ho⟩
      rw [hE] at hl
      cases hq : fromDict (E.w.dcfg true file) (.data n fs ver) E.ignoreExtra "" doc1 with
      | error e => rw [hq] at hl; exact (nomatch hl)
      | ok q =>
        rw [hq] at hl
        dsimp only at hl
        obtain ⟨reg, h1, _, h2⟩ := registry_of_load (v := q.1) (es := q.2) hid hs hq
        rw [h1] at hl
        cases hl
        intro segs txt i hat
        exact load_at0 (E.w.dcfg true file) _ 2 _ "" doc1 q.1 q.2 hid hs hq segs txt i ((h2 segs txt i).1 hat)
  cases doc with
  | none => exact key false hl
  | some d => exact key true hl

/-- C46 (partial): a config read before the state holds the values of the schedules at 0, not at the state; this is all that can
be wrong (with C46_load_partial and C46_step_partial). -/
theorem C46_before_partial (E : MgrEnv) (disk : Dir Files) (n : String) (fs : List Fld) (ver : Option VerInfo)
    (hE : E.cfgTy = .data n fs ver) (hid : IdsOK (.data n fs ver))
    (hsh : ∀ doc1, LoadedDoc E disk doc1 → Shallow true (.data n fs ver) 2 doc1) (c : Val) (m : Mgr)
    (h : (Mgr.new E disk).readConfig E = .ok (c, m)) : Current E.w.ext.schedAt0 (some (.node m.schedules)) c := by
  rcases readConfig_inv h with ⟨hc, _⟩ | ⟨_, l, hl, rfl, rfl⟩
  · simp [Mgr.new] at hc
  · obtain ⟨doc, h1, h2⟩ := (loadConfig_iff rfl rfl l).1 hl
    exact load_current E disk n fs ver hE hid hsh doc l h1 h2

/-- C46 (partial): at any time, a scheduled field holds the value of its schedule at 0 or at some state. -/
theorem C46_always_partial (E : MgrEnv) (disk : Dir Files) (n : String) (fs : List Fld) (ver : Option VerInfo)
    (hE : E.cfgTy = .data n fs ver) (hid : IdsOK (.data n fs ver))
    (hsh : ∀ doc1, LoadedDoc E disk doc1 → Shallow true (.data n fs ver) 2 doc1) (ops : List MOp) (m m1 : Mgr) (c : Val)
    (h : (Mgr.new E disk).run E ops = .ok m) (hr : m.readConfig E = .ok (c, m1)) (segs : List String) (txt : String) (i : Bool)
    (hat : Reg.at (some (.node m1.schedules)) segs = some (txt, i)) :
    ∃ x, valAt c segs = some x ∧ (SchedIs E.w.ext.schedAt0 txt i x ∨ ∃ attrs, SchedIs (E.sv attrs) txt i x) := by
  obtain ⟨doc, l, h1, h2, h3, h4⟩ := config_history (P := fun l c => ∀ segs txt i, Reg.at (some (.node l.schedules)) segs = some (txt, i) →
      ∃ x, valAt c segs = some x ∧ (SchedIs E.w.ext.schedAt0 txt i x ∨ ∃ attrs, SchedIs (E.sv attrs) txt i x)) (by
        intro l doc h1 h2 segs txt i hat
        obtain ⟨x, a, b⟩ := load_current E disk n fs ver hE hid hsh doc l h1 h2 segs txt i hat
        exact ⟨x, b, .inl a⟩) (by
        intro l c c' attrs htop _ ha segs txt i hat
        obtain ⟨x, a, b⟩ := apply_current _ segs _ _ _ htop ha txt i hat
        exact ⟨x, b, .inr ⟨attrs, a⟩⟩) ops h hr
  exact h4 segs txt i (by rw [← h3]; exact hat)

/-! ### with the schedules of schedule.py -/

/-- the number an attribute of the state stands for in arithmetic: a finite number -/
inductive IsNum : Val → ℚ → Prop
  | int (i : Int) : IsNum (.int i) i
  | flt (q : ℚ) : IsNum (.flt (.fin q)) q
  | true : IsNum (.bool true) 1
  | false : IsNum (.bool false) 0

/-- schedules are evaluated as in schedule.py (`num` is `float`, `cosPi` the cosine), at the number in the attribute of the state
that the schedule names, or at 0 in a load -/
structure Evaluates (E : MgrEnv) (num : List Char → Option ℚ) (cosPi : ℚ → ℚ) : Prop where
  at0 : ∀ txt q, E.w.ext.schedAt0 txt = .ok q → ∃ f v, parseSched num txt.toList = .ok f ∧ f.getValue cosPi 0 = .ok v ∧ q = .fin v
  sv : ∀ attrs txt q, E.sv attrs txt = .ok q → ∃ f x r v, parseSched num txt.toList = .ok f ∧
    dget attrs (String.ofList f.xname) = some x ∧ IsNum x r ∧ f.getValue cosPi r = .ok v ∧ q = .fin v

theorem getValue_range {cosPi : ℚ → ℚ} (hc : IsCos cosPi) (f : Sched ℚ) {x v lo hi : ℚ} (h : f.getValue cosPi x = .ok v)
    (hb : ∀ s ∈ f.segs, lo ≤ s.initial ∧ lo ≤ s.final ∧ s.initial ≤ hi ∧ s.final ≤ hi) : lo ≤ v ∧ v ≤ hi := by
  by_cases hne : f.segs = []
  · rw [C36_no_segments f hne] at h; exact (nomatch h)
  · obtain ⟨s, h1, h2⟩ := pickSeg_mem x f.segs .none (.inl hne)
    rcases h2 with h2 | h2
    · simp only [Sched.getValue, h1] at h
      split at h
      · exact (nomatch h)
      · simp only [Except.ok.injEq] at h
        obtain ⟨a, b, c, d⟩ := hb s h2
        have := value_between hc s x a b c d
        rw [← h]
        exact this
    · exact (nomatch h2)

/-- truncation stays within integer bounds -/
theorem toInt_range {q : ℚ} {lo hi n : Int} (h1 : (lo : ℚ) ≤ q) (h2 : q ≤ hi) (h : (Flt.fin q).toInt = .ok n) : lo ≤ n ∧ n ≤ hi := by
  simp only [Flt.toInt, Except.ok.injEq] at h
  subst h
  have hd : (0 : Int) < q.den := by exact_mod_cast q.den_pos
  rw [Rat.le_iff] at h1 h2
  simp only [Rat.num_intCast, Rat.den_intCast, Nat.cast_one, mul_one] at h1 h2
  constructor
  · have := Int.tdiv_le_tdiv hd h1
    rwa [Int.mul_tdiv_cancel _ (ne_of_gt hd)] at this
  · have := Int.tdiv_le_tdiv hd h2
    rwa [Int.mul_tdiv_cancel _ (ne_of_gt hd)] at this

/-- C65 (partial): at any time in any history a scheduled field lies within the range of the points of its schedule: between `lo`
and `hi` if all its points do; a scheduled `int` field holds an integer. Missing: schedules in deeper fields (C39), and states in
which the attribute the schedule depends on is not a finite number. -/
theorem C65_range_partial (E : MgrEnv) (disk : Dir Files) (n : String) (fs : List Fld) (ver : Option VerInfo)
    (num : List Char → Option ℚ) (cosPi : ℚ → ℚ) (hc : IsCos cosPi) (hev : Evaluates E num cosPi)
    (hE : E.cfgTy = .data n fs ver) (hid : IdsOK (.data n fs ver))
    (hsh : ∀ doc1, LoadedDoc E disk doc1 → Shallow true (.data n fs ver) 2 doc1) (ops : List MOp) (m m1 : Mgr) (c : Val)
    (h : (Mgr.new E disk).run E ops = .ok m) (hr : m.readConfig E = .ok (c, m1)) (segs : List String) (txt : String) (i : Bool)
    (hat : Reg.at (some (.node m1.schedules)) segs = some (txt, i)) (f : Sched ℚ) (hf : parseSched num txt.toList = .ok f)
    (lo hi : Int) (hb : ∀ s ∈ f.segs, (lo : ℚ) ≤ s.initial ∧ (lo : ℚ) ≤ s.final ∧ s.initial ≤ hi ∧ s.final ≤ hi) :
    (i = false → ∃ v : ℚ, valAt c segs = some (.flt (.fin v)) ∧ lo ≤ v ∧ v ≤ hi) ∧
    (i = true → ∃ k : Int, valAt c segs = some (.int k) ∧ lo ≤ k ∧ k ≤ hi) := by
  obtain ⟨x, hx, hor⟩ := C46_always_partial E disk n fs ver hE hid hsh ops m m1 c h hr segs txt i hat
  have key : ∃ q : ℚ, lo ≤ q ∧ q ≤ hi ∧ ((i = false ∧ x = .flt (.fin q)) ∨ (i = true ∧ ∃ k, (Flt.fin q).toInt = .ok k ∧ x = .int k)) := by
    rcases hor with ⟨q, h1, h2⟩ | ⟨attrs, q, h1, h2⟩
    · obtain ⟨f', v, a, b, rfl⟩ := hev.at0 txt q h1
      rw [hf] at a
      cases a
      obtain ⟨p1, p2⟩ := getValue_range hc f b hb
      exact ⟨v, p1, p2, h2⟩
    · obtain ⟨f', y, r, v, a, _, _, b, rfl⟩ := hev.sv attrs txt q h1
      rw [hf] at a
      cases a
      obtain ⟨p1, p2⟩ := getValue_range hc f b hb
      exact ⟨v, p1, p2, h2⟩
  obtain ⟨q, h1, h2, ⟨rfl, rfl⟩ | ⟨rfl, k, h3, rfl⟩⟩ := key
  · exact ⟨fun _ => ⟨q, hx, h1, h2⟩, nofun⟩
  · obtain ⟨p1, p2⟩ := toInt_range h1 h2 h3
    exact ⟨nofun, fun _ => ⟨k, hx, p1, p2⟩⟩

/-- C65 (partial): once a step is made at a state that has reached the last point of the schedule (which must not end with `step`,
see C37_step_false), the field holds exactly the final value, from then on until the next step, whatever happens to the state. -/
theorem C65_settles_partial (E : MgrEnv) (disk : Dir Files) (num : List Char → Option ℚ) (cosPi : ℚ → ℚ) (hc : IsCos cosPi)
    (hev : Evaluates E num cosPi) (pre post : List MOp) (mv : Move) (m m1 m2 : Mgr)
    (h0 : (Mgr.new E disk).run E pre = .ok m) (h1 : m.step E mv = .ok m1) (h2 : m1.run E post = .ok m2)
    (hpost : ∀ mv, MOp.step mv ∉ post) (segs : List String) (txt : String)
    (hat : Reg.at (some (.node m2.schedules)) segs = some (txt, false)) (f : Sched ℚ) (hf : parseSched num txt.toList = .ok f)
    (ss : List (Seg ℚ)) (s : Seg ℚ) (hs : f.segs = ss ++ [s]) (hinc : Increasing f.segs) (hi : s.interp ≠ .step)
    (o : LObj) (m0 : Mgr) (ho : m.readState E = .ok (o, m0)) (x : Val) (r : ℚ)
    (hx : dget o.attrs (String.ofList f.xname) = some x) (hr : IsNum x r) (hge : s.stop ≤ r) :
    ∃ c, m2.readConfig E = .ok (c, m2) ∧ valAt c segs = some (.flt (.fin s.final)) := by
  obtain ⟨o', m0', c, a1, a2, a3⟩ := C46_step_partial E disk pre post mv m m1 m2 h0 h1 h2 hpost
  rw [ho] at a1
  cases a1
  obtain ⟨y, ⟨q, b1, b2⟩, b3⟩ := a3 segs txt false hat
  obtain ⟨f', x', r', v, c1, c2, c3, c4, rfl⟩ := hev.sv _ _ _ b1
  rw [hf] at c1
  cases c1
  rw [hx] at c2
  cases c2
  have hrr : r' = r := by
    cases hr <;> cases c3 <;> rfl
  subst hrr
  rw [C37_after_partial hc f hs (C35_chained hf) hinc hi hge] at c4
  cases c4
  rcases b2 with ⟨_, rfl⟩ | ⟨hh, _⟩
  · exact ⟨c, a2, b3⟩
  · exact (nomatch hh)

/-! ### an example -/

/-- `float(value)` of an attribute -/
def numOf : Val → Option ℚ
  | .int i => some i
  | .flt (.fin q) => some q
  | .bool b => some (if b then 1 else 0)
  | _ => .none

/-- `schedule.get_value(x)` for the schedule with this text -/
def evalText (num : List Char → Option ℚ) (cosPi : ℚ → ℚ) (x : Sched ℚ → Option ℚ) (txt : String) : Except Err Flt :=
  match parseSched num txt.toList with
  | .error _ => .error .valueError
  | .ok f => match x f with
    | .none => .error .attributeError
    | some r => match f.getValue cosPi r with
      | .ok v => .ok (.fin v)
      | .error _ => .error .valueError

theorem evalText_ok {num : List Char → Option ℚ} {cosPi : ℚ → ℚ} {x : Sched ℚ → Option ℚ} {txt : String} {q : Flt}
    (h : evalText num cosPi x txt = .ok q) :
    ∃ f r v, parseSched num txt.toList = .ok f ∧ x f = some r ∧ f.getValue cosPi r = .ok v ∧ q = .fin v := by
  simp only [evalText] at h
  split at h
  · exact (nomatch h)
  · rename_i f hf
    split at h
    · exact (nomatch h)
    · rename_i r hr
      split at h
      · rename_i v hv
        cases h
        exact ⟨f, r, v, hf, hr, hv, rfl⟩
      · exact (nomatch h)

namespace ExR
/-- one-digit numbers -/
def num : List Char → Option ℚ
  | [c] => if c.isDigit then some ((c.toNat - 48 : Nat) : ℚ) else .none
  | _ => .none

def sv (attrs : List (String × Val)) : String → Except Err Flt :=
  evalText num SchedEx.tri (fun f => (dget attrs (String.ofList f.xname)).bind numOf)

/-- `class C: lr: float; n: int` -/
def fs : List Fld := [.mk "lr" .float .none, .mk "n" .int .none]

def doc : Val := .dict [("lr", .str "step: 9@1 lin 1@5"), ("n", .int 3)]

def E : MgrEnv :=
  { w := { ExM.w with ext := { ExM.w.ext with schedAt0 := evalText num SchedEx.tri (fun _ => some 0) } }
    cfgTy := .data "C" fs .none, stTy := ExM.stTy, init := .file doc, overrides := [], ignoreExtra := false, key := "step"
    ckpt := false, initial := fun _ => .ok ("State", [("step", .int 0)]), sv := sv
    stLazy := false, pickleOk := false, deps := fun _ => [], deser := fun c y _ => .ok (.ser c y), depth := 100 }

theorem evaluates : Evaluates E num SchedEx.tri where
  at0 := by
    intro txt q h
    obtain ⟨f, r, v, h1, h2, h3, h4⟩ := evalText_ok (x := fun _ => some 0) (num := num) (cosPi := SchedEx.tri) h
    cases h2
    exact ⟨f, v, h1, h3, h4⟩
  sv := by
    intro attrs txt q h
    obtain ⟨f, r, v, h1, h2, h3, h4⟩ := evalText_ok h
    cases hx : dget attrs (String.ofList f.xname) with
    | none => rw [hx] at h2; exact (nomatch h2)
    | some x =>
      rw [hx] at h2
      refine ⟨f, x, r, v, h1, hx, ?_, h3, h4⟩
      simp only [Option.bind] at h2
      clear hx
      unfold numOf at h2
      split at h2 <;> cases h2
      · exact .int _
      · exact .flt _
      · rename_i b; cases b
        · exact .false
        · exact .true

/-- the value of `lr` after a history -/
def lrAfter (ops : List MOp) : Option ℚ :=
  match (Mgr.new E []).run E ops with
  | .ok m => match m.readConfig E with
    | .ok (c, _) => match valAt c ["lr"] with
      | some (.flt (.fin q)) => some q
      | _ => .none
    | .error _ => .none
  | .error _ => .none
end ExR

/-- in a history the field goes from the first to the last point of its schedule -/
example : ExR.lrAfter [] = some 9 ∧ ExR.lrAfter [.setState "step" (.int 3)] = some 9 ∧
    ExR.lrAfter [.setState "step" (.int 3), .step ⟨.none, false⟩] = some 5 ∧
    ExR.lrAfter [.setState "step" (.int 3), .step ⟨.none, false⟩, .setState "step" (.int 7), .step ⟨.none, false⟩, .setState "step" (.int 0)] = some 1 := by
  decide +kernel

/-- the other hypotheses -/
example : IdsOK (.data "C" ExR.fs .none) ∧ (∀ doc1, LoadedDoc ExR.E [] doc1 → Shallow true (.data "C" ExR.fs .none) 2 doc1) ∧
    parseSched ExR.num "step: 9@1 lin 1@5".toList = .ok ⟨[⟨1, 5, 9, 1, .lin⟩], "step".toList⟩ ∧ IsCos SchedEx.tri := by
  refine ⟨by simp [IdsOK, IdsOKf, IdsOK1, ExR.fs, Fld.name, NameOK, IdOK, NAME_KEY]; decide, ?_, by decide +kernel, SchedEx.isCos_tri⟩
  rintro doc1 ⟨doc, h1, h2⟩
  have : doc = some ExR.doc := by
    cases h1 with
    | ckpt h => simp [ExR.E] at h
    | file _ h => simp only [ExR.E, Init.file.injEq] at h; rw [h]
    | dir _ h => simp [ExR.E] at h
    | absent _ h => simp [ExR.E] at h
  subst this
  have hd : doc1 = ExR.doc := by
    have : applyOverrides ExR.E.w.ron ExR.E.cfgTy ExR.E.overrides ((some ExR.doc).getD (.dict [])) = .ok ExR.doc := rfl
    rw [this] at h2
    cases h2; rfl
  subst hd
  simp only [Shallow]
  intro v' hv
  cases hv
  simp [ExR.doc, docEntries, Val.isInst, dkeys, ShallowFs, ShallowF, ExR.fs, Shallow]

end HS
