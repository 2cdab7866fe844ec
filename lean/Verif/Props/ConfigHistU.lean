import Verif.Props.UserConfig
import Verif.Props.ConfigHist
import Verif.Props.ManagerExc
/-!
# C65, C92: values of scheduled fields in histories with exceptions and assignments to the config
-/
namespace HS

/-- C46/C65 (partial): in any history with exceptions and assignments, a scheduled field that the user does not assign to holds the
value of its schedule at 0 or at some state. -/
theorem scheduledU (E : MgrEnv) (disk : Dir Files) (n : String) (fs : List Fld) (ver : Option VerInfo)
    (hE : E.cfgTy = .data n fs ver) (hid : IdsOK (.data n fs ver))
    (hsh : ∀ doc1, LoadedDoc E disk doc1 → Shallow true (.data n fs ver) 2 doc1) (ops : List UOp) (m1 : Mgr) (c : Val)
    (hr : ((Mgr.new E disk).runU E ops).2.readConfig E = .ok (c, m1)) (segs : List String) (txt : String) (i : Bool)
    (hat : Reg.at (some (.node m1.schedules)) segs = some (txt, i))
    (hset : ∀ q w, UOp.setConfig q w ∈ ops → ¬ q <+: segs ∧ ¬ segs <+: q) :
    ∃ x, valAt c segs = some x ∧ (SchedIs E.w.ext.schedAt0 txt i x ∨ ∃ attrs, SchedIs (E.sv attrs) txt i x) := by
  obtain ⟨doc, l, h1, h2, h3, h4⟩ := config_historyU (P := fun l c => Reg.at (some (.node l.schedules)) segs = some (txt, i) →
      ∃ x, valAt c segs = some x ∧ (SchedIs E.w.ext.schedAt0 txt i x ∨ ∃ attrs, SchedIs (E.sv attrs) txt i x)) (by
        intro l doc h1 h2 hat
        obtain ⟨x, a, b⟩ := load_current E disk n fs ver hE hid hsh doc l h1 h2 segs txt i hat
        exact ⟨x, b, .inl a⟩) (by
        intro l c attrs htop hP hat
        rcases applyX_sched (E.sv attrs) segs _ c htop txt i hat with h | ⟨x, a, b⟩
        · rw [h]; exact hP hat
        · exact ⟨x, b, .inr ⟨attrs, a⟩⟩) ops (by
        intro q w hm l c c' hP hs hat
        rw [setAttrAt_apart hs segs (hset q w hm).1 (hset q w hm).2]
        exact hP hat) hr
  exact h4 (by rw [← h3]; exact hat)

/-- the value of a schedule lies between its points -/
theorem sched_range {E : MgrEnv} {num : List Char → Option ℚ} {cosPi : ℚ → ℚ} (hc : IsCos cosPi) (hev : Evaluates E num cosPi)
    {txt : String} {i : Bool} {x : Val} (hor : SchedIs E.w.ext.schedAt0 txt i x ∨ ∃ attrs, SchedIs (E.sv attrs) txt i x)
    {f : Sched ℚ} (hf : parseSched num txt.toList = .ok f)
    {lo hi : Int} (hb : ∀ s ∈ f.segs, (lo : ℚ) ≤ s.initial ∧ (lo : ℚ) ≤ s.final ∧ s.initial ≤ hi ∧ s.final ≤ hi) :
    (i = false → ∃ v : ℚ, x = .flt (.fin v) ∧ lo ≤ v ∧ v ≤ hi) ∧ (i = true → ∃ k : Int, x = .int k ∧ lo ≤ k ∧ k ≤ hi) := by
  have key : ∃ q : ℚ, lo ≤ q ∧ q ≤ hi ∧ ((i = false ∧ x = .flt (.fin q)) ∨ (i = true ∧ ∃ k, (Flt.fin q).toInt = .ok k ∧ x = .int k)) := by
    rcases hor with ⟨q, h1, h2⟩ | ⟨attrs, q, h1, h2⟩
    · obtain ⟨f', v, a, b, rfl⟩ := hev.at0 txt q h1
      rw [hf] at a
      cases a
      obtain ⟨p1, p2⟩ := getValue_range hc f b hb
      exact ⟨v, p1, p2, h2⟩
    · obtain ⟨f', y, r, v, a, _, _, b, rfl⟩ := hev.sv attrs txt q h1
      rw [hf] at a
      cases a
      obtain ⟨p1, p2⟩ := getValue_range hc f b hb
      exact ⟨v, p1, p2, h2⟩
  obtain ⟨q, h1, h2, ⟨rfl, rfl⟩ | ⟨rfl, k, h3, rfl⟩⟩ := key
  · exact ⟨fun _ => ⟨q, rfl, h1, h2⟩, nofun⟩
  · obtain ⟨p1, p2⟩ := toInt_range h1 h2 h3
    exact ⟨nofun, fun _ => ⟨k, rfl, p1, p2⟩⟩

/-- C65 (partial): C65_range_partial for histories in which any operation may raise and in which the user assigns to other fields of
the config: at any time the field lies within the range of the points of its schedule, also after a step that failed half-way.
Missing: as C65_range_partial. -/
theorem C65_range_user_partial (E : MgrEnv) (disk : Dir Files) (n : String) (fs : List Fld) (ver : Option VerInfo)
    (num : List Char → Option ℚ) (cosPi : ℚ → ℚ) (hc : IsCos cosPi) (hev : Evaluates E num cosPi)
    (hE : E.cfgTy = .data n fs ver) (hid : IdsOK (.data n fs ver))
    (hsh : ∀ doc1, LoadedDoc E disk doc1 → Shallow true (.data n fs ver) 2 doc1) (ops : List UOp) (m1 : Mgr) (c : Val)
    (hr : ((Mgr.new E disk).runU E ops).2.readConfig E = .ok (c, m1)) (segs : List String) (txt : String) (i : Bool)
    (hat : Reg.at (some (.node m1.schedules)) segs = some (txt, i))
    (hset : ∀ q w, UOp.setConfig q w ∈ ops → ¬ q <+: segs ∧ ¬ segs <+: q)
    (f : Sched ℚ) (hf : parseSched num txt.toList = .ok f)
    (lo hi : Int) (hb : ∀ s ∈ f.segs, (lo : ℚ) ≤ s.initial ∧ (lo : ℚ) ≤ s.final ∧ s.initial ≤ hi ∧ s.final ≤ hi) :
    (i = false → ∃ v : ℚ, valAt c segs = some (.flt (.fin v)) ∧ lo ≤ v ∧ v ≤ hi) ∧
    (i = true → ∃ k : Int, valAt c segs = some (.int k) ∧ lo ≤ k ∧ k ≤ hi) := by
  obtain ⟨x, hx, hor⟩ := scheduledU E disk n fs ver hE hid hsh ops m1 c hr segs txt i hat hset
  obtain ⟨h1, h2⟩ := sched_range hc hev hor hf hb
  refine ⟨fun h => ?_, fun h => ?_⟩
  · obtain ⟨v, rfl, h⟩ := h1 h
    exact ⟨v, hx, h⟩
  · obtain ⟨v, rfl, h⟩ := h2 h
    exact ⟨v, hx, h⟩

/-! ## from a step to the next -/

/-- the field has this value and the state has been read -/
def SameAt (segs : List String) (x : Val) (s : RegD) (m : Mgr) : Prop :=
  m.schedules = s ∧ m.state.isSome = true ∧ ∃ c, m.config = some c ∧ valAt c segs = some x

theorem sameAt_run (E : MgrEnv) {segs : List String} {x : Val} {s : RegD} : ∀ (ops : List UOp) (m : Mgr), SameAt segs x s m →
    (∀ mv, UOp.op (.step mv) ∉ ops) → (∀ q w, UOp.setConfig q w ∈ ops → ¬ q <+: segs ∧ ¬ segs <+: q) →
    SameAt segs x s (m.runU E ops).2 := by
  intro ops
  induction ops with
  | nil => intro m h _ _; exact h
  | cons op ops ih =>
    intro m h hop hset
    refine ih _ ?_ (fun mv hm => hop mv (List.mem_cons_of_mem _ hm)) (fun q w hm => hset q w (List.mem_cons_of_mem _ hm))
    obtain ⟨h1, h2, c, h3, h4⟩ := h
    cases op with
    | op o =>
      have := sameConfig_exec E (c := c) (s := s) ⟨h3, h1, h2⟩ o (fun mv he => hop mv (he ▸ List.mem_cons_self))
      exact ⟨this.2.1, this.2.2, c, this.1, h4⟩
    | setConfig q w =>
      obtain ⟨a, b⟩ := hset q w List.mem_cons_self
      simp only [Mgr.execU]
      rw [setConfigX_some h3]
      cases hs : setAttrAt w q c with
      | error e => exact ⟨h1, h2, c, h3, h4⟩
      | ok c' => exact ⟨h1, h2, c', rfl, by rw [setAttrAt_apart hs segs a b]; exact h4⟩

/-- C92: whatever was assigned and whatever was raised before, after a step that returns a scheduled field has the value of its
schedule at the state, until the next step or until the user assigns to it. -/
theorem C92_scheduled_stays (E : MgrEnv) (disk : Dir Files) (pre post : List UOp) (mv : Move)
    (h : (((Mgr.new E disk).runU E pre).2.execU E (.op (.step mv))).1 = .ok ()) (hpost : ∀ mv, UOp.op (.step mv) ∉ post)
    (segs : List String) (txt : String) (i : Bool)
    (hat : Reg.at (some (.node (((Mgr.new E disk).runU E pre).2.execU E (.op (.step mv))).2.schedules)) segs = some (txt, i))
    (hset : ∀ q w, UOp.setConfig q w ∈ post → ¬ q <+: segs ∧ ¬ segs <+: q) :
    ∃ o m0 c m2 x, m2 = ((Mgr.new E disk).runU E (pre ++ .op (.step mv) :: post)).2 ∧
      ((Mgr.new E disk).runU E pre).2.readState E = .ok (o, m0) ∧ m2.readConfig E = .ok (c, m2) ∧
      valAt c segs = some x ∧ SchedIs (E.sv o.attrs) txt i x := by
  have hI := runU_inv E disk pre
  rw [runU_append]
  generalize ((Mgr.new E disk).runU E pre).2 = m at *
  have ha := stepX_agree E mv m
  simp only [Mgr.execU, Mgr.execX] at h hat
  cases hst : m.step E mv with
  | error e =>
    rw [hst] at ha
    obtain ⟨m', hm'⟩ := ha.err rfl
    rw [hm'] at h
    exact (nomatch h)
  | ok m1 =>
    rw [hst] at ha
    have hx := ha.ok rfl
    rw [hx] at hat
    obtain ⟨o, m0, m1', hr, _, _, ⟨c, hc, hcur⟩, hs, _, _, hfin⟩ := step_inv hI hst
    have hm1 : SameConfig c m1'.schedules m1 := by
      rcases hfin with ⟨_, rfl⟩ | ⟨_, c', kv, val, files, o', d', l', hc', _, _, _, _, rfl⟩
      · exact ⟨hc, rfl, by rw [hs]; rfl⟩
      · exact ⟨hc, rfl, rfl⟩
    rw [← hm1.2.1] at hcur
    obtain ⟨x, hsx, hv⟩ := hcur segs txt i hat
    obtain ⟨_, _, c2, k1, k2⟩ := sameAt_run E post m1 ⟨rfl, hm1.2.2, c, hm1.1, hv⟩ hpost hset
    refine ⟨o, m0, c2, _, x, rfl, hr, ?_, k2, hsx⟩
    simp only [Mgr.runU, Mgr.execU, Mgr.execX, hx, Mgr.readConfig, k1]

/-- C65 (partial): C65_settles_partial for histories with exceptions and assignments to the config: once a step returns at a state that
has reached the last point of the schedule (which must not end with `step`, C37_step_false), the field holds exactly the final value
until the next step, unless the user assigns to it. -/
theorem C65_settles_user_partial (E : MgrEnv) (disk : Dir Files) (num : List Char → Option ℚ) (cosPi : ℚ → ℚ) (hc : IsCos cosPi)
    (hev : Evaluates E num cosPi) (pre post : List UOp) (mv : Move)
    (h : (((Mgr.new E disk).runU E pre).2.execU E (.op (.step mv))).1 = .ok ()) (hpost : ∀ mv, UOp.op (.step mv) ∉ post)
    (segs : List String) (txt : String)
    (hat : Reg.at (some (.node (((Mgr.new E disk).runU E pre).2.execU E (.op (.step mv))).2.schedules)) segs = some (txt, false))
    (hset : ∀ q w, UOp.setConfig q w ∈ post → ¬ q <+: segs ∧ ¬ segs <+: q)
    (f : Sched ℚ) (hf : parseSched num txt.toList = .ok f)
    (ss : List (Seg ℚ)) (s : Seg ℚ) (hs : f.segs = ss ++ [s]) (hinc : Increasing f.segs) (hi : s.interp ≠ .step)
    (o : LObj) (m0 : Mgr) (ho : ((Mgr.new E disk).runU E pre).2.readState E = .ok (o, m0)) (x : Val) (r : ℚ)
    (hx : dget o.attrs (String.ofList f.xname) = some x) (hr : IsNum x r) (hge : s.stop ≤ r) :
    ∃ c m2, m2 = ((Mgr.new E disk).runU E (pre ++ .op (.step mv) :: post)).2 ∧ m2.readConfig E = .ok (c, m2) ∧
      valAt c segs = some (.flt (.fin s.final)) := by
  obtain ⟨o', m0', c, m2, y, h1, h2, h3, h4, q, b1, b2⟩ := C92_scheduled_stays E disk pre post mv h hpost segs txt false hat hset
  rw [ho] at h2
  cases h2
  obtain ⟨f', x', r', v, c1, c2, c3, c4, rfl⟩ := hev.sv _ _ _ b1
  rw [hf] at c1
  cases c1
  rw [hx] at c2
  cases c2
  have hrr : r' = r := by
    cases hr <;> cases c3 <;> rfl
  subst hrr
  rw [C37_after_partial hc f hs (C35_chained hf) hinc hi hge] at c4
  cases c4
  rcases b2 with ⟨_, rfl⟩ | ⟨hh, _⟩
  · exact ⟨c, m2, h1, h3, h4⟩
  · exact (nomatch hh)

/-! ## an example -/

namespace ExRU
/-- `lr` after a history of operations that may raise -/
def lrAfterU (ops : List UOp) : Option ℚ :=
  match ((Mgr.new ExR.E []).runU ExR.E ops).2.readConfig ExR.E with
  | .ok (c, _) => match valAt c ["lr"] with
    | some (.flt (.fin q)) => some q
    | _ => .none
  | .error _ => .none
def nAfterU (ops : List UOp) : Option Int :=
  match ((Mgr.new ExR.E []).runU ExR.E ops).2.readConfig ExR.E with
  | .ok (c, _) => match valAt c ["n"] with
    | some (.int q) => some q
    | _ => .none
  | .error _ => .none
/-- which operations raised -/
def raised (ops : List UOp) : List Bool := ((Mgr.new ExR.E []).runU ExR.E ops).1.map fun | .ok _ => false | .error _ => true

/-- the step raises because the attribute `step` is no number; `n` is assigned; the next step is at 7, after the last point -/
def hist : List UOp := [.op (.setState "step" (.str "x")), .op (.step ⟨.none, false⟩), .setConfig ["n"] (.int 8), .op (.setState "step" (.int 7)),
  .op (.step ⟨.none, false⟩)]
end ExRU

example : ExRU.raised ExRU.hist = [false, true, false, false, false] ∧ ExRU.lrAfterU (ExRU.hist.take 3) = some 9 ∧
    ExRU.lrAfterU ExRU.hist = some 1 ∧ ExRU.nAfterU ExRU.hist = some 8 ∧
    ExRU.lrAfterU (ExRU.hist ++ [.op (.setState "step" (.int 0)), .setConfig ["n"] (.int 9)]) = some 1 ∧
    ExRU.lrAfterU (ExRU.hist ++ [.setConfig ["lr"] (.flt (.fin 4))]) = some 4 := by
  decide +kernel

/-- the assignments of the history are to other fields than `lr`; the other hypotheses are in Props/ConfigHist.lean -/
example : ∀ q w, UOp.setConfig q w ∈ ExRU.hist → ¬ q <+: ["lr"] ∧ ¬ ["lr"] <+: q := by
  intro q w h
  simp only [ExRU.hist, List.mem_cons, List.not_mem_nil, or_false, UOp.setConfig.injEq, reduceCtorEq, false_or] at h
  obtain ⟨rfl, rfl⟩ := h
  simp

end HS
