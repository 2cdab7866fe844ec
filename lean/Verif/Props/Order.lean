import Verif.Proofs.OrderLoad
import Verif.Props.Registered
import Verif.Props.Manager
/-!
# C82: the order in which the entries of a config are written
-/
namespace HS

/-! ## overrides -/

theorem setPath_perm {x : Val} (hx : VPerm false x x) : ∀ (p : List String) {sd sd' a : Val}, VPerm false sd sd' →
    setPath x sd p = .ok a → ∃ a', setPath x sd' p = .ok a' ∧ VPerm false a a'
  | [], _, _, _, _, h => by simp [setPath] at h
  | [k], sd, sd', a, hs, h => by
    simp only [setPath] at h ⊢
    exact hs.setItem hx h
  | k :: k' :: ks, sd, sd', a, hs, h => by
    simp only [setPath, bind, Except.bind, pure, Except.pure, ← hs.pyIn] at h ⊢
    split at h
    · exact (nomatch h)
    rename_i present hp
    -- the child
    have key : ∀ y y', VPerm false y y' →
        (setPath x (if y.isNone = true then .dict [] else y) (k' :: ks) >>= fun c => pySetItem k c sd) = .ok a →
        ∃ a', (setPath x (if y'.isNone = true then .dict [] else y') (k' :: ks) >>= fun c => pySetItem k c sd') = .ok a' ∧ VPerm false a a' := by
      intro y y' hy h
      simp only [bind, Except.bind] at h ⊢
      rw [← hy.isNone]
      have hyy : VPerm false (if y.isNone = true then .dict [] else y) (if y.isNone = true then .dict [] else y') := by
        split
        · exact .ofORel (by simp [dkeys]) (by simp [dkeys]) (fun _ => .none)
        · exact hy
      split at h
      · exact (nomatch h)
      rename_i c hc
      obtain ⟨c', h1, h2⟩ := setPath_perm hx (k' :: ks) hyy hc
      rw [h1]
      exact hs.setItem h2 h
    cases present with
    | false =>
      simp only [Bool.false_eq_true, if_false] at h ⊢
      exact key .none .none (.atom rfl) h
    | true =>
      simp only [if_true] at h ⊢
      cases hg : pyGetItem k sd with
      | error e => rw [hg] at h; exact (nomatch h)
      | ok y =>
        obtain ⟨y', hy', hyy⟩ := hs.getItem hg
        rw [hg] at h
        simp only [hy'] at h ⊢
        exact key y y' hyy h

theorem overridesLoop_perm {ron : RonParse} (hron : ∀ s v, ron s = .ok v → VPerm false v v) {fs : List (String × SFld)} :
    ∀ (os : List String) {sd sd' a : Val} {stale : Option Val} {errs es : List String}, (∀ v, stale = some v → VPerm false v v) →
    VPerm false sd sd' → overridesLoop ron fs os sd stale errs = .ok (a, es) →
    ∃ a', overridesLoop ron fs os sd' stale errs = .ok (a', es) ∧ VPerm false a a'
  | [], sd, sd', a, stale, errs, es, _, hs, h => by
    simp only [overridesLoop] at h ⊢; cases h; exact ⟨_, rfl, hs⟩
  | o :: os, sd, sd', a, stale, errs, es, hst, hs, h => by
    simp only [overridesLoop] at h ⊢
    split at h
    · exact (nomatch h)
    rename_i key s _
    split at h
    · exact overridesLoop_perm hron os hst hs h
    rename_i f _
    simp only [bind, Except.bind] at h ⊢
    split at h
    · exact (nomatch h)
    rename_i val hval
    have hv : VPerm false val val := by
      simp only [overrideVal] at hval
      split at hval
      · cases hval; exact .atom rfl
      · split at hval
        · split at hval
          · cases hval; exact .atom rfl
          · split at hval
            · cases hval; exact hst _ rfl
            · exact (nomatch hval)
        · exact hron _ _ hval
    split at h
    · exact (nomatch h)
    rename_i sd1 hsd1
    obtain ⟨sd1', h1, h2⟩ := setPath_perm hv _ hs hsd1
    rw [h1]
    exact overridesLoop_perm hron os (fun v hv' => by cases hv'; exact hv) h2 h

theorem applyOverrides_perm {ron : RonParse} (hron : ∀ s v, ron s = .ok v → VPerm false v v) {ty : PyTy} {os : List String} {doc doc' a : Val}
    (hs : VPerm false doc doc') (h : applyOverrides ron ty os doc = .ok a) : ∃ a', applyOverrides ron ty os doc' = .ok a' ∧ VPerm false a a' := by
  simp only [applyOverrides, bind, Except.bind, pure, Except.pure] at h ⊢
  split at h
  · exact (nomatch h)
  rename_i s hm
  split at h
  · split at h
    · exact (nomatch h)
    rename_i r hr
    obtain ⟨a', h1, h2⟩ := overridesLoop_perm hron os (a := r.1) (es := r.2) (by simp) hs hr
    simp only [h1]
    split at h
    · rename_i he; cases h; exact ⟨_, by simp only [he], h2⟩
    · exact (nomatch h)
    · exact (nomatch h)
  · exact (nomatch h)

/-! ## what it means for the loaded value -/

theorem dget_pointwise {R : Val → Val → Prop} : ∀ {a b : List (String × Val)}, dkeys a = dkeys b →
    (∀ (i : Nat) (x y : String × Val), a[i]? = some x → b[i]? = some y → R x.2 y.2) → ∀ {k x}, dget a k = some x → ∃ y, dget b k = some y ∧ R x y
  | [], _, _, _, k, x, h => by simp at h
  | (j, u) :: a, [], hk, _, _, _, _ => by simp [dkeys] at hk
  | (j, u) :: a, (j', u') :: b, hk, h, k, x, hx => by
    simp only [dkeys, List.map_cons, List.cons.injEq] at hk
    obtain ⟨rfl, hk⟩ := hk
    simp only [dget] at hx ⊢
    split at hx
    · cases hx; rename_i e; simp only [e, if_true]; exact ⟨u', rfl, h 0 _ _ rfl rfl⟩
    · rename_i e
      simp only [e, if_false]
      exact dget_pointwise hk (fun i x y hx hy => h (i + 1) x y hx hy) hx

/-- the attributes of the two objects -/
theorem VPerm.attr : ∀ (q : List String) {v v' x : Val}, VPerm true v v' → v.attr q = some x → ∃ x', v'.attr q = some x' ∧ VPerm true x x'
  | [], v, v', x, h, hx => by simp only [Val.attr] at hx ⊢; cases hx; exact ⟨_, rfl, h⟩
  | k :: ks, v, v', x, h, hx => by
    cases h with
    | refl => exact ⟨x, hx, .refl rfl x⟩
    | atom => exact ⟨x, hx, .refl rfl x⟩
    | dict => simp [Val.attr] at hx
    | list => simp [Val.attr] at hx
    | tup => simp [Val.attr] at hx
    | @inst _ c a b hk h =>
      simp only [Val.attr] at hx ⊢
      cases hd : HS.dget a k with
      | none => rw [hd] at hx; exact (nomatch hx)
      | some u =>
        rw [hd] at hx
        obtain ⟨u', h1, h2⟩ := dget_pointwise (R := VPerm true) hk h hd
        rw [h1]
        exact VPerm.attr ks h2 hx

/-- a value that is no container: it is the same -/
theorem VPerm.scalar {v v' : Val} (h : VPerm true v v') (hv : v.isAtom = true) (hi : v.isInst = false) : v' = v := by
  cases h with
  | refl => rfl
  | atom => rfl
  | dict => exact (nomatch hv)
  | list => exact (nomatch hv)
  | tup => exact (nomatch hv)
  | inst => exact (nomatch hi)

/-- schedules stand at the same fields -/
theorem schedIn_perm {am : Bool} {t : PyTy} {doc : Val} {segs : List String} {s : String} {b : Bool} (h : SchedIn am t doc segs s b) :
    ∀ {doc'}, t.orderFree → VPerm false doc doc' → SchedIn am t doc' segs s b := by
  have str : ∀ {s : String} {w : Val}, VPerm false (.str s) w → w = .str s := by
    intro s w h; cases h <;> rfl
  induction h with
  | int hs => intro doc' _ hd; rw [str hd]; exact .int hs
  | float hs => intro doc' _ hd; rw [str hd]; exact .float hs
  | opt ho _ ih => intro doc' hof hd; exact .opt ho (ih (by simp only [PyTy.orderFree, orderFreeL] at hof; exact hof.1) hd)
  | @field c fs ver doc d1 x n t d segs s b hu hm hw hf hsub ih =>
    intro doc' hof hd
    simp only [PyTy.orderFree] at hof
    obtain ⟨d1', hu', hd1⟩ : ∃ d1', upgraded am ver doc' = .ok d1' ∧ VPerm false d1 d1' := by
      cases ver with
      | none => simp only [upgraded] at hu ⊢; cases hu; exact ⟨_, rfl, hd⟩
      | some vi => exact versionHook_perm (hof.1 vi rfl) hd hu
    have hft : t.orderFree := by
      have : ∀ {fs : List Fld}, orderFreeF fs → .mk n t d ∈ fs → t.orderFree := by
        intro fs
        induction fs with
        | nil => intro _ h; simp at h
        | cons f fs ihf =>
          intro h1 h2
          simp only [orderFreeF] at h1
          rcases List.mem_cons.1 h2 with rfl | h2
          · exact h1.1
          · exact ihf h1.2 h2
      exact this hof.2 hf
    have hd2 := hd1
    cases hd1 with
    | refl ho => exact (nomatch ho)
    | inst ho => exact (nomatch ho)
    | list => simp [docEntries] at hm
    | tup => simp [docEntries] at hm
    | atom hat => exact .field hu' hm hw hf hsub
    | @dict e e' nd nd' hh h0 =>
      simp only [docEntries] at hm
      have h1 := dget_of_mem nd hm
      have := hd2.dget.2.2 n
      rw [h1] at this
      generalize h2 : HS.dget e' n = o2 at this
      cases this with
      | some hxx => exact .field hu' (by simpa [docEntries] using dget_mem h2) (by rw [← hxx.isWeak]; exact hw) hf (ih hft hxx)

/-! ## C82 -/

/-- C82 for `from_dict`: if a document is accepted, so is the same document with the entries of its objects and dicts in another
order, at any depth, and the two results agree up to the order of dicts. For every type and every installed hook; if classes are versioned,
the functions in their `MapFieldValue` rules must not depend on the order of entries (`orderFree`). -/
theorem C82_from_dict (c : DCfg) (t : PyTy) (ht : t.orderFree) (ig : Bool) (path : String) (doc doc' : Val) (hd : VPerm false doc doc')
    (v : Val) (es : List Ev) (h : fromDict c t ig path doc = .ok (v, es)) :
    ∃ v' es', fromDict c t ig path doc' = .ok (v', es') ∧ (∀ u, pyEq v u = pyEq v' u) ∧
      ∀ q x, v.attr q = some x → ∃ x', v'.attr q = some x' ∧ (∀ u, pyEq x u = pyEq x' u) ∧
        (x.isAtom = true → x.isInst = false → x' = x) := by
  obtain ⟨v', es', h1, h2⟩ := fromDict_perm c t ht ig path doc doc' v es hd h
  refine ⟨v', es', h1, h2.pyEq, ?_⟩
  intro q x hx
  obtain ⟨x', h3, h4⟩ := VPerm.attr q h2 hx
  exact ⟨x', h3, h4.pyEq, h4.scalar⟩

/-- C82 for every loader (`load`, `loads`, the config and the state of a manager), with overrides. If both documents load, the results
agree: `==` does not tell them apart, every attribute that is no container is the same. (`hron`: the parser of override values returns
dicts with distinct keys, as any parser does.) Missing for the full statement: a load that the schedules of one document make fail,
`C82_schedules_false`. -/
theorem C82_loads_partial (c : DCfg) (ron : RonParse) (hron : ∀ s v, ron s = .ok v → VPerm false v v) (t : PyTy) (ht : t.orderFree)
    (os : Option (List String)) (ig : Bool) (doc doc' : Val) (hd : VPerm false doc doc') (l l' : Loaded)
    (h : typedLoad c ron os ig t doc = .ok l) (h' : typedLoad c ron os ig t doc' = .ok l') :
    (∀ u, pyEq l.value u = pyEq l'.value u) ∧
      ∀ q x, l.value.attr q = some x → ∃ x', l'.value.attr q = some x' ∧ (∀ u, pyEq x u = pyEq x' u) ∧
        (x.isAtom = true → x.isInst = false → x' = x) := by
  have key : ∀ {doc : Val} {l : Loaded}, typedLoad c ron os ig t doc = .ok l →
      ∃ d es, (os = .none ∧ d = doc ∨ ∃ xs, os = some xs ∧ applyOverrides ron t xs doc = .ok d) ∧ fromDict c t ig "" d = .ok (l.value, es) := by
    intro doc l h
    cases os with
    | none =>
      simp only [typedLoad, bind, Except.bind, pure, Except.pure] at h
      split at h
      · exact (nomatch h)
      rename_i r hr
      split at h
      · exact (nomatch h)
      cases h
      exact ⟨doc, r.2, .inl ⟨rfl, rfl⟩, hr⟩
    | some xs =>
      simp only [typedLoad, bind, Except.bind, pure, Except.pure] at h
      split at h
      · exact (nomatch h)
      rename_i d hd
      split at h
      · exact (nomatch h)
      rename_i r hr
      split at h
      · exact (nomatch h)
      cases h
      exact ⟨d, r.2, .inr ⟨xs, rfl, hd⟩, hr⟩
  obtain ⟨d, es, h1, h2⟩ := key h
  obtain ⟨d', es', h1', h2'⟩ := key h'
  have hdd : VPerm false d d' := by
    rcases h1 with ⟨e1, rfl⟩ | ⟨xs, e1, h1⟩ <;> rcases h1' with ⟨e2, rfl⟩ | ⟨ys, e2, h1'⟩
    · exact hd
    · rw [e1] at e2; exact (nomatch e2)
    · rw [e1] at e2; exact (nomatch e2)
    · rw [e1] at e2
      cases e2
      obtain ⟨a', h3, h4⟩ := applyOverrides_perm hron hd h1
      rw [h3] at h1'
      cases h1'
      exact h4
  obtain ⟨v', es2, h3, h4, h5⟩ := C82_from_dict c t ht ig "" d d' hdd _ _ h2
  rw [h2'] at h3
  simp only [Except.ok.injEq, Prod.mk.injEq] at h3
  rw [h3.1]
  exact ⟨h4, h5⟩

/-- C82, documents whose schedules are at most two fields deep: the reordered document loads, and the same schedules are registered. -/
theorem C82_shallow (w : World) (am file ig : Bool) (n : String) (fs : List Fld) (ver : Option VerInfo) (ht : (PyTy.data n fs ver).orderFree)
    (hid : IdsOK (.data n fs ver)) (doc doc' : Val) (hd : VPerm false doc doc') (hsh : Shallow am (.data n fs ver) 2 doc)
    (hsh' : Shallow am (.data n fs ver) 2 doc') (l : Loaded) (h : typedLoad (w.dcfg am file) w.ron .none ig (.data n fs ver) doc = .ok l) :
    ∃ l', typedLoad (w.dcfg am file) w.ron .none ig (.data n fs ver) doc' = .ok l' ∧ (∀ u, pyEq l.value u = pyEq l'.value u) ∧
      ∀ segs, Reg.at (some (.node l.schedules)) segs = Reg.at (some (.node l'.schedules)) segs := by
  have h0 := h
  simp only [typedLoad, bind, Except.bind, pure, Except.pure] at h0
  split at h0
  · exact (nomatch h0)
  rename_i r hr
  split at h0
  · exact (nomatch h0)
  rename_i reg hreg
  obtain ⟨v', es', h1, h2, _⟩ := C82_from_dict _ _ ht ig "" doc doc' hd r.1 r.2 hr
  obtain ⟨l', h3, h4⟩ := (C39_registered_partial w am file ig n fs ver doc' hid hsh').1 v' es' h1
  refine ⟨l', h3, ?_, ?_⟩
  · cases h0; rw [h4]; exact h2
  · have e1 := (C39_registered_partial w am file ig n fs ver doc hid hsh).2 l h
    have e2 := (C39_registered_partial w am file ig n fs ver doc' hid hsh').2 l' h3
    intro segs
    have hiff : ∀ s b, Reg.at (some (.node l.schedules)) segs = some (s, b) ↔ Reg.at (some (.node l'.schedules)) segs = some (s, b) := by
      intro s b
      rw [e1, e2]
      exact ⟨fun hs => schedIn_perm hs ht hd, fun hs => schedIn_perm hs ht hd.symm⟩
    cases h5 : Reg.at (some (.node l.schedules)) segs with
    | some y => exact ((hiff y.1 y.2).1 h5).symm
    | none =>
      cases h6 : Reg.at (some (.node l'.schedules)) segs with
      | none => rfl
      | some y => rw [(hiff y.1 y.2).2 h6] at h5; exact (nomatch h5)

namespace ExOrder
/-- `class B: x: int, y: int`, `class A: b: B`, `class Cfg: a: A, b: B` -/
def clsB : PyTy := .data "B" [.mk "x" .int (some (.int 0)), .mk "y" .int (some (.int 0))] .none
def cls : PyTy := .data "Cfg" [.mk "a" (.data "A" [.mk "b" clsB .none] .none) .none, .mk "b" clsB .none] .none
def secA : String × Val := ("a", .dict [("b", .dict [("y", .str ExM.txt)])])
def secB : String × Val := ("b", .dict [("x", .str ExM.txt)])
end ExOrder

theorem vperm_swap {k j : String} (hkj : k ≠ j) {x y : Val} (hx : VPerm false x x) (hy : VPerm false y y) :
    VPerm false (.dict [(k, x), (j, y)]) (.dict [(j, y), (k, x)]) := by
  refine .ofORel (by simp [dkeys, hkj]) (by simp [dkeys, Ne.symm hkj]) (fun i => ?_)
  simp only [dget]
  by_cases h1 : k = i
  · subst h1; simp only [if_true, Ne.symm hkj, if_false]; exact .some hx
  · by_cases h2 : j = i
    · subst h2; simp only [if_true, hkj, if_false]; exact .some hy
    · simp only [h1, h2, if_false]; exact .none

theorem vperm_single {k : String} {x : Val} (hx : VPerm false x x) : VPerm false (.dict [(k, x)]) (.dict [(k, x)]) := by
  refine .ofORel (by simp [dkeys]) (by simp [dkeys]) (fun i => ?_)
  simp only [dget]
  split
  · exact .some hx
  · exact .none

/-- C82 is false when schedules stand three fields deep: a config with the sections `b` and `a` in this order is accepted, with `a`
before `b` it is rejected with a KeyError. -/
theorem C82_schedules_false : ∃ (w : World) (ty : PyTy) (doc doc' : Val), VPerm false doc doc' ∧
    (smLoadConfig w ty (some doc) [] false).isOk = true ∧
    (match smLoadConfig w ty (some doc') [] false with | .error .keyError => true | _ => false) = true := by
  refine ⟨ExM.w, ExOrder.cls, .dict [ExOrder.secB, ExOrder.secA], .dict [ExOrder.secA, ExOrder.secB], ?_, by decide +kernel, by decide +kernel⟩
  exact vperm_swap (by decide) (vperm_single (.atom rfl)) (vperm_single (vperm_single (.atom rfl)))

/-- the entries of a config with a dict of ints, reordered at both levels -/
example : VPerm false (.dict [("n", .int 1), ("m", .dict [("p", .int 2), ("q", .int 3)])]) (.dict [("m", .dict [("q", .int 3), ("p", .int 2)]), ("n", .int 1)]) ∧
    (match smLoadConfig ExM.w (.data "C" [.mk "n" .int .none, .mk "m" (.dict .str .int) .none] .none)
        (some (.dict [("m", .dict [("q", .int 3), ("p", .int 2)]), ("n", .int 1)])) [] false with
      | .ok ⟨.inst _ [(_, .int 1), (_, .dict [("q", .int 3), ("p", .int 2)])], _, _⟩ => true
      | _ => false) = true := by
  constructor
  · refine .ofORel (by decide) (by decide) (fun i => ?_)
    simp only [dget]
    by_cases h1 : "n" = i
    · subst h1; simp; exact .some (.atom rfl)
    · by_cases h2 : "m" = i
      · subst h2; simp; exact .some (vperm_swap (by decide) (.atom rfl) (.atom rfl))
      · simp only [h1, h2, if_false]; exact .none
  · decide +kernel

/-- two schedules, in either order -/
example : Shallow true (.data "C" [.mk "x" .int .none, .mk "y" .float .none] .none) 2 (.dict [("x", .str ExM.txt), ("y", .str ExM.txt)]) ∧
    Shallow true (.data "C" [.mk "x" .int .none, .mk "y" .float .none] .none) 2 (.dict [("y", .str ExM.txt), ("x", .str ExM.txt)]) := by
  constructor <;>
  · intro v' hv
    cases hv
    exact ⟨rfl, by decide, fun x _ _ => .inr ⟨1, rfl, trivial⟩, fun x _ _ => .inr ⟨1, rfl, trivial⟩, trivial⟩

/-- a rename and a default: rules that do not look at the order -/
example : (PyTy.data "C" [.mk "n" .int .none] (some ⟨1, [(0, [.rename ["k"] ["n"], .addDefault ["m"] (.int 0)])]⟩)).orderFree := by
  simp only [PyTy.orderFree, orderFreeF, orderFreeP, and_true]
  intro vi hvi
  cases hvi
  intro e he r hr
  simp at he
  subst he
  simp at hr
  rcases hr with rfl | rfl
  · trivial
  · exact .atom rfl

end HS
