import Verif.Proofs.SchedDoc
import Verif.Proofs.Frame
/-!
# What a load returns is what dumping it and loading it again gives back, with the same schedules
-/
namespace HS

mutual
theorem restored_typed (e : Ext) : ∀ (t : PyTy) (path : String) (v : Val), TyOK e t → IdsOK t → Storable t v →
    Restored e t none path v v [] []
  | .int, path, v, _, _, h => by unfold Restored; exact ⟨h, rfl, .inl ⟨rfl, rfl, rfl⟩⟩
  | .float, path, v, _, _, h => by unfold Restored; exact ⟨h, rfl, .inl ⟨rfl, rfl, rfl⟩⟩
  | .str, path, v, ht, _, h => by unfold Restored; exact ⟨rfl, ht, h, rfl, rfl, rfl⟩
  | .bool, path, v, ht, _, h => by unfold Restored; exact ⟨rfl, ht, h, rfl, rfl, rfl⟩
  | .noneT, path, v, ht, _, h => by unfold Restored; exact ⟨rfl, ht, h, rfl, rfl, rfl⟩
  | .list _, path, v, ht, _, h => by unfold Restored; exact ⟨rfl, ht, h, rfl, rfl, rfl⟩
  | .tuple _, path, v, ht, _, h => by unfold Restored; exact ⟨rfl, ht, h, rfl, rfl, rfl⟩
  | .dict _ _, path, v, ht, _, h => by unfold Restored; exact ⟨rfl, ht, h, rfl, rfl, rfl⟩
  | .enum _ _, path, v, ht, _, h => by unfold Restored; exact ⟨rfl, ht, h, rfl, rfl, rfl⟩
  | .literal _, path, v, ht, _, h => by unfold Restored; exact ⟨rfl, ht, h, rfl, rfl, rfl⟩
  | .blob _, path, v, ht, _, h => by simp [TyOK] at ht
  | .union as, path, v, ht, _, h => by unfold Restored; exact .inl ⟨rfl, ht, h, rfl, rfl, rfl⟩
  | .data n fs ver, path, v, ht, hid, h => by
    simp only [TyOK] at ht
    simp only [IdsOK] at hid
    obtain ⟨h, hfirm, _⟩ := h
    simp only [HasType] at h
    obtain ⟨kvs, rfl, hf⟩ := h
    simp only [Firm, firmD_iff] at hfirm
    unfold Restored
    exact ⟨⟨hid.1, hid.2.1, ht.2.2.1, ht.2.2.2.1⟩, rfl, fun _ _ => rfl, kvs, kvs, rfl, rfl,
      restored_typedF e fs path kvs ht.2.2.2.2 hid.2.2 hf (fun kv h => ⟨hfirm.2 kv h, hfirm.1 kv h⟩)⟩
theorem restored_typedF (e : Ext) : ∀ (fs : List Fld) (path : String) (kvs : List (String × Val)), FldsOK e fs → IdsOKf fs →
    HasFields true fs kvs → (∀ kv ∈ kvs, Firm kv.2 ∧ kv.2.isWeak = false) → RestoredFs e fs none path kvs kvs [] []
  | [], path, kvs, _, _, h, _ => by simp only [HasFields] at h; simp [RestoredFs, h]
  | .mk n t d :: fs, path, kvs, ht, hid, h, hfr => by
    simp only [HasFields, HasField] at h
    simp only [FldsOK, FldOK] at ht
    simp only [IdsOKf, IdsOK1] at hid
    obtain ⟨⟨k, x⟩, rest, rfl, ⟨rfl, h1⟩, h2⟩ := h
    unfold RestoredFs; unfold RestoredF
    exact ⟨x, x, [], [], rest, rest, [], [], restored_typed e t _ x ht.1 hid.1 ⟨h1, hfr (k, x) (by simp)⟩,
      restored_typedF e fs path rest ht.2 hid.2 h2 (fun kv h => hfr kv (List.mem_cons_of_mem _ h)),
      rfl, rfl, rfl, rfl⟩
end

/-- a None is never loaded from a document with schedules -/
theorem SchedIn.load_ne_none {c : DCfg} {t : PyTy} {doc : Val} {segs : List String} {s : String} {b : Bool}
    (h : SchedIn c.allowMissing t doc segs s b) : ∀ (ig : Bool) (path : String) (es : List Ev) (n : Nat),
    Shallow c.allowMissing t n doc → fromDict c t ig path doc ≠ .ok (.none, es) := by
  induction h with
  | int hs =>
    intro ig path es n _ h
    obtain ⟨_, _, _, _, h1, _⟩ := load_int_sched hs h
    exact (nomatch h1)
  | float hs =>
    intro ig path es n _ h
    obtain ⟨_, _, h1, _⟩ := load_float_sched hs h
    exact (nomatch h1)
  | @opt t ts doc segs s b hopt hi ih =>
    intro ig path es n hsh h
    simp only [Shallow, hopt, true_and, Bool.true_eq_false, false_and, or_false, ShallowHead] at hsh
    simp only [fromDict, hopt, if_true] at h
    split at h
    · rename_i hnone
      have : doc = .none := by cases doc <;> simp [Val.isNone] at hnone ⊢
      subst this
      exact hi.not_none
    · simp only [fdHead] at h
      exact ih ig path es n hsh h
  | field hu hm hw hf hi ih =>
    intro ig path es n hsh h
    simp only [Shallow] at hsh
    obtain ⟨_, _, _, _, _, _, h1⟩ := fromDict_data_inv h (fun w hw => (hsh w hw).1)
    exact (nomatch h1)

theorem Reg.eq_none_of {r : Option Reg} (h : ∀ segs, Reg.at r segs = none) (k : String) (hwf : ∀ r', r = some r' → r'.WF k) :
    r = none := by
  cases r with
  | none => rfl
  | some r' =>
    obtain ⟨segs, x, hx⟩ := Reg.WF.nonempty r' k (hwf r' rfl)
    rw [h segs] at hx; exact (nomatch hx)

theorem Reg.isSched_at {r : Option Reg} (h : ∀ x, Reg.at r [] ≠ some x) : Reg.isSched r = false := by
  match r with
  | none => rfl
  | some (.node _) => rfl
  | some (.sched t i a) => exact absurd rfl (h (t, i))

theorem Reg.WF.child {r : Reg} {k0 : String} (h : r.WF k0) (k : String) (r' : Reg) (hc : Reg.child (some r) k = some r') :
    r'.WF k := by
  cases r with
  | sched => simp [Reg.child] at hc
  | node es =>
    simp only [Reg.WF] at h
    simp only [Reg.child] at hc
    exact h.2.2.mem (dget_mem hc)

theorem opt_cases {as : List PyTy} (h : isOptionalArgs as = true) : ∃ t, as = [t, .noneT] := by
  match as, h with
  | [t, b], h =>
    simp only [isOptionalArgs] at h
    cases b <;> simp [PyTy.isNoneT] at h
    exact ⟨t, rfl⟩

mutual
theorem restored_load (c : DCfg) : ∀ (t : PyTy) (n : Nat) (ig : Bool) (path : String) (r : Option Reg) (doc v : Val) (es : List Ev),
    TyOK c.ext t → IdsOK t → Shallow c.allowMissing t n doc → Storable t v → fromDict c t ig path doc = .ok (v, es) →
    ((∃ k, ∀ r', r = some r' → r'.WF k) ∨ (isData t = true ∧ ∀ k r', Reg.child r k = some r' → r'.WF k)) →
    (∀ segs x, Reg.at r segs = some x ↔ SchedIn c.allowMissing t doc segs x.1 x.2) →
    ∃ es', Restored c.ext t r path v v [] es'
  | .int, n, ig, path, r, doc, v, es, _, _, _, hv, h, hwf, hat => by
    simp only [isData, Bool.false_eq_true, false_and, or_false] at hwf
    obtain ⟨k, hwf⟩ := hwf
    by_cases hs : ∃ s, doc = .str s ∧ '@' ∈ s.toList
    · obtain ⟨s, rfl, hs⟩ := hs
      obtain ⟨f, i, h1, h2, rfl, rfl⟩ := load_int_sched hs h
      have := (hat [] (s, true)).2 (.int hs)
      match r, this with
      | some (.sched t b a), this =>
        simp only [Reg.at, Option.some.injEq, Prod.mk.injEq] at this
        obtain ⟨rfl, rfl⟩ := this
        exact ⟨_, by unfold Restored; exact ⟨hv, rfl, .inr ⟨t, a, f, i, rfl, hs, h1, h2, rfl, rfl⟩⟩⟩
      | some (.node _), this => simp [Reg.at] at this
      | none, this => simp [Reg.at] at this
    · have hr : r = none := by
        refine Reg.eq_none_of (fun segs => ?_) k hwf
        cases hx : Reg.at r segs with
        | none => rfl
        | some x =>
          obtain ⟨s, b⟩ := x
          have := (hat segs (s, b)).1 hx
          cases this with
          | int q => exact absurd ⟨_, rfl, q⟩ hs
      exact ⟨_, by unfold Restored; exact ⟨hv, rfl, .inl ⟨hr, rfl, rfl⟩⟩⟩
  | .float, n, ig, path, r, doc, v, es, _, _, _, hv, h, hwf, hat => by
    simp only [isData, Bool.false_eq_true, false_and, or_false] at hwf
    obtain ⟨k, hwf⟩ := hwf
    by_cases hs : ∃ s, doc = .str s ∧ '@' ∈ s.toList
    · obtain ⟨s, rfl, hs⟩ := hs
      obtain ⟨f, h1, rfl, rfl⟩ := load_float_sched hs h
      have := (hat [] (s, false)).2 (.float hs)
      match r, this with
      | some (.sched t b a), this =>
        simp only [Reg.at, Option.some.injEq, Prod.mk.injEq] at this
        obtain ⟨rfl, rfl⟩ := this
        exact ⟨_, by unfold Restored; exact ⟨hv, rfl, .inr ⟨t, a, f, rfl, hs, h1, rfl, rfl⟩⟩⟩
      | some (.node _), this => simp [Reg.at] at this
      | none, this => simp [Reg.at] at this
    · have hr : r = none := by
        refine Reg.eq_none_of (fun segs => ?_) k hwf
        cases hx : Reg.at r segs with
        | none => rfl
        | some x =>
          obtain ⟨s, b⟩ := x
          have := (hat segs (s, b)).1 hx
          cases this with
          | float q => exact absurd ⟨_, rfl, q⟩ hs
      exact ⟨_, by unfold Restored; exact ⟨hv, rfl, .inl ⟨hr, rfl, rfl⟩⟩⟩
  | .union as, n, ig, path, r, doc, v, es, ht, hid, hsh, hv, h, hwf, hat => by
    simp only [isData, Bool.false_eq_true, false_and, or_false] at hwf
    obtain ⟨k, hwf⟩ := hwf
    by_cases hopt : isOptionalArgs as = true
    · by_cases hno : ∀ segs x, Reg.at r segs ≠ some x
      · have hr : r = none := Reg.eq_none_of (fun segs => by
          cases hx : Reg.at r segs with
          | none => rfl
          | some x => exact absurd hx (hno segs x)) k hwf
        subst hr
        exact ⟨_, by unfold Restored; exact .inl ⟨rfl, ht, hv, rfl, rfl, rfl⟩⟩
      · have hx : ∃ segs x, Reg.at r segs = some x :=
          Classical.byContradiction (fun hc => hno (fun segs x hx => hc ⟨segs, x, hx⟩))
        obtain ⟨segs, x, hx⟩ := hx
        have hi := (hat segs x).1 hx
        have hne := hi.load_ne_none (c := c) ig path es n hsh
        simp only [TyOK] at ht
        simp only [IdsOK] at hid
        simp only [Shallow, hopt, true_and, Bool.true_eq_false, false_and, or_false] at hsh
        have hdn : doc.isNone = false := by
          cases hd : doc.isNone with
          | false => rfl
          | true =>
            have : doc = .none := by cases doc <;> simp [Val.isNone] at hd ⊢
            subst this
            exact absurd hi SchedIn.not_none
        simp only [fromDict, hopt, if_true, hdn] at h
        have hvn : v ≠ .none := by
          rintro rfl
          refine hne ?_
          simp only [fromDict, hopt, if_true, hdn]
          exact h
        obtain ⟨hv, hfr⟩ := hv
        simp only [HasType] at hv
        obtain ⟨es', hres⟩ := restored_loadH c as n ig path r doc v es hopt ht.1 hid hsh hv hfr hvn h ⟨k, hwf⟩ hat
        exact ⟨es', by unfold Restored; exact .inr (.inr ⟨hopt, hres⟩)⟩
    · have hr : r = none := Reg.eq_none_of (fun segs => by
          cases hx : Reg.at r segs with
          | none => rfl
          | some x =>
            have := (hat segs x).1 hx
            cases this with
            | opt q _ => exact absurd q hopt) k hwf
      subst hr
      exact ⟨_, by unfold Restored; exact .inl ⟨rfl, ht, hv, rfl, rfl, rfl⟩⟩
  | .data nm fs ver, n, ig, path, r, doc, v, es, ht, hid, hsh, hv, h, hwf, hat => by
    simp only [TyOK] at ht
    simp only [IdsOK] at hid
    simp only [Shallow] at hsh
    obtain ⟨hv, hfr, _⟩ := hv
    simp only [HasType] at hv
    obtain ⟨doc', kw, kvs, h1, h2, h3, rfl⟩ := fromDict_data_inv h (fun w hw => (hsh w hw).1)
    obtain ⟨-, hn, hfs⟩ := hsh doc' h1
    obtain ⟨kvs', heq, hv⟩ := hv
    cases heq
    simp only [Firm, firmD_iff] at hfr
    have hchild : ∀ k r', Reg.child r k = some r' → r'.WF k := by
      rcases hwf with ⟨k0, hwf⟩ | ⟨_, hwf⟩
      · intro k r' hc
        cases r with
        | none => simp [Reg.child] at hc
        | some r0 => exact (hwf r0 rfl).child k r' hc
      · exact hwf
    have hat' : ∀ k segs x, Reg.at (Reg.child r k) segs = some x ↔ SchedIn c.allowMissing (.data nm fs ver) doc (k :: segs) x.1 x.2 := by
      intro k segs x
      rw [← Reg.at_cons]; exact hat (k :: segs) x
    have hnone : ∀ k, (∀ segs s b, ¬ SchedIn c.allowMissing (.data nm fs ver) doc (k :: segs) s b) → Reg.child r k = none := by
      intro k hk
      refine Reg.eq_none_of (fun segs => ?_) k (hchild k)
      cases hx : Reg.at (Reg.child r k) segs with
      | none => rfl
      | some x => exact absurd ((hat' k segs x).1 hx) (hk segs x.1 x.2)
    obtain ⟨es', hres⟩ := restored_loadF c fs n path r (docEntries doc') kw kvs ht.2.2.2.2 hid.2.2 hfs hv (fun kv h => ⟨hfr.2 kv h, hfr.1 kv h⟩) h3 hchild (by
        intro k t dd hf w hw
        obtain ⟨h5, x, es', h6, h7, h8⟩ := itemsLoop_keys h2 (dget_mem hw)
        rw [fdField_mem c k _ x fs _ hid.1 hf rfl] at h8
        refine ⟨x, es', h6, h7, by simpa [Fld.ty] using h8, ?_⟩
        intro segs y
        rw [hat']
        constructor
        · intro hi
          cases hi with
          | field q1 q2 q3 q4 q5 =>
            rw [h1] at q1
            cases q1
            have hx := dget_of_mem hn q2
            have hx' := dget_of_mem hn h6
            rw [hx] at hx'
            cases hx'
            have := fld_unique hid.1 hf q4 rfl
            cases this
            exact q5
        · intro hi
          exact .field h1 h6 h7 hf hi) (by
        intro k t dd hf hw
        refine hnone k (fun segs s b hi => ?_)
        cases hi with
        | field q1 q2 q3 q4 q5 =>
          rw [h1] at q1
          cases q1
          obtain ⟨w, es', h5, _⟩ := itemsLoop_dget h2 (dget_of_mem hn q2) (hid.2.1 _ hf).1.1 q3 (by
            simp only [fdField_mem c k _ _ fs _ hid.1 hf rfl]; rfl)
          rw [hw] at h5; exact (nomatch h5))
    refine ⟨es', ?_⟩
    unfold Restored
    refine ⟨⟨hid.1, hid.2.1, ht.2.2.1, ht.2.2.2.1⟩, ?_, ?_, kvs, kvs, rfl, rfl, hres⟩
    · exact Reg.isSched_at (fun x hx => by
        have := (hat [] x).1 hx
        cases this)
    · intro k hk
      refine hnone k (fun segs s b hi => ?_)
      cases hi with
      | field q1 q2 q3 q4 q5 => exact hk (List.mem_map.2 ⟨_, q4, rfl⟩)
  | .blob _, n, ig, path, r, doc, v, es, ht, _, _, hv, h, hwf, hat => by simp [TyOK] at ht
  | .str, n, ig, path, r, doc, v, es, ht, _, _, hv, h, hwf, hat => by
    simp only [isData, Bool.false_eq_true, false_and, or_false] at hwf
    obtain ⟨k, hwf⟩ := hwf
    have hr : r = none := Reg.eq_none_of (fun segs => by
      cases hx : Reg.at r segs with
      | none => rfl
      | some x => exact absurd ((hat segs x).1 hx) (by intro hi; cases hi)) k hwf
    exact ⟨_, by unfold Restored; exact ⟨hr, ht, hv, rfl, rfl, rfl⟩⟩
  | .bool, n, ig, path, r, doc, v, es, ht, _, _, hv, h, hwf, hat => by
    simp only [isData, Bool.false_eq_true, false_and, or_false] at hwf
    obtain ⟨k, hwf⟩ := hwf
    have hr : r = none := Reg.eq_none_of (fun segs => by
      cases hx : Reg.at r segs with
      | none => rfl
      | some x => exact absurd ((hat segs x).1 hx) (by intro hi; cases hi)) k hwf
    exact ⟨_, by unfold Restored; exact ⟨hr, ht, hv, rfl, rfl, rfl⟩⟩
  | .noneT, n, ig, path, r, doc, v, es, ht, _, _, hv, h, hwf, hat => by
    simp only [isData, Bool.false_eq_true, false_and, or_false] at hwf
    obtain ⟨k, hwf⟩ := hwf
    have hr : r = none := Reg.eq_none_of (fun segs => by
      cases hx : Reg.at r segs with
      | none => rfl
      | some x => exact absurd ((hat segs x).1 hx) (by intro hi; cases hi)) k hwf
    exact ⟨_, by unfold Restored; exact ⟨hr, ht, hv, rfl, rfl, rfl⟩⟩
  | .list _, n, ig, path, r, doc, v, es, ht, _, _, hv, h, hwf, hat => by
    simp only [isData, Bool.false_eq_true, false_and, or_false] at hwf
    obtain ⟨k, hwf⟩ := hwf
    have hr : r = none := Reg.eq_none_of (fun segs => by
      cases hx : Reg.at r segs with
      | none => rfl
      | some x => exact absurd ((hat segs x).1 hx) (by intro hi; cases hi)) k hwf
    exact ⟨_, by unfold Restored; exact ⟨hr, ht, hv, rfl, rfl, rfl⟩⟩
  | .tuple _, n, ig, path, r, doc, v, es, ht, _, _, hv, h, hwf, hat => by
    simp only [isData, Bool.false_eq_true, false_and, or_false] at hwf
    obtain ⟨k, hwf⟩ := hwf
    have hr : r = none := Reg.eq_none_of (fun segs => by
      cases hx : Reg.at r segs with
      | none => rfl
      | some x => exact absurd ((hat segs x).1 hx) (by intro hi; cases hi)) k hwf
    exact ⟨_, by unfold Restored; exact ⟨hr, ht, hv, rfl, rfl, rfl⟩⟩
  | .dict _ _, n, ig, path, r, doc, v, es, ht, _, _, hv, h, hwf, hat => by
    simp only [isData, Bool.false_eq_true, false_and, or_false] at hwf
    obtain ⟨k, hwf⟩ := hwf
    have hr : r = none := Reg.eq_none_of (fun segs => by
      cases hx : Reg.at r segs with
      | none => rfl
      | some x => exact absurd ((hat segs x).1 hx) (by intro hi; cases hi)) k hwf
    exact ⟨_, by unfold Restored; exact ⟨hr, ht, hv, rfl, rfl, rfl⟩⟩
  | .enum _ _, n, ig, path, r, doc, v, es, ht, _, _, hv, h, hwf, hat => by
    simp only [isData, Bool.false_eq_true, false_and, or_false] at hwf
    obtain ⟨k, hwf⟩ := hwf
    have hr : r = none := Reg.eq_none_of (fun segs => by
      cases hx : Reg.at r segs with
      | none => rfl
      | some x => exact absurd ((hat segs x).1 hx) (by intro hi; cases hi)) k hwf
    exact ⟨_, by unfold Restored; exact ⟨hr, ht, hv, rfl, rfl, rfl⟩⟩
  | .literal _, n, ig, path, r, doc, v, es, ht, _, _, hv, h, hwf, hat => by
    simp only [isData, Bool.false_eq_true, false_and, or_false] at hwf
    obtain ⟨k, hwf⟩ := hwf
    have hr : r = none := Reg.eq_none_of (fun segs => by
      cases hx : Reg.at r segs with
      | none => rfl
      | some x => exact absurd ((hat segs x).1 hx) (by intro hi; cases hi)) k hwf
    exact ⟨_, by unfold Restored; exact ⟨hr, ht, hv, rfl, rfl, rfl⟩⟩
theorem restored_loadH (c : DCfg) : ∀ (as : List PyTy) (n : Nat) (ig : Bool) (path : String) (r : Option Reg) (doc v : Val) (es : List Ev),
    isOptionalArgs as = true → TyOKs c.ext as → IdsOKHead as → ShallowHead c.allowMissing as n doc → HasTypeAny true as v → (Firm v ∧ v.isWeak = false) →
    v ≠ .none → fdHead c as ig path doc = .ok (v, es) → (∃ k, ∀ r', r = some r' → r'.WF k) →
    (∀ segs x, Reg.at r segs = some x ↔ SchedIn c.allowMissing (.union as) doc segs x.1 x.2) →
    ∃ es', RestoredHead c.ext as r path v v [] es'
  | [], _, _, _, _, _, _, _, _, _, _, _, _, _, _, h, _, _ => by simp [fdHead] at h
  | t :: ts, n, ig, path, r, doc, v, es, hopt, ht, hid, hsh, hv, hfr, hvn, h, hwf, hat => by
    simp only [TyOKs] at ht
    simp only [IdsOKHead] at hid
    simp only [ShallowHead] at hsh
    simp only [fdHead] at h
    simp only [RestoredHead]
    have hv' : HasType true t v := by
      obtain ⟨t', heq⟩ := opt_cases hopt
      cases heq
      simp only [HasTypeAny, HasType, or_false] at hv
      rcases hv with hv | hv
      · exact hv
      · exact absurd hv hvn
    refine restored_load c t n ig path r doc v es ht.1 hid hsh ⟨hv', hfr⟩ h (.inl hwf) ?_
    intro segs x
    rw [hat]
    constructor
    · intro hi
      cases hi with
      | opt _ hi => exact hi
    · intro hi; exact .opt hopt hi
theorem restored_loadF (c : DCfg) : ∀ (fs : List Fld) (n : Nat) (path : String) (r : Option Reg) (kvs0 kw kvs : List (String × Val)),
    FldsOK c.ext fs → IdsOKf fs → ShallowFs c.allowMissing fs n kvs0 → HasFields true fs kvs →
    (∀ kv ∈ kvs, Firm kv.2 ∧ kv.2.isWeak = false) → fillFields kw fs = .ok kvs →
    (∀ k r', Reg.child r k = some r' → r'.WF k) →
    (∀ k t dd, Fld.mk k t dd ∈ fs → ∀ w, dget kw k = some w → ∃ x es', (k, x) ∈ kvs0 ∧ x.isWeak = false ∧
      fromDict c t false (fieldPath path k) x = .ok (w, es') ∧
      ∀ segs y, Reg.at (Reg.child r k) segs = some y ↔ SchedIn c.allowMissing t x segs y.1 y.2) →
    (∀ k t dd, Fld.mk k t dd ∈ fs → dget kw k = none → Reg.child r k = none) →
    ∃ es', RestoredFs c.ext fs r path kvs kvs [] es'
  | [], _, _, _, _, _, _, _, _, _, hv, _, _, _, _, _ => by
    simp only [HasFields] at hv
    exact ⟨[], by simp [RestoredFs, hv]⟩
  | f :: fs, n, path, r, kvs0, kw, kvs, ht, hid, hsh, hv, hfr, hfill, hch, hkw, hkn => by
    simp only [FldsOK] at ht
    simp only [IdsOKf] at hid
    simp only [ShallowFs] at hsh
    simp only [HasFields] at hv
    obtain ⟨kv, rest, rfl, hv1, hv2⟩ := hv
    simp only [fillFields, bind, Except.bind, pure, Except.pure] at hfill
    cases h1 : fieldValue kw f with
    | error e => rw [h1] at hfill; exact (nomatch hfill)
    | ok v =>
      rw [h1] at hfill
      cases h2 : fillFields kw fs with
      | error e => rw [h2] at hfill; exact (nomatch hfill)
      | ok rest' =>
        rw [h2] at hfill
        simp only [Except.ok.injEq, List.cons.injEq] at hfill
        obtain ⟨rfl, rfl⟩ := hfill
        obtain ⟨es2, g2⟩ := restored_loadF c fs n path r kvs0 kw rest' ht.2 hid.2 hsh.2 hv2 (fun kv h => hfr kv (List.mem_cons_of_mem _ h)) h2 hch
          (fun k t dd hf => hkw k t dd (List.mem_cons_of_mem _ hf)) (fun k t dd hf => hkn k t dd (List.mem_cons_of_mem _ hf))
        obtain ⟨es1, g1⟩ := restored_loadF1 c f n path r kvs0 kw v ht.1 hid.1 hsh.1 hv1 (hfr (f.name, v) (by simp)) h1 hch
          (fun k t dd hf => hkw k t dd (by rw [hf]; simp)) (fun k t dd hf => hkn k t dd (by rw [hf]; simp))
        refine ⟨es1 ++ es2, ?_⟩
        unfold RestoredFs
        exact ⟨v, v, [], es1, rest', rest', [], es2, g1, g2, rfl, rfl, rfl, rfl⟩
theorem restored_loadF1 (c : DCfg) : ∀ (f : Fld) (n : Nat) (path : String) (r : Option Reg) (kvs0 kw : List (String × Val)) (v : Val),
    FldOK c.ext f → IdsOK1 f → ShallowF c.allowMissing f n kvs0 → HasField true f (f.name, v) →
    (Firm v ∧ v.isWeak = false) → fieldValue kw f = .ok v →
    (∀ k r', Reg.child r k = some r' → r'.WF k) →
    (∀ k t dd, Fld.mk k t dd = f → ∀ w, dget kw k = some w → ∃ x es', (k, x) ∈ kvs0 ∧ x.isWeak = false ∧
      fromDict c t false (fieldPath path k) x = .ok (w, es') ∧
      ∀ segs y, Reg.at (Reg.child r k) segs = some y ↔ SchedIn c.allowMissing t x segs y.1 y.2) →
    (∀ k t dd, Fld.mk k t dd = f → dget kw k = none → Reg.child r k = none) →
    ∃ es', RestoredF c.ext f r path v v [] es'
  | .mk k t dd, n, path, r, kvs0, kw, v, ht, hid, hsh, hv, hfr, hfv, hch, hkw, hkn => by
    simp only [FldOK] at ht
    simp only [IdsOK1] at hid
    simp only [ShallowF] at hsh
    simp only [HasField] at hv
    unfold RestoredF
    rw [joinPath_eq_fieldPath]
    cases hk : dget kw k with
    | none =>
      rw [hkn k t dd rfl hk]
      exact ⟨[], restored_typed c.ext t _ v ht hid ⟨hv.2, hfr⟩⟩
    | some w =>
      simp only [fieldValue, Fld.name, hk, Except.ok.injEq] at hfv
      subst hfv
      obtain ⟨x, es', h1, h2, h3, h4⟩ := hkw k t dd rfl w hk
      rcases hsh x h1 h2 with ⟨rfl, hns⟩ | ⟨m, rfl, hsh'⟩
      · have hr : Reg.child r k = none := Reg.eq_none_of (fun segs => by
          cases hx : Reg.at (Reg.child r k) segs with
          | none => rfl
          | some y => exact absurd hns ((h4 segs y).1 hx).not_noSched) k (hch k)
        rw [hr]
        exact ⟨[], restored_typed c.ext t _ w ht hid ⟨hv.2, hfr⟩⟩
      · exact restored_load c t m false _ (Reg.child r k) x w es' ht hid hsh' ⟨hv.2, hfr⟩ h3 (.inl ⟨k, hch k⟩) h4
end

end HS
