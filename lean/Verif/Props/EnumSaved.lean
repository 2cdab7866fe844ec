import Verif.Props.Stable
/-!
# C02, C59 for every class with an enum

The saved file of any object that holds, in a field, an enum member whose name is not the value of a member cannot be loaded.
-/
namespace HS

theorem fdField_declared (c : DCfg) (k path : String) (v : Val) (t : PyTy) (d : Option Val) : ∀ fs : List Fld,
    fs.find? (fun f => f.name == k) = some (.mk k t d) → fdField c fs k path v = some (fromDict c t false path v)
  | [], h => by simp at h
  | .mk n t' d' :: fs, h => by
    simp only [List.find?, Fld.name] at h
    by_cases hn : n = k
    · subst hn
      simp only [beq_self_eq_true, Option.some.injEq, Fld.mk.injEq, true_and] at h
      simp [fdField, fdFld, h.1]
    · have : (n == k) = false := by simpa using hn
      rw [this] at h
      simp only [fdField, fdFld, hn, if_false]
      exact fdField_declared c k path v t d fs h

theorem asdictD_enum {c : SerCfg} (hc : DumpCfg c) (k cls m : String) (x : Val) : ∀ (kvs : List (String × Val)) (file : String)
    (as bs : List (String × Val)), asdictD c file kvs = .ok (as, bs) → (k, .enm cls m x) ∈ kvs → (k, .str m) ∈ as
  | [], _, _, _, _, hm => by simp at hm
  | (k0, v0) :: kvs, file, as, bs, h, hm => by
    simp only [asdictD, asdictP, bind, Except.bind, pure, Except.pure] at h
    cases h1 : asdict c (joinPath file k0) v0 with
    | error e => rw [h1] at h; cases h
    | ok p =>
      rw [h1] at h
      cases h2 : asdictD c file kvs with
      | error e => rw [h2] at h; cases h
      | ok q =>
        rw [h2] at h
        simp only [Except.ok.injEq, Prod.mk.injEq] at h
        rw [← h.1]
        rcases List.mem_cons.1 hm with hm | hm
        · cases hm
          simp [asdict, serHooks_id hc.sched, bind, Except.bind, pure, Except.pure] at h1
          rw [← h1]; simp
        · exact List.mem_cons_of_mem _ (asdictD_enum hc k cls m x kvs file q.1 q.2 h2 hm)

theorem ronTripD_str (k m : String) : ∀ d : List (String × Val), (k, .str m) ∈ d → (k, Val.str m) ∈ ronTripD d
  | [], h => by simp at h
  | (k0, v0) :: d, h => by
    simp only [ronTripD, ronTripP, List.mem_cons] at h ⊢
    rcases h with h | h
    · cases h; exact .inl (by simp [ronTrip])
    · exact .inr (ronTripD_str k m d h)

theorem enumByValue_missing (cls m : String) : ∀ ms : List (String × Val), (∀ e ∈ ms, e.2 ≠ .str m) →
    enumByValue cls (.str m) ms = .error .valueError
  | [], _ => rfl
  | (n, w) :: ms, h => by
    have h1 : w ≠ .str m := h (n, w) (by simp)
    have h2 : pyEq (.str m) w = false := by
      cases w <;> simp [pyEq]
      intro h3; exact h1 (by rw [h3])
    simp only [enumByValue, h2, Bool.false_eq_true, if_false]
    exact enumByValue_missing cls m ms (fun e he => h e (by simp [he]))

/-- C02 and C59 are false for every class (without version) that has an enum field, in every object where that field holds a
member whose name is not the value of any member, whatever the other fields are: if the object can be saved at all, the saved
document cannot be loaded. -/
theorem C59_enums_false (w : World) (n : String) (fs : List Fld) (kvs : List (String × Val)) (k cls m : String)
    (ms : List (String × Val)) (d : Option Val) (x doc : Val) (bs : List (String × Val))
    (hf : fs.find? (fun f => f.name == k) = some (.mk k (.enum cls ms) d)) (hk : k ≠ NAME_KEY)
    (hv : (w.env n).version = none) (hm : (k, .enm cls m x) ∈ kvs) (hms : ∀ e ∈ ms, e.2 ≠ .str m)
    (hd : typedDump w.env .none false (.inst n kvs) = .ok (doc, bs)) :
    ∃ e, hsLoad w (.data n fs none) (some doc) .none = .error e := by
  have hc := dumpCfg_ok w.env .none (.inl rfl) false
  have ⟨as, hdoc, has⟩ : ∃ as, doc = .dict as ∧ (k, Val.str m) ∈ as := by
    simp only [typedDump, asdict, serHooks_id hc.sched "" (.inst n kvs) (by nofun), bind, Except.bind, pure, Except.pure] at hd
    cases h1 : asdictD (dumpCfg w.env .none false) "" kvs with
    | error e => rw [h1] at hd; cases hd
    | ok p =>
      rw [h1] at hd
      have hmem := asdictD_enum hc k cls m x kvs "" p.1 p.2 h1 hm
      have hmod : modifyAttrs (dumpCfg w.env .none false) n p.1 = p.1 := by
        simp [modifyAttrs, dumpCfg, hv]
      simp only [packAttrs, hmod] at hd
      by_cases hn : ntNamesOk p.1 = true
      · have hnamed : (dumpCfg w.env .none false).named = true := rfl
        simp only [hn, hnamed, if_true, ronTrip, Except.ok.injEq, Prod.mk.injEq] at hd
        exact ⟨_, hd.1.symm, List.mem_cons_of_mem _ (ronTripD_str k m p.1 hmem)⟩
      · have hnamed : (dumpCfg w.env .none false).named = true := rfl
        simp only [hn, hnamed, if_true, Bool.false_eq_true, if_false] at hd
        cases hd
  subst hdoc
  cases h : hsLoad w (.data n fs none) (some (.dict as)) .none with
  | error e => exact ⟨e, rfl⟩
  | ok v =>
    exfalso
    simp only [hsLoad, typedLoad, fromDict_data_dict, bind, Except.bind, pure, Except.pure] at h
    cases h1 : itemsLoop (fun k x => fdField (w.dcfg false true) fs k (fieldPath "" k) x) false as with
    | error e => rw [h1] at h; cases h
    | ok p =>
      have hfd : ∀ path, fdField (w.dcfg false true) fs k path (.str m) = some (.error .valueError) := by
        intro path
        rw [fdField_declared _ _ _ _ _ _ fs hf]
        simp [fromDict, enumByValue_missing cls m ms hms, bind, Except.bind]
      obtain ⟨_, _, _, h2⟩ := itemsLoop_present (kw := p.1) (es := p.2) h1 has hk rfl (by rw [hfd]; rfl)
      rw [hfd] at h2
      cases h2

/-- `class Color(Enum): RED = 1` beside an int. -/
example : ∃ doc bs, typedDump (fun _ => ⟨.none, []⟩) .none false (.inst "C" [("n", .int 3), ("c", .enm "Color" "RED" (.int 1))])
      = .ok (doc, bs) ∧
    ∃ e, hsLoad { Ex.world with env := fun _ => ⟨.none, []⟩ }
      (.data "C" [.mk "n" .int .none, .mk "c" (.enum "Color" [("RED", .int 1)]) .none] none) (some doc) .none = .error e :=
  ⟨_, _, rfl, C59_enums_false { Ex.world with env := fun _ => ⟨.none, []⟩ } "C" _ [("n", .int 3), ("c", .enm "Color" "RED" (.int 1))]
    "c" "Color" "RED" [("RED", .int 1)] .none (.int 1) _ _ rfl (by decide) rfl (by simp) (by simp) rfl⟩

end HS
