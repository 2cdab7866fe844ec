import Verif.Props.NoFile
import Verif.Props.ExtraFields
import Verif.Props.ManagerOverride

/-! C95 with overrides: loading without a file (hyperstate.py:154-168, 311-331) -/

namespace HS

/-- a path and a single name are unrelated if the path does not start with the name -/
theorem unrelated_single {p : List String} {k : String} (hp : p ≠ []) (h : p.head? ≠ some k) : Unrelated p [k] := by
  cases p with
  | nil => exact absurd rfl hp
  | cons j js =>
    simp at h
    exact ⟨fun hh => by simp at hh; exact h hh.1, fun hh => by simp at hh; exact h hh.symm⟩

theorem noFile_overrides {c : DCfg} {ron : RonParse} {n : String} {fs : List Fld} {ver : Option VerInfo} {os : List String} {ig : Bool} {l : Loaded}
    (hm : ver = .none ∨ c.allowMissing = true) (hnd : (fs.map Fld.name).Nodup)
    (hov : ∀ o ∈ os, ∀ key p s, IsOv o key p s → p.head? ≠ some "version")
    (h : typedLoad c ron (some os) ig (.data n fs ver) (.dict []) = .ok l) :
    ∀ f ∈ fs, (∀ o ∈ os, ∀ key p s, IsOv o key p s → p.head? ≠ some f.name) → ∃ y, l.value.attr [f.name] = some y ∧ IsDefault f y := by
  intro f hf hno
  simp only [typedLoad, bind, Except.bind, pure, Except.pure] at h
  cases ho : applyOverrides ron (.data n fs ver) os (.dict []) with
  | error e => rw [ho] at h; exact (nomatch h)
  | ok doc =>
    rw [ho] at h
    dsimp only at h
    obtain ⟨d, rfl⟩ := applyOverrides_dict ho
    have habs : ∀ k, (∀ o ∈ os, ∀ key p s, IsOv o key p s → p.head? ≠ some k) → dget d k = .none := by
      intro k hk
      have := C11_frame ron n fs ver _ _ os ho [k] (fun o ho key p s hi => unrelated_single (by rw [hi.2.2]; exact pySplit_ne_nil _ _) (hk o ho key p s hi))
      simp only [at?_dict_cons, dget, Option.bind_none] at this
      cases hd : dget d k with
      | none => rfl
      | some x => rw [hd] at this; simp at this
    cases hq : fromDict c (.data n fs ver) ig "" (.dict d) with
    | error e => rw [hq] at h; exact (nomatch h)
    | ok q =>
      obtain ⟨v, es⟩ := q
      rw [hq] at h
      dsimp only at h
      cases hr : regAll [] es with
      | error e => rw [hr] at h; exact (nomatch h)
      | ok r =>
        rw [hr] at h
        cases h
        have hup : Upgraded c ver (.dict d) (.dict d) := by
          cases ver with
          | none => rfl
          | some vi =>
            have ha : c.allowMissing = true := by rcases hm with h | h; cases h; exact h
            simp [Upgraded, versionHook_missing _ vi d (habs "version" hov), ha]
        rw [fromDict_upgraded hup, fromDict_data_dict] at hq
        simp only [bind, Except.bind, pure, Except.pure] at hq
        split at hq
        · exact (nomatch hq)
        · rename_i z hz
          obtain ⟨kw, es0⟩ := z
          split at hq
          · exact (nomatch hq)
          · rename_i kvs hk
            cases hq
            obtain ⟨y, hy, hfv⟩ := fillFields_value hk hnd f hf
            refine ⟨y, by simp [Val.attr, hy], (fieldValue_absent (kw := kw) ?_ y).1 hfv⟩
            cases hg : dget kw f.name with
            | none => rfl
            | some y' =>
              obtain ⟨_, x, _, hxd, _⟩ := itemsLoop_keys hz (dget_mem hg)
              have := habs f.name hno
              exact absurd (List.mem_map.2 ⟨_, hxd, rfl⟩) ((dget_eq_none_iff _ _).1 this)

/-- C95: `load(cls, None, overrides)`: a field that no override names or goes through has its default. -/
theorem C95_load_overrides (w : World) (n : String) (fs : List Fld) (ver : Option VerInfo) (os : List String) (v : Val)
    (hnd : (fs.map Fld.name).Nodup) (hov : ∀ o ∈ os, ∀ key p s, IsOv o key p s → p.head? ≠ some "version")
    (h : hsLoad w (.data n fs ver) .none (some os) = .ok v) (f : Fld) (hf : f ∈ fs)
    (hno : ∀ o ∈ os, ∀ key p s, IsOv o key p s → p.head? ≠ some f.name) : ∃ y, v.attr [f.name] = some y ∧ IsDefault f y := by
  simp only [hsLoad, bind, Except.bind, pure, Except.pure] at h
  split at h
  · exact (nomatch h)
  rename_i l hl
  cases h
  refine noFile_overrides ?_ hnd hov hl f hf hno
  cases ver with
  | none => exact .inl rfl
  | some vi => exact .inr rfl

/-- C95: the same for a manager that finds no checkpoint and was given no `init_path`. -/
theorem C95_manager_overrides (E : MgrEnv) (disk : Dir Files) (n : String) (fs : List Fld) (ver : Option VerInfo) (hE : E.cfgTy = .data n fs ver)
    (hc : E.ckpt = false ∨ openMgr disk = none) (hi : E.init = .absent) (hnd : (fs.map Fld.name).Nodup)
    (hov : ∀ o ∈ E.overrides, ∀ key p s, IsOv o key p s → p.head? ≠ some "version") (v : Val) (m : Mgr)
    (h : (Mgr.new E disk).readConfig E = .ok (v, m)) (f : Fld) (hf : f ∈ fs)
    (hno : ∀ o ∈ E.overrides, ∀ key p s, IsOv o key p s → p.head? ≠ some f.name) : ∃ y, v.attr [f.name] = some y ∧ IsDefault f y := by
  obtain ⟨doc, l, h1, h2, rfl⟩ := (C47_config E disk v).1 ⟨m, h⟩
  have hdoc : doc = .none := by
    cases h1 with
    | ckpt h1 h3 _ => rcases hc with h | h; rw [h] at h1; cases h1; rw [h] at h3; cases h3
    | file _ h => rw [hi] at h; cases h
    | dir _ h => rw [hi] at h; cases h
    | absent _ _ => rfl
  subst hdoc
  rw [hE] at h2
  exact noFile_overrides (.inr rfl) hnd hov h2 f hf hno

/-- `n=5` for a versioned class with the rules `vi`: the other field has its default -/
example (vi : VerInfo) : hsLoad { Ex.world with ron := Ex.ronIdent } (.data "C" [.mk "n" .int (some (.int 3)), .mk "s" .str (some (.str "x"))] (some vi)) .none
      (some ["n=5"]) = .ok (.inst "C" [("n", .int 5), ("s", .str "x")]) ∧
    ∀ o ∈ ["n=5"], ∀ key p s, IsOv o key p s → p.head? ≠ some "version" ∧ p.head? ≠ some "s" := by
  refine ⟨rfl, ?_⟩
  intro o ho key p s h
  simp only [List.mem_singleton] at ho
  subst ho
  have h1 := split_of_isOv h
  have h2 : splitOverride "n=5" = some ("n", "5") := by decide
  rw [h2] at h1
  cases h1
  rw [h.2.2]
  decide

end HS
