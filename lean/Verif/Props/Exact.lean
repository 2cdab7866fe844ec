import Verif.Props.AgainEx
import Verif.Props.ConfigDict
import Verif.Props.Leaf
/-!
# C10, C13 and C60 sharpened
-/
namespace HS

/-! ## C10 -/

theorem mapIdx_succeeds {f : Nat → Val → Res} : ∀ (xs : List Val) (j : Nat),
    (∀ (i : Nat) (x : Val), xs[i]? = some x → ∃ r, f (j + i) x = .ok r) → ∃ r, mapIdx f j xs = .ok r := by
  intro xs
  induction xs with
  | nil => intro j _; exact ⟨_, rfl⟩
  | cons x xs ih =>
    intro j h
    obtain ⟨r, hr⟩ := h 0 x rfl
    obtain ⟨r', hr'⟩ := ih (j + 1) (fun i y hy => by
      have := h (i + 1) y hy
      rwa [show j + (i + 1) = j + 1 + i by omega] at this)
    rw [Nat.add_zero] at hr
    exact ⟨_, by simp only [mapIdx, hr, hr', bind, Except.bind, pure, Except.pure]; rfl⟩

/-- C10, exactly: a document value is accepted for a Tuple field if and only if it is a tuple (or a named one) with at most the declared
number of elements, each of which is accepted for the type declared at its place. -/
theorem C10_accepts_iff (c : DCfg) (ig : Bool) (path : String) (as : List PyTy) (x : Val) :
    (∃ r, fromDict c (.tuple as) ig path x = .ok r) ↔
    ∃ xs, (x = .tup xs ∨ ∃ n kvs, x = .ntup n kvs ∧ xs = kvs.map Prod.snd) ∧ xs.length ≤ as.length ∧
      ∀ (i : Nat) (a : Val) (t : PyTy), xs[i]? = some a → as[i]? = some t →
        ∃ r, fromDict c t false (path ++ "[" ++ i.repr ++ "]") a = .ok r := by
  constructor
  · rintro ⟨⟨v, es⟩, h⟩
    obtain ⟨xs, ys, h1, _, _, h4, h5⟩ := C10_tuple_partial c ig path as x v es h
    refine ⟨xs, ?_, h4, fun i a t ha ht => ?_⟩
    · cases x <;> simp only [tupleItems, Option.some.injEq, reduceCtorEq] at h1
      · exact .inl (by rw [h1])
      · exact .inr ⟨_, _, rfl, h1.symm⟩
    · obtain ⟨y, es', _, h6⟩ := h5 i a t ha ht
      exact ⟨_, h6⟩
  · rintro ⟨xs, hx, hlen, hall⟩
    have hm : ∃ r, mapIdx (fun i x => fdNth c as i (path ++ "[" ++ i.repr ++ "]") x) 0 xs = .ok r := by
      refine mapIdx_succeeds _ _ (fun i a ha => ?_)
      have hi : i < xs.length := by
        rcases Nat.lt_or_ge i xs.length with h | h
        · exact h
        · rw [List.getElem?_eq_none h] at ha; exact (nomatch ha)
      have ht : as[i]? = some as[i] := List.getElem?_eq_getElem (by omega)
      obtain ⟨r, hr⟩ := hall i a _ ha ht
      exact ⟨r, by rw [fdNth_eq, Nat.zero_add, ht]; exact hr⟩
    obtain ⟨r, hr⟩ := hm
    rcases hx with rfl | ⟨n, kvs, rfl, rfl⟩
    · exact ⟨(.tup r.1, r.2), by simp only [fromDict, hr, bind, Except.bind, pure, Except.pure]⟩
    · exact ⟨(.tup r.1, r.2), by simp only [fromDict, hr, bind, Except.bind, pure, Except.pure]⟩

/-- both sides of `C10_accepts_iff` for a named tuple with a wrong second element -/
example : (∃ r, fromDict (Ex.world.dcfg false false) (.tuple [.int, .str]) false "p" (.ntup "T" [("a", .int 1)]) = .ok r) ∧
    fromDict (Ex.world.dcfg false false) (.tuple [.int, .str]) false "p" (.ntup "T" [("a", .int 1), ("b", .list [])]) = .error .deserType :=
  ⟨⟨_, rfl⟩, rfl⟩

/-! ## C13 -/

theorem overridesLoop_last {ron : RonParse} {sfs : List (String × SFld)} : ∀ (os : List String) (o : String) (sd sd' : Val) (stale : Option Val)
    (errs errs' : List String), overridesLoop ron sfs (os ++ [o]) sd stale errs = .ok (sd', errs') →
    ∃ sd1 st1 errs1, overridesLoop ron sfs os sd stale errs = .ok (sd1, errs1) ∧ overridesLoop ron sfs [o] sd1 st1 errs1 = .ok (sd', errs') ∧
      (os = [] → st1 = stale) ∧
      ((∀ o' ∈ os, ∀ key p s, IsOv o' key p s → (findField sfs p).isSome = true) →
        ∀ pre o1, os = pre ++ [o1] → ∀ key p s, IsOv o1 key p s → st1 = sd1.at? p) := by
  intro os
  induction os with
  | nil =>
    intro o sd sd' st e e' h
    exact ⟨sd, st, e, rfl, h, fun _ => rfl, fun _ pre o1 h1 => absurd h1 (by simp)⟩
  | cons a os ih =>
    intro o sd sd' st e e' h
    rw [List.cons_append] at h
    simp only [overridesLoop] at h
    split at h
    · exact (nomatch h)
    · rename_i key s hsp
      split at h
      · rename_i hff
        obtain ⟨sd1, st1, errs1, k1, k2, k3, k4⟩ := ih o _ _ _ _ _ h
        refine ⟨sd1, st1, errs1, ?_, k2, nofun, fun hall => ?_⟩
        · simp only [overridesLoop, hsp, hff]; exact k1
        · have := hall a (by simp) _ _ _ (isOv_of_split hsp)
          rw [hff] at this; exact (nomatch this)
      · rename_i f hff
        simp only [bind, Except.bind] at h
        split at h
        · exact (nomatch h)
        · rename_i val hval
          split at h
          · exact (nomatch h)
          · rename_i sd2 hset
            obtain ⟨sd1, st1, errs1, k1, k2, k3, k4⟩ := ih o _ _ _ _ _ h
            refine ⟨sd1, st1, errs1, ?_, k2, nofun, fun hall pre o1 h1 key' p' s' hov => ?_⟩
            · simp only [overridesLoop, hsp, hff, hval, hset, bind, Except.bind]; exact k1
            · cases os with
              | nil =>
                simp only [overridesLoop, Except.ok.injEq, Prod.mk.injEq] at k1
                have ho1 : a = o1 := by
                  cases pre with
                  | nil => simpa using h1
                  | cons x xs => simp at h1
                subst ho1
                have h2 := split_of_isOv hov
                rw [hsp] at h2
                simp only [Option.some.injEq, Prod.mk.injEq] at h2
                rw [k3 rfl, ← k1.1, hov.2.2, ← h2.1, (setPath_spec val hset).1]
              | cons b os' =>
                cases pre with
                | nil => simp at h1
                | cons x xs =>
                  rw [List.cons_append, List.cons.injEq] at h1
                  exact k4 (fun o' ho' => hall o' (List.mem_cons_of_mem _ ho')) xs o1 h1.2 key' p' s' hov

/-- C13, exactly what happens with an unrecognised spelling that is not the first override: the field gets the value that the override
before it has just written, whatever its type is, and nothing else changes. -/
theorem C13_leftover (ron : RonParse) (n : String) (fs : List Fld) (ver : Option VerInfo) (doc doc' : Val) (pre : List String)
    (o1 key1 s1 : String) (p1 : List String) (o key s : String) (p : List String) (hov1 : IsOv o1 key1 p1 s1) (hov : IsOv o key p s)
    (hf : FieldAt fs p .bool) (hs : ∀ b, s ∉ boolSpelling b)
    (h : applyOverrides ron (.data n fs ver) (pre ++ [o1] ++ [o]) doc = .ok doc') :
    ∃ doc1 x, applyOverrides ron (.data n fs ver) (pre ++ [o1]) doc = .ok doc1 ∧ doc1.at? p1 = some x ∧
      doc'.at? p = some x ∧ ∀ q, Unrelated p q → doc'.at? q = doc1.at? q := by
  obtain ⟨sfs, hm, hl⟩ := applyOverrides_ok h
  obtain ⟨sd1, st1, errs1, k1, k2, _, k4⟩ := overridesLoop_last _ _ _ _ _ _ _ hl
  obtain ⟨sf, hff, hmt⟩ := (findField_iff p hm).1 _ hf
  have hty : sf.type = .prim "bool" := by simp [materialize] at hmt; exact hmt.symm
  have hp : parseBool s = .none := by
    cases hp : parseBool s with
    | none => rfl
    | some b => exact absurd ((parseBool_iff s b).1 hp) (hs b)
  simp only [overridesLoop, split_of_isOv hov] at k2
  rw [← hov.2.2] at k2
  simp only [hff, hty, overrideVal, STy.isPrim, hp, bind, Except.bind] at k2
  rw [if_neg (by decide), if_pos (by decide)] at k2
  cases st1 with
  | none => exact (nomatch k2)
  | some x =>
    simp only at k2
    cases hset : setPath x sd1 p with
    | error e => rw [hset] at k2; exact (nomatch k2)
    | ok sd2 =>
      rw [hset] at k2
      simp only [Except.ok.injEq, Prod.mk.injEq] at k2
      obtain ⟨rfl, rfl⟩ := k2
      have hall : ∀ o' ∈ pre ++ [o1], ∀ key p s, IsOv o' key p s → (findField sfs p).isSome = true := by
        intro o' ho' key' p' s' hov'
        cases hff' : findField sfs p' with
        | some f => rfl
        | none =>
          obtain ⟨a, b, hab⟩ := List.append_of_mem ho'
          rw [hab] at k1
          obtain ⟨sd3, st3, errs3, _, hrest⟩ := overridesLoop_append ron sfs a (o' :: b) doc _ _ _ k1
          simp only [overridesLoop, split_of_isOv hov'] at hrest
          rw [← hov'.2.2] at hrest
          simp only [hff'] at hrest
          obtain ⟨new, hn⟩ := overridesLoop_errs _ _ _ _ _ _ _ _ hrest
          simp at hn
      have hx := k4 hall pre o1 rfl _ _ _ hov1
      refine ⟨sd1, x, ?_, hx.symm, (setPath_spec x hset).1, (setPath_spec x hset).2.1⟩
      simp only [applyOverrides, materialize, hm, bind, Except.bind, pure, Except.pure, k1]

/-- a number ends up in a boolean field -/
example : applyOverrides Ex.ronIdent (.data "C" [.mk "n" .int none, .mk "b" .bool none] none) ["n=5", "b=yes"] (.dict [])
    = .ok (.dict [("n", .int 5), ("b", .int 5)]) := rfl

/-! ## C60 -/

mutual
theorem fits_stored {e : Ext} : ∀ (t : PyTy) (r : Option Reg) (v : Val), Fits e false t r v → Storable t v
  | .int, r, v, h => by simp only [Fits] at h; exact h.1
  | .float, r, v, h => by simp only [Fits] at h; exact h.1
  | .blob n, r, v, h => by simp only [Fits] at h; exact absurd h.1 (by simp)
  | .data n fs ver, r, v, h => by
    simp only [Fits] at h
    obtain ⟨_, _, _, kvs, rfl, hk⟩ := h
    obtain ⟨h1, h2, h3⟩ := fits_storedFs fs r kvs hk
    refine ⟨by simp only [HasType]; exact ⟨kvs, rfl, h1⟩, by simp only [Firm]; exact ⟨h2, h3⟩, rfl⟩
  | .union as, r, v, h => by
    simp only [Fits] at h
    rcases h with h | ⟨ho, _, rfl⟩ | ⟨ho, h⟩
    · exact h.2.2
    · match as, ho with
      | [a, b], ho =>
        simp only [isOptionalArgs] at ho
        refine ⟨?_, by simp [Firm], rfl⟩
        simp only [HasType, HasTypeAny]
        cases b <;> simp only [PyTy.isNoneT, Bool.false_eq_true] at ho
        exact .inr (.inl (by simp [HasType]))
    · match as, h with
      | t :: ts, h =>
        simp only [FitsHead] at h
        obtain ⟨h1, h2⟩ := fits_stored t r v h
        exact ⟨by simp only [HasType, HasTypeAny]; exact .inl h1, h2⟩
  | .str, r, v, h | .bool, r, v, h | .noneT, r, v, h | .list _, r, v, h | .tuple _, r, v, h | .dict _ _, r, v, h
  | .enum _ _, r, v, h | .literal _, r, v, h => by simp only [Fits] at h; exact h.2.2
theorem fits_storedFs {e : Ext} : ∀ (fs : List Fld) (r : Option Reg) (kvs : List (String × Val)), FitsFs e false fs r kvs →
    HasFields true fs kvs ∧ (∀ kv ∈ kvs, kv.2.isWeak = false) ∧ FirmD kvs
  | [], r, kvs, h => by simp only [FitsFs] at h; subst h; simp [HasFields, FirmD]
  | f :: fs, r, kvs, h => by
    simp only [FitsFs] at h
    obtain ⟨v, rest, rfl, h1, h2⟩ := h
    obtain ⟨k1, k2, k3⟩ := fits_storedFs fs r rest h2
    obtain ⟨j1, j2, j3⟩ := fits_storedF f r v h1
    refine ⟨by simp only [HasFields]; exact ⟨_, _, rfl, j1, k1⟩, ?_, by simp only [FirmD, FirmP]; exact ⟨j2, k3⟩⟩
    intro kv hkv
    rcases List.mem_cons.1 hkv with rfl | hkv
    · exact j3
    · exact k2 kv hkv
theorem fits_storedF {e : Ext} : ∀ (f : Fld) (r : Option Reg) (v : Val), FitsF e false f r v →
    HasField true f (f.name, v) ∧ Firm v ∧ v.isWeak = false
  | .mk n t d, r, v, h => by
    simp only [FitsF] at h
    obtain ⟨h1, h2, h3⟩ := fits_stored t _ v h
    exact ⟨by simp only [HasField]; exact ⟨rfl, h1⟩, h2, h3⟩
end

/-- C60 (partial): at any moment of any history, also after exceptions, once the config was read `config_dict()` succeeds, changes nothing, and
loading it with the config class gives the config of that moment. Missing: unions of dataclasses (`C60_tagged_false`); the
conditions are on the class and on the document loaded at the start. -/
theorem C60_always_partial {E : MgrEnv} (hC : CfgClass E) {disk : Dir Files} (hdoc : ∀ doc1, LoadedDoc E disk doc1 → CfgDoc E doc1)
    (henv : EnvOK E.w.env E.cfgTy) (hu : Untagged E.cfgTy) (ops : List MOp) {c : Val}
    (hc : ((Mgr.new E disk).runX E ops).2.config = some c) :
    ∃ d, ((Mgr.new E disk).runX E ops).2.configDict E = .ok (d, ((Mgr.new E disk).runX E ops).2) ∧
      ∀ am file ig path, fromDict (E.w.dcfg am file) E.cfgTy ig path d = .ok (c, []) := by
  have hfit := (manager_fits hC hdoc ops hc).1
  exact C60_loads_partial E _ _ c (by simp only [Mgr.readConfig, hc]) hC.ty henv hu (fits_stored _ _ _ hfit)

open ExM in
/-- The manager of `C73` that is started with overrides and has made a step meets the conditions: its config dictionary has the
scheduled value 7 and gives the config back. -/
example : ∃ d, ((Mgr.new ovEnv []).runX ovEnv ovOps).2.configDict ovEnv = .ok (d, ((Mgr.new ovEnv []).runX ovEnv ovOps).2) ∧
    ∀ am file ig path, fromDict (ovEnv.w.dcfg am file) ovEnv.cfgTy ig path d
      = .ok (.inst "Config" [("opt", .inst "Opt" [("lr", .int 7)]), ("n", .int 5)], []) := by
  have h : ∀ m : Mgr, (match m.config with
      | some (.inst "Config" [("opt", .inst "Opt" [("lr", .int 7)]), ("n", .int 5)]) => true
      | _ => false) = true →
      m.config = some (.inst "Config" [("opt", .inst "Opt" [("lr", .int 7)]), ("n", .int 5)]) := by
    intro m h
    split at h
    · assumption
    · exact (nomatch h)
  exact C60_always_partial ov_class (fun doc1 h => by rw [ov_loaded h]; exact ov_doc)
    (by simp [ovEnv, E, w, cfgTy, EnvOK, EnvOKf, EnvOKf1, Fld.name, Fld.dflt])
    (by simp [ovEnv, E, cfgTy, Untagged, Untaggedf, Untaggedf1]) ovOps (h _ (by decide +kernel))

end HS
