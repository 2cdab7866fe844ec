import Verif.Proofs.Serde
import Verif.Spec.Restore
import Verif.Proofs.Split
import Verif.Model.Load
/-!
# Dumping and loading with a schedule registry and with blobs
-/
namespace HS

/-! ## paths -/

theorem splitC_append (c : Char) : ∀ (a b : List Char), splitC c (a ++ c :: b) = splitC c a ++ splitC c b := by
  intro a b
  induction a with
  | nil => simp [splitC]
  | cons x a ih =>
    simp only [List.cons_append, splitC]
    split
    · simp [ih]
    · rw [ih]
      cases h : splitC c a with
      | nil => exact absurd h (splitC_spec c a).1
      | cons w ws => simp

theorem pySplit_join (a b : String) : pySplit '.' (a ++ "." ++ b) = pySplit '.' a ++ pySplit '.' b := by
  simp only [pySplit]
  have : (a ++ "." ++ b).toList = a.toList ++ '.' :: b.toList := by simp
  rw [this, splitC_append, List.map_append]

theorem pySplit_id {n : String} (h : '.' ∉ n.toList) : pySplit '.' n = [n] := by
  simp [pySplit, splitC_word h]

theorem joinPath_eq_fieldPath (p n : String) : joinPath p n = fieldPath p n := rfl

theorem joinPath_ne {p n : String} (h : n ≠ "") : joinPath p n ≠ "" := by
  simp only [joinPath]
  split
  · exact h
  · intro e
    have := congrArg (fun s => s.toList.length) e
    simp at this

/-! ## the registry along a path -/

/-- walk into the registry: `none` for an attempt to index a Schedule, `some none` when the path leaves the registry -/
def Reg.look : Reg → List String → Option (Option Reg)
  | r, [] => some (some r)
  | .node es, s :: ss => match dget es s with
    | some r => r.look ss
    | .none => some .none
  | .sched _ _ _, _ :: _ => .none

def Reg.text? : Option Reg → Option String
  | some (.sched t _ _) => some t
  | _ => .none

theorem find_look : ∀ (segs : List String) (r : Reg) (x : Option Reg), r.look segs = some x → r.find segs = .ok (Reg.text? x) := by
  intro segs
  induction segs with
  | nil => intro r x h; cases r <;> simp [Reg.look] at h <;> subst h <;> rfl
  | cons s segs ih =>
    intro r x h
    cases r with
    | sched => simp [Reg.look] at h
    | node es =>
      simp only [Reg.look] at h
      simp only [Reg.find]
      split at h
      · rename_i r' hr
        rw [hr]
        exact ih r' x h
      · rename_i hr
        cases h
        rw [hr]; rfl

theorem look_append : ∀ (a b : List String) (r : Reg) (x : Option Reg), r.look a = some x →
    r.look (a ++ b) = match x with | some r' => r'.look b | .none => some .none := by
  intro a
  induction a with
  | nil => intro b r x h; simp [Reg.look] at h; subst h; simp
  | cons s a ih =>
    intro b r x h
    cases r with
    | sched => simp [Reg.look] at h
    | node es =>
      simp only [Reg.look] at h
      simp only [List.cons_append, Reg.look]
      cases hr : dget es s with
      | some r' =>
        rw [hr] at h
        exact ih b r' x h
      | none =>
        rw [hr] at h
        cases h
        rfl

/-- `r` is what is registered at `path` -/
def At (c : SerCfg) (path : String) (r : Option Reg) : Prop :=
  match c.sched with
  | .none => r = .none
  | some reg => (path = "" ∧ r = some reg ∧ ∃ es, reg = .node es ∧ dget es "" = .none) ∨
      (path ≠ "" ∧ reg.look (pySplit '.' path) = some r)

theorem At.schedFind {c : SerCfg} {path : String} {r : Option Reg} (h : At c path r) : HS.schedFind c path = .ok (Reg.text? r) := by
  simp only [At] at h
  simp only [HS.schedFind]
  split at h
  · rename_i e; rw [e, h]; rfl
  · rename_i reg e
    rw [e]
    rcases h with ⟨rfl, rfl, es, rfl, hd⟩ | ⟨_, h⟩
    · have : pySplit '.' "" = [""] := pySplit_id (by simp)
      simp [this, Reg.find, hd, Reg.text?]
    · exact find_look _ _ _ h

theorem At.child {c : SerCfg} {path : String} {r : Option Reg} (h : At c path r) (hr : Reg.isSched r = false) {k : String} (hk : IdOK k) :
    At c (joinPath path k) (Reg.child r k) := by
  simp only [At] at h ⊢
  split at h
  · rename_i e; simp only [h]; rfl
  · rename_i reg e
    right
    refine ⟨joinPath_ne hk.1, ?_⟩
    rcases h with ⟨rfl, rfl, es, rfl, hd⟩ | ⟨hp, h⟩
    · simp only [joinPath, if_true, pySplit_id hk.2.1, Reg.look, Reg.child]
      cases dget es k <;> rfl
    · simp only [joinPath, if_neg hp, pySplit_join, pySplit_id hk.2.1]
      rw [look_append _ _ _ _ h]
      cases r with
      | none => rfl
      | some r =>
        cases r with
        | sched => simp [Reg.isSched] at hr
        | node es => simp only [Reg.look, Reg.child]; cases dget es k <;> rfl

theorem At.none_join {c : SerCfg} {path : String} (h : At c path .none) (k : String) : At c (joinPath path k) .none := by
  simp only [At] at h ⊢
  split at h
  · trivial
  · rename_i reg e
    right
    rcases h with ⟨_, h, _⟩ | ⟨hp, h⟩
    · cases h
    · simp only [joinPath, if_neg hp, pySplit_join]
      refine ⟨?_, ?_⟩
      · intro e
        have := congrArg (fun s => s.toList.length) e
        simp at this
      · rw [look_append _ _ _ _ h]

/-! ## without schedules below a path the registry is irrelevant -/

def SerCfg.unsched (c : SerCfg) : SerCfg := { c with sched := .none }

theorem serHooks_unsched {c : SerCfg} {path : String} (h : At c path .none) (v : Val) :
    serHooks c path v = serHooks c.unsched path v := by
  have h1 := h.schedFind
  have h2 : schedFind c.unsched path = .ok .none := rfl
  simp only [serHooks, h1, h2, Reg.text?]
  rfl

mutual
theorem asdict_unsched (c : SerCfg) : ∀ (v : Val) (path : String), At c path .none → asdict c path v = asdict c.unsched path v
  | .inst cls kvs, path, h => by
    have ih := asdictD_unsched c kvs path h
    simp only [asdict, serHooks_unsched h, ih]; rfl
  | .dict kvs, path, h => by
    have ih := asdictD_unsched c kvs path h
    simp only [asdict, serHooks_unsched h, ih]
  | .list xs, path, h => by
    have ih := asdictL_unsched c xs 0 path h
    simp only [asdict, serHooks_unsched h, ih]
  | .tup xs, path, h => by
    have ih := asdictL_unsched c xs 0 path h
    simp only [asdict, serHooks_unsched h, ih]
  | .ntup n kvs, path, h => by
    have ih := asdictV_unsched c kvs 0 path h
    simp only [asdict, serHooks_unsched h, ih]
  | .none, path, h => by simp only [asdict, serHooks_unsched h]
  | .bool _, path, h => by simp only [asdict, serHooks_unsched h]
  | .int _, path, h => by simp only [asdict, serHooks_unsched h]
  | .flt _, path, h => by simp only [asdict, serHooks_unsched h]
  | .str _, path, h => by simp only [asdict, serHooks_unsched h]
  | .enm _ _ _, path, h => by simp only [asdict, serHooks_unsched h]
  | .ser _ _, path, h => by simp only [asdict, serHooks_unsched h]
termination_by structural x => x
theorem asdictD_unsched (c : SerCfg) : ∀ (kvs : List (String × Val)) (path : String), At c path .none →
    asdictD c path kvs = asdictD c.unsched path kvs
  | [], path, h => rfl
  | kv :: rest, path, h => by
    have ih1 := asdictP_unsched c kv path h
    have ih2 := asdictD_unsched c rest path h
    simp only [asdictD, ih1, ih2]
termination_by structural x => x
theorem asdictP_unsched (c : SerCfg) : ∀ (kv : String × Val) (path : String), At c path .none →
    asdictP c path kv = asdictP c.unsched path kv
  | (k, v), path, h => by
    have ih := asdict_unsched c v (joinPath path k) (h.none_join k)
    simp only [asdictP, ih]
termination_by structural x => x
theorem asdictL_unsched (c : SerCfg) : ∀ (xs : List Val) (i : Nat) (path : String), At c path .none →
    asdictL c path i xs = asdictL c.unsched path i xs
  | [], _, path, h => rfl
  | x :: xs, i, path, h => by
    have ih1 := asdict_unsched c x (joinPath path i.repr) (h.none_join _)
    have ih2 := asdictL_unsched c xs (i + 1) path h
    simp only [asdictL, ih1, ih2]
termination_by structural x => x
theorem asdictV_unsched (c : SerCfg) : ∀ (kvs : List (String × Val)) (i : Nat) (path : String), At c path .none →
    asdictV c path i kvs = asdictV c.unsched path i kvs
  | [], _, path, h => rfl
  | kv :: kvs, i, path, h => by
    have ih1 := asdictE_unsched c kv i path h
    have ih2 := asdictV_unsched c kvs (i + 1) path h
    simp only [asdictV, ih1, ih2]
termination_by structural x => x
theorem asdictE_unsched (c : SerCfg) : ∀ (kv : String × Val) (i : Nat) (path : String), At c path .none →
    asdictE c path i kv = asdictE c.unsched path i kv
  | (k, v), i, path, h => by
    have ih := asdict_unsched c v (joinPath path i.repr) (h.none_join _)
    simp only [asdictE, ih]
termination_by structural x => x
end

/-! ## the round trip -/

structure DumpCfgS (c : SerCfg) : Prop where
  lazy : c.lazy = true
  versioned : c.versioned = true
  named : c.named = true
  elide : c.elide = false

theorem DumpCfgS.unsched {c : SerCfg} (h : DumpCfgS c) : DumpCfg c.unsched :=
  ⟨h.lazy, h.versioned, h.named, fun _ => rfl⟩

theorem serHooks_keep {c : SerCfg} {path : String} {r : Option Reg} (h : At c path r) (hr : Reg.isSched r = false) (v : Val)
    (hv : ∀ n x, v ≠ .ser n x) : serHooks c path v = .ok (v, []) := by
  have hf := h.schedFind
  have : Reg.text? r = none := by
    cases r with
    | none => rfl
    | some r => cases r <;> simp_all [Reg.isSched, Reg.text?]
  rw [this] at hf
  unfold serHooks
  cases v <;> cases c.lazy <;>
    simp_all [bind, Except.bind, pure, Except.pure]

theorem serHooks_sched {c : SerCfg} {path txt a : String} {i : Bool} (h : At c path (some (.sched txt i a))) (v : Val)
    (hv : ∀ n x, v ≠ .ser n x) : serHooks c path v = .ok (.str txt, []) := by
  have hf := h.schedFind
  simp only [Reg.text?] at hf
  unfold serHooks
  cases v <;> cases c.lazy <;>
    simp_all [bind, Except.bind, pure, Except.pure]

/-- dump and load at a path -/
structure RTS (c : SerCfg) (dc : DCfg) (t : PyTy) (path : String) (v v' : Val) (bs : List (String × Val)) (es : List Ev)
    (w : Val) : Prop where
  dump : asdict c path v = .ok (w, bs)
  load : ∀ ig, fromDict dc t ig path (ronTrip w) = .ok (v', es)
  weak : (ronTrip w).isWeak = false
  none : (ronTrip w).isNone = true → v' = .none ∧ es = []

theorem rts_plain {c : SerCfg} {dc : DCfg} (hc : DumpCfgS c) {t : PyTy} (ht : TyOK dc.ext t) (he : EnvOK c.env t)
    {path : String} (hat : At c path .none) {v : Val} (hv : Storable t v) : ∃ w, RTS c dc t path v v [] [] w := by
  obtain ⟨w, hw⟩ := rt hc.unsched hc.elide t ht he v path hv.1 hv.2.1
  exact ⟨w, by rw [asdict_unsched c v path hat]; exact hw.dump, fun ig => hw.load ig path, hw.weak hv.2.2, fun h => ⟨hw.none h, rfl⟩⟩

theorem fillFields_given (kvs0 : List (String × Val)) (hn : (dkeys kvs0).Nodup) : ∀ (fs : List Fld) (kvs : List (String × Val)),
    dkeys kvs = fs.map Fld.name → (∀ kv ∈ kvs, kv ∈ kvs0) → fillFields kvs0 fs = .ok kvs := by
  intro fs
  induction fs with
  | nil => intro kvs hk _; cases kvs <;> simp_all [dkeys, fillFields]
  | cons f fs ih =>
    intro kvs hk hs
    cases kvs with
    | nil => simp [dkeys] at hk
    | cons kv kvs =>
      simp only [dkeys, List.map_cons, List.cons.injEq] at hk
      have hg : dget kvs0 f.name = some kv.2 := by
        rw [← hk.1]
        exact dget_of_mem hn (hs kv (by simp))
      have := ih kvs hk.2 (fun x hx => hs x (List.mem_cons_of_mem _ hx))
      simp only [fillFields, fieldValue, hg, this, bind, Except.bind, pure, Except.pure]
      rw [← hk.1]

theorem rtS_data {c : SerCfg} {dc : DCfg} (hc : DumpCfgS c) (n : String) (fs : List Fld) (ver : Option VerInfo)
    (hty : ClassOK fs ver) (henv : EnvOK c.env (.data n fs ver)) {r : Option Reg} (hr : Reg.isSched r = false)
    {path : String} (hat : At c path r) {kvs kvs' as bs : List (String × Val)} {es : List Ev}
    (has : asdictD c path kvs = .ok (as, bs)) (hka : dkeys as = fs.map Fld.name) (hkk : dkeys kvs' = fs.map Fld.name)
    (hitems : ∀ ig, itemsLoop (fun k x => fdField dc fs k (fieldPath path k) x) ig (ronTripD as) = .ok (kvs', es)) :
    ∃ w, RTS c dc (.data n fs ver) path (.inst n kvs) (.inst n kvs') bs es w := by
  obtain ⟨hnd, hnames, hver, hvok⟩ := hty
  simp only [EnvOK] at henv
  have hnda : (dkeys as).Nodup := by rw [hka]; exact hnd
  have hndk : (dkeys kvs').Nodup := by rw [hkk]; exact hnd
  have hfill := fillFields_given kvs' hndk fs kvs' hkk (fun _ h => h)
  have huscore : ∀ a ∈ as, ['_'].isPrefixOf a.1.toList = false := by
    intro a ha
    have : a.1 ∈ fs.map Fld.name := by rw [← hka]; exact List.mem_map.2 ⟨a, ha, rfl⟩
    obtain ⟨f, hf, hfe⟩ := List.mem_map.1 this
    rw [← hfe]; exact (hnames f hf).1.2.2
  have hhook := serHooks_keep hat hr (.inst n kvs) (by intro _ _; simp)
  have hwk : WEAK_REF ∉ dkeys as := by
    rw [hka]; intro h
    obtain ⟨f, hf, hfe⟩ := List.mem_map.1 h
    exact (hnames f hf).1.2.1 hfe
  cases ver with
  | none =>
    have hpack : packAttrs c n as = .ok (.ntup n as) := by
      have hok : ntNamesOk as = true := by
        simp only [ntNamesOk, List.all_eq_true]; intro a ha; simp [huscore a ha]
      simp [packAttrs, modifyAttrs, henv.1, hc.elide, hc.named, hok]
    refine ⟨.ntup n as, ?_, ?_, ?_, ?_⟩
    · simp [asdict, hhook, has, hpack, bind, Except.bind, pure, Except.pure]
    · intro ig
      simp [ronTrip, fromDict, asRawDict, itemsLoop, hitems, hfill, bind, Except.bind, pure, Except.pure]
    · simp only [ronTrip, Val.isWeak, dhas]
      have : dget ((NAME_KEY, Val.str n) :: ronTripD as) WEAK_REF = none := by
        apply dget_none_of_not_mem
        simp only [dkeys, List.map_cons, List.mem_cons, not_or]
        refine ⟨by decide, ?_⟩
        have := dkeys_ronTripD as
        simp only [dkeys] at this hwk
        rw [this]; exact hwk
      simp [this]
    · intro h; simp [ronTrip, Val.isNone] at h
  | some vi =>
    have hnv : "version" ∉ dkeys as := by
      rw [hka]; intro h
      obtain ⟨f, hf, hfe⟩ := List.mem_map.1 h
      exact hver rfl f hf hfe
    have hpack : packAttrs c n as = .ok (.ntup n (("version", .int vi.version) :: as)) := by
      have hok : ntNamesOk (("version", Val.int vi.version) :: as) = true := by
        simp only [ntNamesOk, List.all_eq_true]; intro a ha
        rcases List.mem_cons.1 ha with rfl | ha
        · have : (!['_'].isPrefixOf "version".toList) = true := by decide
          exact this
        · simp [huscore a ha]
      simp [packAttrs, modifyAttrs, henv.1, hc.elide, hc.named, hc.versioned, foldl_dset_version _ _ hnda hnv, hok]
    refine ⟨.ntup n (("version", .int vi.version) :: as), ?_, ?_, ?_, ?_⟩
    · simp [asdict, hhook, has, hpack, bind, Except.bind, pure, Except.pure]
    · intro ig
      have hvi : ∀ e ∈ vi.rules, e.1 < vi.version := hvok vi rfl
      have hall : (vi.rules.all fun e => decide (e.1 < vi.version)) = true := by simpa using hvi
      have hdel : ddel (ronTripD as) "version" = ronTripD as := by
        apply ddel_not_mem
        apply dget_none_of_not_mem
        rw [dkeys_ronTripD]; exact hnv
      have h1 : dget ((NAME_KEY, Val.str n) :: ("version", Val.int vi.version) :: ronTripD as) "version"
          = some (.int vi.version) := by simp [dget, NAME_KEY]
      have h2 : ddel ((NAME_KEY, Val.str n) :: ("version", Val.int vi.version) :: ronTripD as) "version"
          = (NAME_KEY, Val.str n) :: ronTripD as := by simp [ddel, NAME_KEY, hdel]
      simp only [ronTrip, ronTripD, ronTripP, fromDict, versionHook, h1, h2, VerInfo.upgradeAny, hall, if_true,
        Val.asRangeInt, bind, Except.bind, applyUpgrades_self vi hvi, asRawDict, pure, Except.pure, itemsLoop, hitems,
        hfill]
    · simp only [ronTrip, Val.isWeak, dhas, ronTripD, ronTripP]
      have : dget ((NAME_KEY, Val.str n) :: ("version", Val.int vi.version) :: ronTripD as) WEAK_REF = none := by
        apply dget_none_of_not_mem
        simp only [dkeys, List.map_cons, List.mem_cons, not_or]
        refine ⟨by decide, by decide, ?_⟩
        have := dkeys_ronTripD as
        simp only [dkeys] at this hwk
        rw [this]; exact hwk
      simp [this]
    · intro h; simp [ronTrip, Val.isNone] at h

mutual
theorem rtS {c : SerCfg} {dc : DCfg} (hc : DumpCfgS c) (hf : dc.file = true) : ∀ (t : PyTy) (r : Option Reg) (path : String)
    (v v' : Val) (bs : List (String × Val)) (es : List Ev), Restored dc.ext t r path v v' bs es → EnvOK c.env t →
    At c path r → ∃ w, RTS c dc t path v v' bs es w
  | .int, r, path, v, v', bs, es, h, he, hat => by
    simp only [Restored] at h
    obtain ⟨hv, rfl, ⟨rfl, rfl, rfl⟩ | ⟨txt, a, f, i, rfl, htxt, hf, hi, rfl, rfl⟩⟩ := h
    · exact rts_plain hc (by simp [TyOK]) he hat hv
    · refine ⟨.str txt, ?_, ?_, rfl, by simp [ronTrip, Val.isNone]⟩
      · have hv := hv.1
        simp only [HasType] at hv
        rcases hv with ⟨j, rfl⟩ | ⟨b, rfl⟩ <;>
          simp [asdict, serHooks_sched hat, bind, Except.bind, pure, Except.pure]
      · intro ig
        simp [ronTrip, fromDict, schedHook, htxt, hf, hi, bind, Except.bind, pure, Except.pure]
  | .float, r, path, v, v', bs, es, h, he, hat => by
    simp only [Restored] at h
    obtain ⟨hv, rfl, ⟨rfl, rfl, rfl⟩ | ⟨txt, a, f, rfl, htxt, hf, rfl, rfl⟩⟩ := h
    · exact rts_plain hc (by simp [TyOK]) he hat hv
    · refine ⟨.str txt, ?_, ?_, rfl, by simp [ronTrip, Val.isNone]⟩
      · have hv := hv.1
        simp only [HasType] at hv
        obtain ⟨j, rfl⟩ := hv
        simp [asdict, serHooks_sched hat, bind, Except.bind, pure, Except.pure]
      · intro ig
        simp [ronTrip, fromDict, schedHook, htxt, hf, bind, Except.bind, pure, Except.pure]
  | .str, r, path, v, v', bs, es, h, he, hat => by
    simp only [Restored] at h
    obtain ⟨rfl, ht, hv, rfl, rfl, rfl⟩ := h
    exact rts_plain hc ht he hat hv
  | .bool, r, path, v, v', bs, es, h, he, hat => by
    simp only [Restored] at h
    obtain ⟨rfl, ht, hv, rfl, rfl, rfl⟩ := h
    exact rts_plain hc ht he hat hv
  | .noneT, r, path, v, v', bs, es, h, he, hat => by
    simp only [Restored] at h
    obtain ⟨rfl, ht, hv, rfl, rfl, rfl⟩ := h
    exact rts_plain hc ht he hat hv
  | .list a, r, path, v, v', bs, es, h, he, hat => by
    simp only [Restored] at h
    obtain ⟨rfl, ht, hv, rfl, rfl, rfl⟩ := h
    exact rts_plain hc ht he hat hv
  | .tuple as, r, path, v, v', bs, es, h, he, hat => by
    simp only [Restored] at h
    obtain ⟨rfl, ht, hv, rfl, rfl, rfl⟩ := h
    exact rts_plain hc ht he hat hv
  | .dict _ _, r, path, v, v', bs, es, h, he, hat => by
    simp only [Restored] at h
    obtain ⟨rfl, ht, hv, rfl, rfl, rfl⟩ := h
    exact rts_plain hc ht he hat hv
  | .enum _ _, r, path, v, v', bs, es, h, he, hat => by
    simp only [Restored] at h
    obtain ⟨rfl, ht, hv, rfl, rfl, rfl⟩ := h
    exact rts_plain hc ht he hat hv
  | .literal _, r, path, v, v', bs, es, h, he, hat => by
    simp only [Restored] at h
    obtain ⟨rfl, ht, hv, rfl, rfl, rfl⟩ := h
    exact rts_plain hc ht he hat hv
  | .blob n, r, path, v, v', bs, es, h, he, hat => by
    simp only [Restored] at h
    obtain ⟨rfl, x, rfl, rfl, rfl, rfl⟩ := h
    refine ⟨.str "<blob:msgpack>", ?_, ?_, rfl, by simp [ronTrip, Val.isNone]⟩
    · have h1 := hat.schedFind
      simp only [Reg.text?] at h1
      simp [asdict, serHooks, hc.lazy, h1, bind, Except.bind, pure, Except.pure]
    · intro ig
      simp [ronTrip, fromDict, hf, lazyHook]
  | .data n fs ver, r, path, v, v', bs, es, h, he, hat => by
    simp only [Restored] at h
    obtain ⟨hcl, hr, _, kvs, kvs', rfl, rfl, hfs⟩ := h
    have henv := he
    simp only [EnvOK] at he
    obtain ⟨as, has, hka, hkk, hitems⟩ := rtSf hc hf fs r path kvs kvs' bs es hfs he.2 hr hat (fun f h => (hcl.2.1 f h).2)
      (fun f h => (hcl.2.1 f h).1.1)
    exact rtS_data hc n fs ver hcl henv hr hat has hka hkk (fun ig => hitems fs hcl.1 (fun f h => h) ig)
  | .union as, r, path, v, v', bs, es, h, he, hat => by
    simp only [Restored] at h
    rcases h with ⟨rfl, ht, hv, rfl, rfl, rfl⟩ | ⟨hopt, rfl, rfl, rfl, rfl, rfl⟩ | ⟨hopt, h⟩
    · exact rts_plain hc ht he hat hv
    · refine ⟨.none, ?_, ?_, rfl, fun _ => ⟨rfl, rfl⟩⟩
      · simp [asdict, serHooks_keep hat rfl, bind, Except.bind, pure, Except.pure]
      · intro ig
        simp [ronTrip, fromDict, hopt, Val.isNone]
    · simp only [EnvOK] at he
      obtain ⟨w, hw, hl⟩ := rtSh hc hf as r path v v' bs es h he hat
      refine ⟨w, hw.dump, ?_, hw.weak, hw.none⟩
      intro ig
      simp only [fromDict, if_pos hopt]
      split
      · rename_i hn
        obtain ⟨rfl, rfl⟩ := hw.none hn
        rfl
      · exact hl ig
theorem rtSh {c : SerCfg} {dc : DCfg} (hc : DumpCfgS c) (hf : dc.file = true) : ∀ (ts : List PyTy) (r : Option Reg) (path : String)
    (v v' : Val) (bs : List (String × Val)) (es : List Ev), RestoredHead dc.ext ts r path v v' bs es → EnvOKs c.env ts →
    At c path r → ∃ w, RTS c dc (ts.headD .noneT) path v v' bs es w ∧ ∀ ig, fdHead dc ts ig path (ronTrip w) = .ok (v', es)
  | [], _, _, _, _, _, _, h, _, _ => by simp [RestoredHead] at h
  | t :: ts, r, path, v, v', bs, es, h, he, hat => by
    simp only [RestoredHead] at h
    simp only [EnvOKs] at he
    obtain ⟨w, hw⟩ := rtS hc hf t r path v v' bs es h he.1 hat
    exact ⟨w, hw, fun ig => by simp only [fdHead]; exact hw.load ig⟩
theorem rtSf {c : SerCfg} {dc : DCfg} (hc : DumpCfgS c) (hf : dc.file = true) : ∀ (fs : List Fld) (r : Option Reg) (path : String)
    (kvs kvs' bs : List (String × Val)) (es : List Ev), RestoredFs dc.ext fs r path kvs kvs' bs es → EnvOKf c.env fs →
    Reg.isSched r = false → At c path r → (∀ f ∈ fs, IdOK f.name) → (∀ f ∈ fs, f.name ≠ NAME_KEY) →
    ∃ as, asdictD c path kvs = .ok (as, bs) ∧ dkeys as = fs.map Fld.name ∧ dkeys kvs' = fs.map Fld.name ∧
      ∀ fs0 : List Fld, (fs0.map Fld.name).Nodup → (∀ f ∈ fs, f ∈ fs0) → ∀ ig,
        itemsLoop (fun k x => fdField dc fs0 k (fieldPath path k) x) ig (ronTripD as) = .ok (kvs', es)
  | [], r, path, kvs, kvs', bs, es, h, _, _, _, _, _ => by
    simp only [RestoredFs] at h
    obtain ⟨rfl, rfl, rfl, rfl⟩ := h
    exact ⟨[], by simp [asdictD], rfl, rfl, fun _ _ _ _ => by simp [ronTripD, itemsLoop]⟩
  | .mk n t d :: fs, r, path, kvs, kvs', bs, es, h, he, hr, hat, hid, hnk => by
    simp only [RestoredFs, RestoredF] at h
    obtain ⟨v, v', bs1, es1, rest, rest', bs2, es2, h1, h2, rfl, rfl, rfl, rfl⟩ := h
    simp only [EnvOKf, EnvOKf1] at he
    obtain ⟨w, hw⟩ := rtS hc hf t _ _ v v' bs1 es1 h1 he.1 (hat.child hr (hid (.mk n t d) (by simp)))
    obtain ⟨as, has, hka, hkk, hl⟩ := rtSf hc hf fs r path rest rest' bs2 es2 h2 he.2 hr hat
      (fun f h => hid f (List.mem_cons_of_mem _ h)) (fun f h => hnk f (List.mem_cons_of_mem _ h))
    refine ⟨(n, w) :: as, ?_, ?_, ?_, ?_⟩
    · simp [asdictD, asdictP, Fld.name, hw.dump, has, bind, Except.bind, pure, Except.pure]
    · simp only [dkeys, List.map_cons, Fld.name]; congr 1
    · simp only [dkeys, List.map_cons, Fld.name]; congr 1
    · intro fs0 hn0 hsub ig
      have hne : n ≠ NAME_KEY := hnk (.mk n t d) (by simp)
      have ihh := hl fs0 hn0 (fun f h => hsub f (List.mem_cons_of_mem _ h)) ig
      simp only [ronTripD, ronTripP, itemsLoop]
      rw [if_neg hne, if_neg (by simpa using hw.weak), fdField_mem dc n _ _ fs0 (.mk n t d) hn0 (hsub _ (by simp)) rfl]
      have := hw.load false
      rw [joinPath_eq_fieldPath] at this
      simp only [Fld.ty, this, ihh, bind, Except.bind, pure, Except.pure, Fld.name]
end

end HS
