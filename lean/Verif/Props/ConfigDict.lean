import Verif.Spec.ConfigDict
import Verif.Proofs.Manager
import Verif.Proofs.Firm
/-!
# C60: `config_dict`
-/
namespace HS

theorem configDictCfg_write (env : String → ClsInfo) : WriteCfg (configDictCfg env) := ⟨rfl, fun _ => rfl⟩

/-- serializers without schedules and blobs leave every value to `asdict` -/
theorem configDict_hooks (env : String → ClsInfo) (file : String) (v : Val) : serHooks (configDictCfg env) file v = .ok (v, []) := by
  simp [serHooks, configDictCfg, schedFind, bind, Except.bind, pure, Except.pure]

theorem foldl_dset_fresh {α : Type} : ∀ (as pre : List (String × α)), (dkeys as).Nodup → (∀ k ∈ dkeys as, k ∉ dkeys pre) →
    as.foldl (fun a kv => dset a kv.1 kv.2) pre = pre ++ as := by
  intro as
  induction as with
  | nil => intro pre _ _; simp
  | cons a as ih =>
    obtain ⟨k, v⟩ := a
    intro pre hnd hfr
    simp only [dkeys, List.map_cons, List.nodup_cons] at hnd
    have hk : k ∉ dkeys pre := hfr k (by simp [dkeys])
    have hset : dset pre k v = pre ++ [(k, v)] := by
      clear ih hnd hfr
      induction pre with
      | nil => rfl
      | cons b pre ih =>
        obtain ⟨k', v'⟩ := b
        simp only [dkeys, List.map_cons, List.mem_cons, not_or] at hk
        simp only [dset, List.cons_append]
        rw [if_neg (fun h => hk.1 h.symm), ih hk.2]
    simp only [List.foldl_cons, hset]
    rw [ih _ hnd.2]
    · simp
    · intro k' hk' hm
      simp only [dkeys, List.map_append, List.map_cons, List.map_nil, List.mem_append, List.mem_singleton] at hm
      rcases hm with hm | rfl
      · exact hfr k' (by simp only [dkeys, List.map_cons, List.mem_cons]; exact .inr hk') hm
      · exact hnd.1 hk'

theorem mirrorD_keys {ver : String → Option Int} : ∀ {kvs d : List (String × Val)}, MirrorD ver kvs d → dkeys d = dkeys kvs := by
  intro kvs
  induction kvs with
  | nil => intro d h; simp only [MirrorD] at h; subst h; rfl
  | cons a kvs ih =>
    obtain ⟨k, v⟩ := a
    intro d h
    simp only [MirrorD, MirrorP] at h
    obtain ⟨z, zs, rfl, ⟨h1, _⟩, h2⟩ := h
    have := ih h2
    simp only [dkeys, List.map_cons] at this ⊢
    rw [this, h1]

mutual
theorem asdict_mirror (env : String → ClsInfo) : ∀ (v w : Val) (file : String), Tidy (fun c => (env c).version) v →
    ((∃ bs, asdict (configDictCfg env) file v = .ok (w, bs)) ↔ Mirror (fun c => (env c).version) v w)
  | .inst c kvs, w, file, hc => by
    simp only [Tidy] at hc
    have ih := asdictD_mirror env kvs
    simp only [asdict, configDict_hooks, bind, Except.bind, pure, Except.pure, Mirror]
    have hpack : ∀ d, MirrorD (fun c => (env c).version) kvs d →
        packAttrs (configDictCfg env) c d =
          .ok (.dict ((match (env c).version with | some n => [("version", .int n)] | .none => []) ++ d)) := by
      intro d hd
      have hk := mirrorD_keys hd
      simp only [packAttrs, modifyAttrs, configDictCfg, Bool.false_eq_true, if_false]
      cases hv : (env c).version with
      | none => simp
      | some n =>
        have hver : "version" ∉ dkeys kvs := hc.2.1 (by simp [hv])
        dsimp only
        rw [foldl_dset_fresh d _ (by rw [hk]; exact hc.1) (by
          intro k hk' hm
          simp only [dkeys, List.map_cons, List.map_nil, List.mem_singleton] at hm
          exact hver (by rw [hm, hk] at hk'; exact hk'))]
    constructor
    · rintro ⟨bs, h⟩
      cases hd : asdictD (configDictCfg env) file kvs with
      | error e => rw [hd] at h; exact (nomatch h)
      | ok q =>
        rw [hd] at h
        dsimp only at h
        have hm := (ih q.1 file hc.2.2).1 ⟨q.2, hd⟩
        rw [hpack _ hm] at h
        simp only [Except.ok.injEq, Prod.mk.injEq] at h
        exact ⟨q.1, hm, h.1.symm⟩
    · rintro ⟨d, hm, rfl⟩
      obtain ⟨bs, hd⟩ := (ih d file hc.2.2).2 hm
      rw [hd]
      dsimp only
      rw [hpack _ hm]
      exact ⟨_, rfl⟩
  | .dict kvs, w, file, hc => by
    simp only [Tidy] at hc
    have ih := asdictD_mirror env kvs
    simp only [asdict, configDict_hooks, bind, Except.bind, pure, Except.pure, Mirror]
    constructor
    · rintro ⟨bs, h⟩
      cases hd : asdictD (configDictCfg env) file kvs with
      | error e => rw [hd] at h; exact (nomatch h)
      | ok q =>
        rw [hd] at h
        simp only [Except.ok.injEq, Prod.mk.injEq] at h
        exact ⟨q.1, (ih q.1 file hc).1 ⟨q.2, hd⟩, h.1.symm⟩
    · rintro ⟨d, hm, rfl⟩
      obtain ⟨bs, hd⟩ := (ih d file hc).2 hm
      rw [hd]
      exact ⟨_, rfl⟩
  | .list xs, w, file, hc => by
    simp only [Tidy] at hc
    have ih := asdictL_mirror env xs
    simp only [asdict, configDict_hooks, bind, Except.bind, pure, Except.pure, Mirror]
    constructor
    · rintro ⟨bs, h⟩
      cases hd : asdictL (configDictCfg env) file 0 xs with
      | error e => rw [hd] at h; exact (nomatch h)
      | ok q =>
        rw [hd] at h
        simp only [Except.ok.injEq, Prod.mk.injEq] at h
        exact ⟨q.1, (ih q.1 file 0 hc).1 ⟨q.2, hd⟩, h.1.symm⟩
    · rintro ⟨d, hm, rfl⟩
      obtain ⟨bs, hd⟩ := (ih d file 0 hc).2 hm
      rw [hd]
      exact ⟨_, rfl⟩
  | .tup xs, w, file, hc => by
    simp only [Tidy] at hc
    have ih := asdictL_mirror env xs
    simp only [asdict, configDict_hooks, bind, Except.bind, pure, Except.pure, Mirror]
    constructor
    · rintro ⟨bs, h⟩
      cases hd : asdictL (configDictCfg env) file 0 xs with
      | error e => rw [hd] at h; exact (nomatch h)
      | ok q =>
        rw [hd] at h
        simp only [Except.ok.injEq, Prod.mk.injEq] at h
        exact ⟨q.1, (ih q.1 file 0 hc).1 ⟨q.2, hd⟩, h.1.symm⟩
    · rintro ⟨d, hm, rfl⟩
      obtain ⟨bs, hd⟩ := (ih d file 0 hc).2 hm
      rw [hd]
      exact ⟨_, rfl⟩
  | .ntup n kvs, w, file, hc => by
    simp only [Tidy] at hc
    have ih := asdictV_mirror env kvs
    simp only [asdict, configDict_hooks, bind, Except.bind, pure, Except.pure, Mirror]
    constructor
    · rintro ⟨bs, h⟩
      cases hd : asdictV (configDictCfg env) file 0 kvs with
      | error e => rw [hd] at h; exact (nomatch h)
      | ok q =>
        rw [hd] at h
        simp only [Except.ok.injEq, Prod.mk.injEq] at h
        obtain ⟨d, h1, h2⟩ := (ih q.1 file 0 hc).1 ⟨q.2, hd⟩
        exact ⟨d, h1, by rw [← h2]; exact h.1.symm⟩
    · rintro ⟨d, hm, rfl⟩
      obtain ⟨bs, hd⟩ := (ih _ file 0 hc).2 ⟨d, hm, rfl⟩
      rw [hd]
      exact ⟨_, rfl⟩
  | .enm c n x, w, file, _ => by
    simp only [asdict, configDict_hooks, bind, Except.bind, pure, Except.pure, Mirror, Except.ok.injEq, Prod.mk.injEq]
    exact ⟨fun ⟨_, h, _⟩ => h.symm, fun h => ⟨[], h.symm, rfl⟩⟩
  | .ser c n, w, file, _ => by
    simp only [asdict, configDict_hooks, bind, Except.bind, Mirror, iff_false]
    rintro ⟨bs, h⟩
    exact (nomatch h)
  | .none, w, file, _ | .bool b, w, file, _ | .int i, w, file, _ | .flt f, w, file, _ | .str s, w, file, _ => by
    simp only [asdict, configDict_hooks, bind, Except.bind, pure, Except.pure, Mirror, Except.ok.injEq, Prod.mk.injEq]
    exact ⟨fun ⟨_, h, _⟩ => h.symm, fun h => ⟨[], h.symm, rfl⟩⟩
theorem asdictD_mirror (env : String → ClsInfo) : ∀ (kvs d : List (String × Val)) (file : String), TidyD (fun c => (env c).version) kvs →
    ((∃ bs, asdictD (configDictCfg env) file kvs = .ok (d, bs)) ↔ MirrorD (fun c => (env c).version) kvs d)
  | [], d, file, _ => by
    simp only [asdictD, MirrorD, Except.ok.injEq, Prod.mk.injEq]
    exact ⟨fun ⟨_, h, _⟩ => h.symm, fun h => ⟨[], h.symm, rfl⟩⟩
  | kv :: kvs, d, file, hc => by
    simp only [TidyD] at hc
    have ih1 := asdictP_mirror env kv
    have ih2 := asdictD_mirror env kvs
    simp only [asdictD, bind, Except.bind, pure, Except.pure, MirrorD]
    constructor
    · rintro ⟨bs, h⟩
      cases h1 : asdictP (configDictCfg env) file kv with
      | error e => rw [h1] at h; exact (nomatch h)
      | ok q1 =>
        rw [h1] at h
        dsimp only at h
        cases h2 : asdictD (configDictCfg env) file kvs with
        | error e => rw [h2] at h; exact (nomatch h)
        | ok q2 =>
          rw [h2] at h
          simp only [Except.ok.injEq, Prod.mk.injEq] at h
          exact ⟨q1.1, q2.1, h.1.symm, (ih1 q1.1 file hc.1).1 ⟨q1.2, h1⟩, (ih2 q2.1 file hc.2).1 ⟨q2.2, h2⟩⟩
    · rintro ⟨z, zs, rfl, m1, m2⟩
      obtain ⟨b1, h1⟩ := (ih1 z file hc.1).2 m1
      obtain ⟨b2, h2⟩ := (ih2 zs file hc.2).2 m2
      rw [h1]; dsimp only; rw [h2]
      exact ⟨_, rfl⟩
theorem asdictP_mirror (env : String → ClsInfo) : ∀ (kv d : String × Val) (file : String), TidyP (fun c => (env c).version) kv →
    ((∃ bs, asdictP (configDictCfg env) file kv = .ok (d, bs)) ↔ MirrorP (fun c => (env c).version) kv d)
  | (k, v), d, file, hc => by
    simp only [TidyP] at hc
    have ih := asdict_mirror env v
    obtain ⟨k', w⟩ := d
    simp only [asdictP, bind, Except.bind, pure, Except.pure, MirrorP]
    constructor
    · rintro ⟨bs, h⟩
      cases h1 : asdict (configDictCfg env) (joinPath file k) v with
      | error e => rw [h1] at h; exact (nomatch h)
      | ok q1 =>
        rw [h1] at h
        simp only [Except.ok.injEq, Prod.mk.injEq] at h
        obtain ⟨⟨rfl, rfl⟩, _⟩ := h
        exact ⟨rfl, (ih q1.1 _ hc).1 ⟨q1.2, h1⟩⟩
    · rintro ⟨rfl, m1⟩
      obtain ⟨b1, h1⟩ := (ih w (joinPath file k') hc).2 m1
      rw [h1]
      exact ⟨_, rfl⟩
theorem asdictL_mirror (env : String → ClsInfo) : ∀ (xs ys : List Val) (file : String) (i : Nat), TidyL (fun c => (env c).version) xs →
    ((∃ bs, asdictL (configDictCfg env) file i xs = .ok (ys, bs)) ↔ MirrorL (fun c => (env c).version) xs ys)
  | [], ys, file, _, _ => by
    simp only [asdictL, MirrorL, Except.ok.injEq, Prod.mk.injEq]
    exact ⟨fun ⟨_, h, _⟩ => h.symm, fun h => ⟨[], h.symm, rfl⟩⟩
  | x :: xs, ys, file, i, hc => by
    simp only [TidyL] at hc
    have ih1 := asdict_mirror env x
    have ih2 := asdictL_mirror env xs
    simp only [asdictL, bind, Except.bind, pure, Except.pure, MirrorL]
    constructor
    · rintro ⟨bs, h⟩
      cases h1 : asdict (configDictCfg env) (joinPath file i.repr) x with
      | error e => rw [h1] at h; exact (nomatch h)
      | ok q1 =>
        rw [h1] at h
        dsimp only at h
        cases h2 : asdictL (configDictCfg env) file (i + 1) xs with
        | error e => rw [h2] at h; exact (nomatch h)
        | ok q2 =>
          rw [h2] at h
          simp only [Except.ok.injEq, Prod.mk.injEq] at h
          exact ⟨q1.1, q2.1, h.1.symm, (ih1 q1.1 _ hc.1).1 ⟨q1.2, h1⟩, (ih2 q2.1 file _ hc.2).1 ⟨q2.2, h2⟩⟩
    · rintro ⟨z, zs, rfl, m1, m2⟩
      obtain ⟨b1, h1⟩ := (ih1 z (joinPath file i.repr) hc.1).2 m1
      obtain ⟨b2, h2⟩ := (ih2 zs file (i + 1) hc.2).2 m2
      rw [h1]; dsimp only; rw [h2]
      exact ⟨_, rfl⟩
theorem asdictV_mirror (env : String → ClsInfo) : ∀ (kvs : List (String × Val)) (ys : List Val) (file : String) (i : Nat),
    TidyD (fun c => (env c).version) kvs →
    ((∃ bs, asdictV (configDictCfg env) file i kvs = .ok (ys, bs)) ↔
      ∃ d, MirrorD (fun c => (env c).version) kvs d ∧ ys = d.map Prod.snd)
  | [], ys, file, _, _ => by
    simp only [asdictV, MirrorD, Except.ok.injEq, Prod.mk.injEq]
    exact ⟨fun ⟨_, h, _⟩ => ⟨[], rfl, h.symm⟩, fun ⟨d, h, h'⟩ => ⟨[], by rw [h', h]; rfl, rfl⟩⟩
  | kv :: kvs, ys, file, i, hc => by
    simp only [TidyD] at hc
    have ih1 := asdictE_mirror env kv
    have ih2 := asdictV_mirror env kvs
    simp only [asdictV, bind, Except.bind, pure, Except.pure, MirrorD]
    constructor
    · rintro ⟨bs, h⟩
      cases h1 : asdictE (configDictCfg env) file i kv with
      | error e => rw [h1] at h; exact (nomatch h)
      | ok q1 =>
        rw [h1] at h
        dsimp only at h
        cases h2 : asdictV (configDictCfg env) file (i + 1) kvs with
        | error e => rw [h2] at h; exact (nomatch h)
        | ok q2 =>
          rw [h2] at h
          simp only [Except.ok.injEq, Prod.mk.injEq] at h
          obtain ⟨z, m1, e1⟩ := (ih1 q1.1 file i hc.1).1 ⟨q1.2, h1⟩
          obtain ⟨zs, m2, e2⟩ := (ih2 q2.1 file _ hc.2).1 ⟨q2.2, h2⟩
          exact ⟨z :: zs, ⟨z, zs, rfl, m1, m2⟩, by rw [← h.1, e1, e2]; rfl⟩
    · rintro ⟨d, ⟨z, zs, rfl, m1, m2⟩, rfl⟩
      obtain ⟨b1, h1⟩ := (ih1 z.2 file i hc.1).2 ⟨z, m1, rfl⟩
      obtain ⟨b2, h2⟩ := (ih2 (zs.map Prod.snd) file (i + 1) hc.2).2 ⟨zs, m2, rfl⟩
      rw [h1]; dsimp only; rw [h2]
      exact ⟨_, rfl⟩
theorem asdictE_mirror (env : String → ClsInfo) : ∀ (kv : String × Val) (y : Val) (file : String) (i : Nat),
    TidyP (fun c => (env c).version) kv →
    ((∃ bs, asdictE (configDictCfg env) file i kv = .ok (y, bs)) ↔ ∃ z, MirrorP (fun c => (env c).version) kv z ∧ y = z.2)
  | (k, v), y, file, i, hc => by
    simp only [TidyP] at hc
    have ih := asdict_mirror env v y (joinPath file i.repr) hc
    simp only [asdictE, MirrorP]
    rw [ih]
    exact ⟨fun h => ⟨(k, y), ⟨rfl, h⟩, rfl⟩, fun ⟨z, h, e⟩ => e ▸ h.2⟩
end

mutual
theorem tidy_typed (e : Ext) (env : String → ClsInfo) : ∀ (t : PyTy) (v : Val), TyOK e t → EnvOK env t → HasType true t v →
    Tidy (fun c => (env c).version) v
  | .int, v, _, _, h => by
    simp only [HasType] at h
    rcases h with ⟨_, rfl⟩ | ⟨_, rfl⟩ <;> simp [Tidy]
  | .float, v, _, _, h => by simp only [HasType] at h; obtain ⟨_, rfl⟩ := h; simp [Tidy]
  | .str, v, _, _, h => by simp only [HasType] at h; obtain ⟨_, rfl⟩ := h; simp [Tidy]
  | .bool, v, _, _, h => by simp only [HasType] at h; obtain ⟨_, rfl⟩ := h; simp [Tidy]
  | .noneT, v, _, _, h => by simp only [HasType] at h; subst h; simp [Tidy]
  | .enum _ _, v, _, _, h => by simp only [HasType] at h; obtain ⟨_, _, _, rfl⟩ := h; simp [Tidy]
  | .blob _, v, ht, _, _ => by simp [TyOK] at ht
  | .literal vs, v, ht, _, h => by
    simp only [HasType, true_and] at h
    simp only [TyOK] at ht
    have : LitOK v ∨ ∃ f, v = .flt f := by
      rcases h with h | ⟨w, hw, he⟩
      · exact .inl (ht v h).2
      · exact pyEq_lit v w (ht w hw).2 he
    rcases this with h | ⟨f, rfl⟩
    · cases v <;> simp [LitOK] at h <;> simp [Tidy]
    · simp [Tidy]
  | .list a, v, ht, he, h => by
    simp only [HasType] at h
    obtain ⟨xs, rfl, hx⟩ := h
    simp only [TyOK] at ht
    simp only [EnvOK] at he
    simp only [Tidy]
    have := fun x hm => tidy_typed e env a x ht he (hx x hm)
    clear hx
    induction xs with
    | nil => simp [TidyL]
    | cons x xs ih =>
      simp only [TidyL]
      exact ⟨this x (by simp), ih fun y hy => this y (List.mem_cons_of_mem _ hy)⟩
  | .tuple as, v, ht, he, h => by
    simp only [HasType] at h
    obtain ⟨xs, rfl, hx⟩ := h
    simp only [TyOK] at ht
    simp only [EnvOK] at he
    simp only [Tidy]
    exact tidy_typeds e env as xs ht he hx
  | .dict k b, v, ht, he, h => by
    simp only [HasType] at h
    obtain ⟨kvs, rfl, hq, hx⟩ := h
    simp only [TyOK] at ht
    simp only [EnvOK] at he
    simp only [Tidy]
    have := fun kv hm => tidy_typed e env b kv.2 ht.2 he (hx kv hm)
    clear hx hq
    induction kvs with
    | nil => simp [TidyD]
    | cons kv kvs ih =>
      obtain ⟨k', x⟩ := kv
      simp only [TidyD, TidyP]
      exact ⟨this (k', x) (by simp), ih (fun y hy => this y (List.mem_cons_of_mem _ hy))⟩
  | .union as, v, ht, he, h => by
    simp only [HasType] at h
    simp only [TyOK] at ht
    simp only [EnvOK] at he
    exact tidy_typedAny e env as v ht.1 he h
  | .data n fs ver, v, ht, he, h => by
    simp only [HasType] at h
    obtain ⟨kvs, rfl, hx⟩ := h
    simp only [TyOK] at ht
    simp only [EnvOK] at he
    obtain ⟨hk, hc⟩ := tidy_typedf e env fs kvs ht.2.2.2.2 he.2 hx
    simp only [Tidy, hk]
    refine ⟨ht.1, ?_, hc⟩
    intro hv hm
    obtain ⟨f, hf, hfn⟩ := List.mem_map.1 hm
    refine ht.2.2.1 ?_ f hf hfn
    rw [he.1] at hv
    simpa using hv
theorem tidy_typeds (e : Ext) (env : String → ClsInfo) : ∀ (ts : List PyTy) (xs : List Val), TyOKs e ts → EnvOKs env ts →
    HasTypes true ts xs → TidyL (fun c => (env c).version) xs
  | [], xs, _, _, h => by simp only [HasTypes] at h; subst h; simp [TidyL]
  | t :: ts, xs, ht, he, h => by
    simp only [HasTypes] at h
    simp only [TyOKs] at ht
    simp only [EnvOKs] at he
    rcases h with ⟨_, rfl⟩ | ⟨y, ys, rfl, h1, h2⟩
    · simp [TidyL]
    · simp only [TidyL]
      exact ⟨tidy_typed e env t y ht.1 he.1 h1, tidy_typeds e env ts ys ht.2 he.2 h2⟩
theorem tidy_typedAny (e : Ext) (env : String → ClsInfo) : ∀ (ts : List PyTy) (v : Val), TyOKs e ts → EnvOKs env ts →
    HasTypeAny true ts v → Tidy (fun c => (env c).version) v
  | [], _, _, _, h => by simp [HasTypeAny] at h
  | t :: ts, v, ht, he, h => by
    simp only [HasTypeAny] at h
    simp only [TyOKs] at ht
    simp only [EnvOKs] at he
    rcases h with h | h
    · exact tidy_typed e env t v ht.1 he.1 h
    · exact tidy_typedAny e env ts v ht.2 he.2 h
theorem tidy_typedf (e : Ext) (env : String → ClsInfo) : ∀ (fs : List Fld) (kvs : List (String × Val)), FldsOK e fs →
    EnvOKf env fs → HasFields true fs kvs → dkeys kvs = fs.map Fld.name ∧ TidyD (fun c => (env c).version) kvs
  | [], kvs, _, _, h => by simp only [HasFields] at h; subst h; simp [TidyD, dkeys]
  | .mk n t d :: fs, kvs, ht, he, h => by
    simp only [HasFields, HasField] at h
    simp only [FldsOK, FldOK] at ht
    simp only [EnvOKf, EnvOKf1] at he
    obtain ⟨⟨k, x⟩, rest, rfl, ⟨h1, h2⟩, h3⟩ := h
    have i1 := tidy_typed e env t x ht.1 he.1 h2
    have i2 := tidy_typedf e env fs rest ht.2 he.2 h3
    simp only [dkeys, List.map_cons, Fld.name, TidyD, TidyP] at i2 ⊢
    dsimp only at h1
    exact ⟨by rw [i2.1, h1], i1, i2.2⟩
end

/-- C60: `config_dict()` returns exactly the nested dictionary for the config that `manager.config` returns (which is read
from the files if this was not done before): a dict per object with the version of its class first and its fields in order, and
the names of enum members; it fails only when the config can't be read or holds a Serializable, and changes nothing else. -/
theorem C60_exact (E : MgrEnv) (m m' : Mgr) (d : Val)
    (hc : ∀ c m1, m.readConfig E = .ok (c, m1) → Tidy (fun n => (E.w.env n).version) c) :
    m.configDict E = .ok (d, m') ↔ ∃ c, m.readConfig E = .ok (c, m') ∧ Mirror (fun n => (E.w.env n).version) c d := by
  constructor
  · intro h
    obtain ⟨c, h1, h2⟩ := configDict_inv h
    exact ⟨c, h1, (asdict_mirror E.w.env c d "" (hc c m' h1)).1 h2⟩
  · rintro ⟨c, h1, h2⟩
    obtain ⟨bs, h3⟩ := (asdict_mirror E.w.env c d "" (hc c m' h1)).2 h2
    simp only [Mgr.configDict, h1, h3, bind, Except.bind, pure, Except.pure]

mutual
theorem mirror_basic {ver : String → Option Int} : ∀ (v w : Val), Mirror ver v w → Basic w
  | .inst c kvs, w, h => by
    simp only [Mirror] at h
    obtain ⟨d, hd, rfl⟩ := h
    have := mirrorD_basic kvs d hd
    cases ver c <;> simp [Basic, BasicD, BasicP, this]
  | .dict kvs, w, h => by
    simp only [Mirror] at h
    obtain ⟨d, hd, rfl⟩ := h
    simpa only [Basic] using mirrorD_basic kvs d hd
  | .list xs, w, h => by
    simp only [Mirror] at h
    obtain ⟨d, hd, rfl⟩ := h
    simpa only [Basic] using mirrorL_basic xs d hd
  | .tup xs, w, h => by
    simp only [Mirror] at h
    obtain ⟨d, hd, rfl⟩ := h
    simpa only [Basic] using mirrorL_basic xs d hd
  | .ntup _ kvs, w, h => by
    simp only [Mirror] at h
    obtain ⟨d, hd, rfl⟩ := h
    have := mirrorD_basic kvs d hd
    simp only [Basic]
    clear hd
    induction d with
    | nil => simp [BasicL]
    | cons z d ih =>
      obtain ⟨k, z⟩ := z
      simp only [BasicD, BasicP] at this
      simp only [List.map_cons, BasicL]
      exact ⟨this.1, ih this.2⟩
  | .enm _ n _, w, h => by simp only [Mirror] at h; subst h; simp [Basic]
  | .ser _ _, _, h => by simp [Mirror] at h
  | .none, w, h | .bool _, w, h | .int _, w, h | .flt _, w, h | .str _, w, h => by
    simp only [Mirror] at h; subst h; simp [Basic]
theorem mirrorD_basic {ver : String → Option Int} : ∀ (kvs d : List (String × Val)), MirrorD ver kvs d → BasicD d
  | [], d, h => by simp only [MirrorD] at h; subst h; simp [BasicD]
  | kv :: kvs, d, h => by
    simp only [MirrorD] at h
    obtain ⟨z, zs, rfl, h1, h2⟩ := h
    simp only [BasicD]
    exact ⟨mirrorP_basic kv z h1, mirrorD_basic kvs zs h2⟩
theorem mirrorP_basic {ver : String → Option Int} : ∀ (kv z : String × Val), MirrorP ver kv z → BasicP z
  | (k, v), (k', w), h => by simp only [MirrorP] at h; simp only [BasicP]; exact mirror_basic v w h.2
theorem mirrorL_basic {ver : String → Option Int} : ∀ (xs d : List Val), MirrorL ver xs d → BasicL d
  | [], d, h => by simp only [MirrorL] at h; subst h; simp [BasicL]
  | x :: xs, d, h => by
    simp only [MirrorL] at h
    obtain ⟨z, zs, rfl, h1, h2⟩ := h
    simp only [BasicL]
    exact ⟨mirror_basic x z h1, mirrorL_basic xs zs h2⟩
end

mutual
theorem ronTrip_basic : ∀ v : Val, Basic v → ronTrip v = v
  | .list xs, h => by simp only [Basic] at h; simp only [ronTrip, ronTripL_basic xs h]
  | .tup xs, h => by simp only [Basic] at h; simp only [ronTrip, ronTripL_basic xs h]
  | .dict d, h => by simp only [Basic] at h; simp only [ronTrip, ronTripD_basic d h]
  | .ntup _ _, h => by simp [Basic] at h
  | .inst _ _, _ | .enm _ _ _, _ | .ser _ _, _ | .none, _ | .bool _, _ | .int _, _ | .flt _, _ | .str _, _ => by simp [ronTrip]
theorem ronTripL_basic : ∀ v : List Val, BasicL v → ronTripL v = v
  | [], _ => rfl
  | x :: xs, h => by simp only [BasicL] at h; simp only [ronTripL, ronTrip_basic x h.1, ronTripL_basic xs h.2]
theorem ronTripD_basic : ∀ v : List (String × Val), BasicD v → ronTripD v = v
  | [], _ => rfl
  | x :: xs, h => by simp only [BasicD] at h; simp only [ronTripD, ronTripP_basic x h.1, ronTripD_basic xs h.2]
theorem ronTripP_basic : ∀ v : String × Val, BasicP v → ronTripP v = v
  | (k, v), h => by simp only [BasicP] at h; simp only [ronTripP, ronTrip_basic v h]
end

/-- C60: what `config_dict()` returns consists of dicts, lists, tuples, numbers, strings, booleans and None. -/
theorem C60_raw (E : MgrEnv) (m m' : Mgr) (d : Val)
    (hc : ∀ c m1, m.readConfig E = .ok (c, m1) → Tidy (fun n => (E.w.env n).version) c)
    (h : m.configDict E = .ok (d, m')) : Basic d := by
  obtain ⟨c, _, h2⟩ := (C60_exact E m m' d hc).1 h
  exact mirror_basic c d h2

/-- C60 (partial): `from_dict(config class, config_dict())` gives back the config, for every config that a load can return.
Missing: classes with unions of dataclasses, since `config_dict` does not write the names of classes (`C60_tagged_false`). -/
theorem C60_loads_partial (E : MgrEnv) (m m1 : Mgr) (c : Val) (h : m.readConfig E = .ok (c, m1))
    (hty : TyOK E.w.ext E.cfgTy) (henv : EnvOK E.w.env E.cfgTy) (hu : Untagged E.cfgTy) (hv : Storable E.cfgTy c) :
    ∃ d, m.configDict E = .ok (d, m1) ∧
      ∀ am file ig path, fromDict (E.w.dcfg am file) E.cfgTy ig path d = .ok (c, []) := by
  have hrt := fun am file => rtG (c := configDictCfg E.w.env) (dc := E.w.dcfg am file) (configDictCfg_write E.w.env) rfl E.cfgTy hty
    henv (Or.inr hu) c "" hv.1 hv.2.1
  obtain ⟨d, hd⟩ := hrt false false
  have hcl := tidy_typed E.w.ext E.w.env E.cfgTy c hty henv hv.1
  have hraw : Basic d := mirror_basic c d ((asdict_mirror E.w.env c d "" hcl).1 ⟨[], hd.dump⟩)
  refine ⟨d, by simp only [Mgr.configDict, h, hd.dump, bind, Except.bind, pure, Except.pure], ?_⟩
  intro am file ig path
  obtain ⟨d', hd'⟩ := hrt am file
  have he := hd.dump
  rw [hd'.dump] at he
  simp only [Except.ok.injEq, Prod.mk.injEq, and_true] at he
  subst he
  have := hd'.load ig path
  rwa [ronTrip_basic d' hraw] at this

/-! ## cases -/

namespace ExD
def opt : PyTy := .data "Opt" [.mk "kind" (.enum "Kind" [("adam", .str "adam"), ("sgd", .str "sgd")]) .none] .none
/-- a versioned class with a nested dataclass and an enum -/
def ty : PyTy := .data "C" [.mk "opt" opt .none, .mk "dims" (.tuple [.int, .int]) .none] (some ⟨3, []⟩)
def w : World := { Ex.world with
  env := fun c => if c = "C" then ⟨some 3, [("opt", .none), ("dims", .none)]⟩ else ⟨.none, [("kind", .none)]⟩ }
def E : MgrEnv :=
  { w := w, cfgTy := ty, stTy := ty, overrides := [], ignoreExtra := false, key := "step", ckpt := false
    init := .file (.dict [("version", .int 3), ("opt", .dict [("kind", .str "sgd")]), ("dims", .tup [.int 1])])
    initial := fun _ => .error .valueError, sv := fun _ _ => .error .valueError, stLazy := true, pickleOk := false
    deps := fun _ => [], deser := fun c y _ => .ok (.ser c y), depth := 100 }
/-- the tuple in the file is too short, which a load accepts (C10) -/
def cfg : Val := .inst "C" [("opt", .inst "Opt" [("kind", .enm "Kind" "sgd" (.str "sgd"))]), ("dims", .tup [.int 1])]
def dict : Val := .dict [("version", .int 3), ("opt", .dict [("kind", .str "sgd")]), ("dims", .tup [.int 1])]
end ExD

/-- The hypotheses of the C60 theorems are met by a manager that has not read its config yet. -/
example : (∃ m1, (Mgr.new ExD.E []).readConfig ExD.E = .ok (ExD.cfg, m1) ∧ (Mgr.new ExD.E []).configDict ExD.E = .ok (ExD.dict, m1)) ∧
    TyOK ExD.E.w.ext ExD.ty ∧ EnvOK ExD.E.w.env ExD.ty ∧ Untagged ExD.ty ∧ Storable ExD.ty ExD.cfg := by
  refine ⟨⟨_, rfl, rfl⟩, ?_, ?_, ?_, ?_⟩
  · simp only [ExD.ty, ExD.opt, TyOK, TyOKs, FldsOK, FldOK, VerOK]
    refine ⟨by decide, ?_, ?_, ?_, ⟨by decide, ?_, by simp, by simp, ⟨by decide, ?_⟩, trivial⟩, by simp⟩
    · intro f hf; simp only [List.mem_cons, List.not_mem_nil, or_false] at hf
      rcases hf with rfl | rfl <;> simp [NameOK, Fld.name, NAME_KEY, WEAK_REF, List.isPrefixOf]
    · intro _ f hf; simp only [List.mem_cons, List.not_mem_nil, or_false] at hf
      rcases hf with rfl | rfl <;> simp [Fld.name]
    · intro vi h e he; cases h; simp at he
    · simp [NameOK, Fld.name, NAME_KEY, WEAK_REF, List.isPrefixOf]
    · simp
  · simp [ExD.ty, ExD.opt, ExD.E, ExD.w, EnvOK, EnvOKf, EnvOKf1, EnvOKs, Fld.name, Fld.dflt]
  · simp [ExD.ty, ExD.opt, Untagged, Untaggedf, Untaggedf1, Untaggeds]
  · simp [ExD.ty, ExD.opt, ExD.cfg, Storable, HasType, HasTypes, HasFields, HasField, Firm, FirmL, FirmD, FirmP, Val.isWeak]
    exact ⟨_, _, _, ⟨⟨rfl, rfl⟩, rfl⟩, ⟨rfl, _, rfl, _, _, rfl, rfl, _, _, .inr ⟨rfl, rfl⟩, rfl⟩, _, _, rfl, rfl, _, rfl,
      .inr ⟨_, _, rfl, .inl ⟨_, rfl⟩, .inl rfl⟩⟩

/-- C60 is false of the code for a config with a field of type `Union[A, B]`, both dataclasses: the dictionary does not tell
which one it is, and can't be loaded. -/
theorem C60_tagged_false : ∃ (E : MgrEnv) (m m1 : Mgr) (c d : Val) (err : Err), TyOK E.w.ext E.cfgTy ∧ EnvOK E.w.env E.cfgTy ∧
    m.readConfig E = .ok (c, m1) ∧ HasType false E.cfgTy c ∧ m.configDict E = .ok (d, m1) ∧
    ∀ am file ig path, fromDict (E.w.dcfg am file) E.cfgTy ig path d = .error err := by
  let a : PyTy := .data "A" [.mk "x" .int .none] .none
  let b : PyTy := .data "B" [.mk "x" .int .none] .none
  let ty : PyTy := .data "C" [.mk "u" (.union [a, b]) .none] .none
  let w : World := { Ex.world with env := fun c => if c = "C" then ⟨.none, [("u", .none)]⟩ else ⟨.none, [("x", .none)]⟩ }
  let E : MgrEnv := { ExD.E with w := w, cfgTy := ty, init := .file (.dict [("u", .dict [("!__name__", .str "B"), ("x", .int 1)])]) }
  refine ⟨E, Mgr.new E [], _, .inst "C" [("u", .inst "B" [("x", .int 1)])], .dict [("u", .dict [("x", .int 1)])], _, ?_, ?_, rfl, ?_, rfl,
    fun am file ig path => rfl⟩
  · simp [E, ty, a, b, TyOK, TyOKs, FldsOK, FldOK, VerOK, isData, PyTy.pyName, NameOK, Fld.name, NAME_KEY, WEAK_REF, List.isPrefixOf]
  · simp [E, ty, a, b, w, EnvOK, EnvOKs, EnvOKf, EnvOKf1, Fld.name, Fld.dflt]
  · simp [E, ty, a, b, HasType, HasTypeAny, HasFields, HasField]
    exact ⟨_, _, ⟨rfl, rfl⟩, rfl, .inr ⟨_, rfl, _, _, rfl, rfl, .inl ⟨_, rfl⟩⟩⟩

end HS
