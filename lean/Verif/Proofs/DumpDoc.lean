import Verif.Props.ConfigFits
import Verif.Props.Compat
import Verif.Proofs.Resume
/-!
# What the config document of a checkpoint consists of
-/
namespace HS

theorem raw_dict {d : List (String × Val)} (h : ∀ kv ∈ d, Raw kv.2) : Raw (.dict d) := by
  intro y hy
  cases hy with
  | refl => rfl
  | dict h1 h2 => exact h _ h1 y h2

theorem raw_ntup {n : String} {d : List (String × Val)} (h : ∀ kv ∈ d, Raw kv.2) : Raw (.ntup n d) := by
  intro y hy
  cases hy with
  | refl => rfl
  | ntup h1 h2 => exact h _ h1 y h2

theorem raw_list {xs : List Val} (h : ∀ x ∈ xs, Raw x) : Raw (.list xs) := by
  intro y hy
  cases hy with
  | refl => rfl
  | list h1 h2 => exact h _ h1 y h2

theorem raw_tup {xs : List Val} (h : ∀ x ∈ xs, Raw x) : Raw (.tup xs) := by
  intro y hy
  cases hy with
  | refl => rfl
  | tup h1 h2 => exact h _ h1 y h2

theorem raw_str (s : String) : Raw (.str s) := by intro y hy; cases hy; rfl
theorem raw_int (i : Int) : Raw (.int i) := by intro y hy; cases hy; rfl

theorem raw_elideAttrs : ∀ (ds : List (String × Option Val)) (as : List (String × Val)), (∀ kv ∈ as, Raw kv.2) → ∀ kv ∈ elideAttrs ds as, Raw kv.2
  | [], as, h => h
  | (n, d) :: ds, as, h => by
    simp only [elideAttrs]
    refine raw_elideAttrs ds _ ?_
    intro kv hkv
    split at hkv
    · split at hkv
      · exact h _ (ddel_sub hkv)
      · exact h _ hkv
    · exact h _ hkv

theorem raw_foldl_dset : ∀ (as acc : List (String × Val)), (∀ kv ∈ acc, Raw kv.2) → (∀ kv ∈ as, Raw kv.2) →
    ∀ kv ∈ as.foldl (fun a kv => dset a kv.1 kv.2) acc, Raw kv.2
  | [], acc, h, _ => h
  | a :: as, acc, h, h' => by
    refine raw_foldl_dset as _ ?_ (fun kv hkv => h' kv (List.mem_cons_of_mem _ hkv))
    intro kv hkv
    rcases mem_dset hkv with rfl | hkv
    · exact h' a (by simp)
    · exact h kv hkv

theorem raw_packAttrs {c : SerCfg} {cls : String} {as : List (String × Val)} {w : Val} (h : ∀ kv ∈ as, Raw kv.2)
    (hw : packAttrs c cls as = .ok w) : Raw w := by
  have hm : ∀ kv ∈ modifyAttrs c cls as, Raw kv.2 := by
    unfold modifyAttrs
    have h1 : ∀ kv ∈ (match c.versioned, (c.env cls).version with
        | true, some n => as.foldl (fun a (kv : String × Val) => dset a kv.1 kv.2) [("version", Val.int n)]
        | _, _ => as), Raw kv.2 := by
      split
      · refine raw_foldl_dset as _ ?_ h
        intro kv hkv
        simp only [List.mem_singleton] at hkv
        subst hkv
        exact raw_int _
      · exact h
    dsimp only
    split
    · exact raw_elideAttrs _ _ h1
    · exact h1
  simp only [packAttrs] at hw
  split at hw
  · split at hw
    · cases hw; exact raw_ntup hm
    · exact (nomatch hw)
  · cases hw; exact raw_dict hm

/-- what a hook gives back: the value or a string -/
theorem serHooks_raw {c : SerCfg} {file : String} {v : Val} {q : Val × List (String × Val)} (h : serHooks c file v = .ok q) :
    q.1 = v ∨ ∃ s, q.1 = .str s := by
  simp only [serHooks, bind, Except.bind, pure, Except.pure] at h
  split at h
  · exact (nomatch h)
  · split at h
    · cases h; exact .inr ⟨_, rfl⟩
    · cases h
      dsimp only
      split
      · exact .inr ⟨_, rfl⟩
      · exact .inl rfl

/-- the last case of `asdict` -/
def asdictLeaf (c : SerCfg) (file : String) (v : Val) : Except Err (Val × List (String × Val)) := do
    let (v, bs) ← serHooks c file v
    match v with
    | .enm _ n _ => return (.str n, bs)
    | .ser _ _ => throw .deserType
    | v => return (v, bs)

theorem asdictLeaf_raw {c : SerCfg} {file : String} {v w : Val} {bs : List (String × Val)} (hv : Raw v ∨ (∃ a b x, v = .enm a b x) ∨ ∃ a x, v = .ser a x)
    (h : asdictLeaf c file v = .ok (w, bs)) : Raw w := by
  simp only [asdictLeaf, bind, Except.bind, pure, Except.pure] at h
  split at h
  · exact (nomatch h)
  rename_i q hq
  split at h
  · cases h; exact raw_str _
  · exact (nomatch h)
  · rename_i n1 n2
    cases h
    rcases serHooks_raw hq with he | ⟨s, he⟩
    · rw [he] at n1 n2 ⊢
      rcases hv with hv | ⟨a, b, x, rfl⟩ | ⟨a, x, rfl⟩
      · exact hv
      · exact absurd rfl (n1 _ _ _)
      · exact absurd rfl (n2 _ _)
    · rw [he]; exact raw_str _

mutual
/-- `asdict` returns a document -/
theorem asdict_raw (c : SerCfg) : ∀ (v : Val) (file : String) (w : Val) (bs : List (String × Val)), asdict c file v = .ok (w, bs) → Raw w
  | .inst n kvs, file, w, bs, h => by
    simp only [asdict, bind, Except.bind, pure, Except.pure] at h
    split at h
    · exact (nomatch h)
    split at h
    · cases h; exact raw_str _
    · split at h
      · exact (nomatch h)
      rename_i q hq
      split at h
      · exact (nomatch h)
      rename_i w' hw
      cases h
      exact raw_packAttrs (asdictD_raw c kvs file q.1 q.2 hq) hw
  | .dict kvs, file, w, bs, h => by
    simp only [asdict, bind, Except.bind, pure, Except.pure] at h
    split at h
    · exact (nomatch h)
    split at h
    · cases h; exact raw_str _
    · split at h
      · exact (nomatch h)
      rename_i q hq
      cases h
      exact raw_dict (asdictD_raw c kvs file q.1 q.2 hq)
  | .list xs, file, w, bs, h => by
    simp only [asdict, bind, Except.bind, pure, Except.pure] at h
    split at h
    · exact (nomatch h)
    split at h
    · cases h; exact raw_str _
    · split at h
      · exact (nomatch h)
      rename_i q hq
      cases h
      exact raw_list (asdictL_raw c xs file 0 q.1 q.2 hq)
  | .tup xs, file, w, bs, h => by
    simp only [asdict, bind, Except.bind, pure, Except.pure] at h
    split at h
    · exact (nomatch h)
    split at h
    · cases h; exact raw_str _
    · split at h
      · exact (nomatch h)
      rename_i q hq
      cases h
      exact raw_tup (asdictL_raw c xs file 0 q.1 q.2 hq)
  | .ntup n kvs, file, w, bs, h => by
    simp only [asdict, bind, Except.bind, pure, Except.pure] at h
    split at h
    · exact (nomatch h)
    split at h
    · cases h; exact raw_str _
    · split at h
      · exact (nomatch h)
      rename_i q hq
      cases h
      exact raw_tup (asdictV_raw c kvs file 0 q.1 q.2 hq)
  | .none, file, w, bs, h => asdictLeaf_raw (v := .none) (.inl (by intro y hy; cases hy; rfl)) (h : asdictLeaf c file _ = _)
  | .bool b, file, w, bs, h => asdictLeaf_raw (v := .bool b) (.inl (by intro y hy; cases hy; rfl)) (h : asdictLeaf c file _ = _)
  | .int i, file, w, bs, h => asdictLeaf_raw (v := .int i) (.inl (by intro y hy; cases hy; rfl)) (h : asdictLeaf c file _ = _)
  | .flt f, file, w, bs, h => asdictLeaf_raw (v := .flt f) (.inl (by intro y hy; cases hy; rfl)) (h : asdictLeaf c file _ = _)
  | .str s, file, w, bs, h => asdictLeaf_raw (v := .str s) (.inl (by intro y hy; cases hy; rfl)) (h : asdictLeaf c file _ = _)
  | .enm cl n x, file, w, bs, h => asdictLeaf_raw (v := .enm cl n x) (.inr (.inl ⟨_, _, _, rfl⟩)) (h : asdictLeaf c file _ = _)
  | .ser cl x, file, w, bs, h => asdictLeaf_raw (v := .ser cl x) (.inr (.inr ⟨_, _, rfl⟩)) (h : asdictLeaf c file _ = _)
theorem asdictD_raw (c : SerCfg) : ∀ (kvs : List (String × Val)) (file : String) (ws bs : List (String × Val)), asdictD c file kvs = .ok (ws, bs) →
    ∀ kv ∈ ws, Raw kv.2
  | [], file, ws, bs, h => by
    simp only [asdictD, Except.ok.injEq, Prod.mk.injEq] at h
    rw [← h.1]
    nofun
  | kv :: kvs, file, ws, bs, h => by
    simp only [asdictD, bind, Except.bind, pure, Except.pure] at h
    split at h
    · exact (nomatch h)
    rename_i q hq
    split at h
    · exact (nomatch h)
    rename_i q2 hq2
    cases h
    intro x hx
    simp only [List.mem_cons] at hx
    rcases hx with rfl | hx
    · exact asdictP_raw c kv file q.1 q.2 hq
    · exact asdictD_raw c kvs file q2.1 q2.2 hq2 x hx
theorem asdictP_raw (c : SerCfg) : ∀ (kv : String × Val) (file : String) (w : String × Val) (bs : List (String × Val)), asdictP c file kv = .ok (w, bs) →
    Raw w.2
  | (k, v), file, w, bs, h => by
    simp only [asdictP, bind, Except.bind, pure, Except.pure] at h
    split at h
    · exact (nomatch h)
    rename_i q hq
    cases h
    exact asdict_raw c v _ q.1 q.2 hq
theorem asdictL_raw (c : SerCfg) : ∀ (xs : List Val) (file : String) (i : Nat) (ws : List Val) (bs : List (String × Val)), asdictL c file i xs = .ok (ws, bs) →
    ∀ x ∈ ws, Raw x
  | [], file, i, ws, bs, h => by
    simp only [asdictL, Except.ok.injEq, Prod.mk.injEq] at h
    rw [← h.1]
    nofun
  | v :: vs, file, i, ws, bs, h => by
    simp only [asdictL, bind, Except.bind, pure, Except.pure] at h
    split at h
    · exact (nomatch h)
    rename_i q hq
    split at h
    · exact (nomatch h)
    rename_i q2 hq2
    cases h
    intro x hx
    simp only [List.mem_cons] at hx
    rcases hx with rfl | hx
    · exact asdict_raw c v _ q.1 q.2 hq
    · exact asdictL_raw c vs file _ q2.1 q2.2 hq2 x hx
theorem asdictV_raw (c : SerCfg) : ∀ (kvs : List (String × Val)) (file : String) (i : Nat) (ws : List Val) (bs : List (String × Val)),
    asdictV c file i kvs = .ok (ws, bs) → ∀ x ∈ ws, Raw x
  | [], file, i, ws, bs, h => by
    simp only [asdictV, Except.ok.injEq, Prod.mk.injEq] at h
    rw [← h.1]
    nofun
  | kv :: vs, file, i, ws, bs, h => by
    simp only [asdictV, bind, Except.bind, pure, Except.pure] at h
    split at h
    · exact (nomatch h)
    rename_i q hq
    split at h
    · exact (nomatch h)
    rename_i q2 hq2
    cases h
    intro x hx
    simp only [List.mem_cons] at hx
    rcases hx with rfl | hx
    · exact asdictE_raw c kv file i q.1 q.2 hq
    · exact asdictV_raw c vs file _ q2.1 q2.2 hq2 x hx
theorem asdictE_raw (c : SerCfg) : ∀ (kv : String × Val) (file : String) (i : Nat) (w : Val) (bs : List (String × Val)), asdictE c file i kv = .ok (w, bs) →
    Raw w
  | (k, v), file, i, w, bs, h => by
    simp only [asdictE] at h
    exact asdict_raw c v _ w bs h
end

mutual
theorem ronTrip_raw : ∀ v : Val, Raw v → Raw (ronTrip v)
  | .list xs, h => by
    simp only [ronTrip]
    exact raw_list (ronTripL_raw xs fun x hx y hy => h y (.list hx hy))
  | .tup xs, h => by
    simp only [ronTrip]
    exact raw_tup (ronTripL_raw xs fun x hx y hy => h y (.tup hx hy))
  | .dict kvs, h => by
    simp only [ronTrip]
    exact raw_dict (ronTripD_raw kvs fun x hx y hy => h y (.dict (k := x.1) (y := x.2) hx hy))
  | .ntup n kvs, h => by
    simp only [ronTrip]
    refine raw_dict ?_
    intro kv hkv
    simp only [List.mem_cons] at hkv
    rcases hkv with rfl | hkv
    · exact raw_str _
    · exact ronTripD_raw kvs (fun x hx y hy => h y (.ntup (k := x.1) (y := x.2) hx hy)) kv hkv
  | .none, h | .bool _, h | .int _, h | .flt _, h | .str _, h | .inst _ _, h | .enm _ _ _, h | .ser _ _, h => by simp only [ronTrip]; exact h
theorem ronTripL_raw : ∀ xs : List Val, (∀ x ∈ xs, Raw x) → ∀ x ∈ ronTripL xs, Raw x
  | [], h => by simp only [ronTripL]; nofun
  | x :: xs, h => by
    simp only [ronTripL, List.mem_cons]
    rintro y (rfl | hy)
    · exact ronTrip_raw x (h x (by simp))
    · exact ronTripL_raw xs (fun x hx => h x (List.mem_cons_of_mem _ hx)) y hy
theorem ronTripD_raw : ∀ d : List (String × Val), (∀ x ∈ d, Raw x.2) → ∀ x ∈ ronTripD d, Raw x.2
  | [], h => by simp only [ronTripD]; nofun
  | (k, v) :: d, h => by
    simp only [ronTripD, ronTripP, List.mem_cons]
    rintro y (rfl | hy)
    · exact ronTrip_raw v (h (k, v) (by simp))
    · exact ronTripD_raw d (fun x hx => h x (List.mem_cons_of_mem _ hx)) y hy
end

/-- a dumped document is one -/
theorem typedDump_raw {env : String → ClsInfo} {reg : Option RegD} {el : Bool} {v doc : Val} {bs : List (String × Val)}
    (h : typedDump env reg el v = .ok (doc, bs)) : Raw doc := by
  simp only [typedDump, bind, Except.bind, pure, Except.pure] at h
  split at h
  · exact (nomatch h)
  rename_i q hq
  cases h
  exact ronTrip_raw _ (asdict_raw _ _ _ q.1 q.2 hq)

theorem fitsFs_dkeys {e : Ext} {b : Bool} {r : Option Reg} : ∀ {fs : List Fld} {kvs : List (String × Val)}, FitsFs e b fs r kvs → dkeys kvs = fs.map Fld.name
  | [], kvs, h => by simp only [FitsFs] at h; subst h; rfl
  | f :: fs, kvs, h => by
    simp only [FitsFs] at h
    obtain ⟨v, rest, rfl, -, h⟩ := h
    simp only [dkeys, List.map_cons, List.cons.injEq, true_and]
    exact fitsFs_dkeys h

theorem fitsFs_at {e : Ext} {b : Bool} {r : Option Reg} {env : String → ClsInfo} : ∀ {fs : List Fld} {kvs : List (String × Val)}, FitsFs e b fs r kvs →
    EnvOKf env fs → ∀ k ∈ fs.map Fld.name, ∃ t v, (k, v) ∈ kvs ∧ Fits e b t (Reg.child r k) v ∧ EnvOK env t
  | [], kvs, _, _ => by simp
  | .mk n t d :: fs, kvs, h, he => by
    simp only [FitsFs, FitsF] at h
    obtain ⟨v, rest, rfl, h1, h2⟩ := h
    simp only [EnvOKf, EnvOKf1] at he
    intro k hk
    simp only [List.map_cons, List.mem_cons] at hk
    rcases hk with rfl | hk
    · exact ⟨t, v, by simp [Fld.name], h1, he.1⟩
    · obtain ⟨t', v', a, b, c⟩ := fitsFs_at h2 he.2 k hk
      exact ⟨t', v', List.mem_cons_of_mem _ a, b, c⟩

mutual
/-- a value with schedules in it is a dataclass instance -/
theorem fits_nodeInst {e : Ext} {b : Bool} {env : String → ClsInfo} {es : RegD} {v : Val} : ∀ t : PyTy, Fits e b t (some (.node es)) v → EnvOK env t →
    ∃ n fs ver kvs, v = .inst n kvs ∧ dkeys kvs = fs.map Fld.name ∧ ClassOK fs ver ∧ (env n).version = ver.map VerInfo.version
  | .data n fs ver, h, he => by
    simp only [Fits] at h
    obtain ⟨h1, -, -, kvs, rfl, h2⟩ := h
    simp only [EnvOK] at he
    exact ⟨n, fs, ver, kvs, rfl, fitsFs_dkeys h2, h1, by rw [he.1]⟩
  | .union as, h, he => by
    simp only [Fits, reduceCtorEq, false_and, and_false, false_or] at h
    simp only [EnvOK] at he
    exact fits_nodeInstHead as h.2 he
  | .int, h, _ => by simp [Fits] at h
  | .float, h, _ => by simp [Fits] at h
  | .str, h, _ | .bool, h, _ | .noneT, h, _ | .list _, h, _ | .tuple _, h, _ | .dict _ _, h, _ | .enum _ _, h, _ | .literal _, h, _
  | .blob _, h, _ => by simp [Fits] at h
theorem fits_nodeInstHead {e : Ext} {b : Bool} {env : String → ClsInfo} {es : RegD} {v : Val} : ∀ as : List PyTy, FitsHead e b as (some (.node es)) v → EnvOKs env as →
    ∃ n fs ver kvs, v = .inst n kvs ∧ dkeys kvs = fs.map Fld.name ∧ ClassOK fs ver ∧ (env n).version = ver.map VerInfo.version
  | [], h, _ => by simp [FitsHead] at h
  | t :: _, h, he => by
    simp only [FitsHead] at h
    simp only [EnvOKs] at he
    exact fits_nodeInst t h he.1
end

/-- the version of the class in the document -/
def verPart (env : String → ClsInfo) (n : String) : List (String × Val) :=
  match (env n).version with
  | some i => [("version", .int i)]
  | .none => []

/-- how an instance is written -/
theorem inst_dump {env : String → ClsInfo} {s : Option RegD} {file n : String} {kvs : List (String × Val)} {w : Val} {bs : List (String × Val)}
    {fs : List Fld} {ver : Option VerInfo} (hk : dkeys kvs = fs.map Fld.name) (hC : ClassOK fs ver) (hv : (env n).version = ver.map VerInfo.version)
    (h : asdict (dumpCfg env s false) file (.inst n kvs) = .ok (w, bs)) :
    (∃ t, w = .str t ∧ ∃ b, serHooks (dumpCfg env s false) file (.inst n kvs) = .ok (.str t, b)) ∨
      ∃ attrs, asdictD (dumpCfg env s false) file kvs = .ok (attrs, bs) ∧ w = .ntup n (verPart env n ++ attrs) := by
  simp only [asdict, bind, Except.bind, pure, Except.pure] at h
  split at h
  · exact (nomatch h)
  rename_i q hq
  split at h
  · cases h; exact .inl ⟨_, rfl, _, hq⟩
  · split at h
    · exact (nomatch h)
    rename_i q2 hq2
    split at h
    · exact (nomatch h)
    rename_i w' hw
    cases h
    refine .inr ⟨_, hq2, ?_⟩
    have hd := (asdictD_spec (ws := q2.1) (bs := q2.2) hq2).1
    have hm : modifyAttrs (dumpCfg env s false) n q2.1 = verPart env n ++ q2.1 := by
      simp only [modifyAttrs, dumpCfg, Bool.false_eq_true, if_false, verPart, hv]
      cases ver with
      | none => rfl
      | some vi =>
        simp only [Option.map_some]
        refine foldl_dset_version _ _ (by rw [hd, hk]; exact hC.1) ?_
        rw [hd, hk]
        intro hm
        obtain ⟨f, hf, he⟩ := List.mem_map.1 hm
        exact hC.2.2.1 rfl f hf he
    simp only [packAttrs, hm] at hw
    simp only [dumpCfg, if_true] at hw
    split at hw
    · cases hw; rfl
    · exact (nomatch hw)

theorem verPart_keys (env : String → ClsInfo) (n : String) : ∀ k ∈ dkeys (verPart env n), k = "version" := by
  unfold verPart
  split <;> simp [dkeys]

theorem inst_dump_strong {env : String → ClsInfo} {s : Option RegD} {file n : String} {kvs : List (String × Val)} {w : Val} {bs : List (String × Val)}
    {fs : List Fld} {ver : Option VerInfo} (hk : dkeys kvs = fs.map Fld.name) (hC : ClassOK fs ver) (hv : (env n).version = ver.map VerInfo.version)
    (h : asdict (dumpCfg env s false) file (.inst n kvs) = .ok (w, bs)) : (ronTrip w).isWeak = false := by
  rcases inst_dump hk hC hv h with ⟨t, rfl, -⟩ | ⟨attrs, h1, rfl⟩
  · rfl
  · simp only [ronTrip, Val.isWeak, dhas_false, dget_eq_none_iff]
    intro hm
    have : dkeys ((NAME_KEY, Val.str n) :: ronTripD (verPart env n ++ attrs)) = NAME_KEY :: (dkeys (verPart env n) ++ dkeys attrs) := by
      rw [show dkeys ((NAME_KEY, Val.str n) :: ronTripD (verPart env n ++ attrs)) = NAME_KEY :: dkeys (ronTripD (verPart env n ++ attrs)) from rfl,
        dkeys_ronTripD]
      simp [dkeys]
    rw [this, (asdictD_spec h1).1, hk] at hm
    simp only [List.mem_cons, List.mem_append] at hm
    rcases hm with hm | hm | hm
    · exact absurd hm (by decide)
    · exact absurd (verPart_keys env n _ hm) (by decide)
    · obtain ⟨f, hf, he⟩ := List.mem_map.1 hm
      exact (hC.2.1 f hf).1.2.1 he

/-- the config document of a checkpoint: it says which version it is of and has an entry for every field; where there are schedules inside,
it is not marked as weak -/
theorem dump_doc {env : String → ClsInfo} {e : Ext} {n : String} {fs : List Fld} {vi : VerInfo} {reg : RegD} {v doc : Val} {bs : List (String × Val)}
    (hfit : Fits e false (.data n fs (some vi)) (some (.node reg)) v) (henv : EnvOK env (.data n fs (some vi)))
    (h : typedDump env (some reg) false v = .ok (doc, bs)) :
    ∃ d, doc = .dict d ∧ dget d "version" = some (.int vi.version) ∧
      ∀ k k' x, Reg.at (some (.node reg)) [k, k'] = some x → k ≠ NAME_KEY ∧ ∃ a, dget (ddel d "version") k = some a ∧ a.isWeak = false := by
  simp only [Fits] at hfit
  obtain ⟨hC, -, hch, kvs, rfl, hF⟩ := hfit
  simp only [EnvOK] at henv
  obtain ⟨hen, hef⟩ := henv
  have hver : (env n).version = (some vi).map VerInfo.version := by rw [hen]
  have hk := fitsFs_dkeys hF
  simp only [typedDump, bind, Except.bind, pure, Except.pure] at h
  split at h
  · exact (nomatch h)
  rename_i q hq
  cases h
  have hroot : dget reg "" = none := by
    refine hch "" ?_
    intro hm
    obtain ⟨f, hf, he⟩ := List.mem_map.1 hm
    exact (hC.2.1 f hf).2.1 he
  rcases inst_dump (w := q.1) (bs := q.2) hk hC hver hq with ⟨t, ht, b, hb⟩ | ⟨attrs, h1, hw⟩
  · exfalso
    have := (at_root env hroot).schedFind
    simp only [serHooks, this, Reg.text?, bind, Except.bind, pure, Except.pure, Except.ok.injEq, Prod.mk.injEq] at hb
    have h2 := hb.1
    simp only [dumpCfg] at h2
    exact (nomatch h2)
  · have hvp : verPart env n = [("version", .int vi.version)] := by simp only [verPart, hver, Option.map_some]
    rw [hw, hvp]
    refine ⟨_, rfl, by simp [ronTripD, ronTripP, ronTrip, dget, NAME_KEY], ?_⟩
    intro k k' x hx
    simp only [Reg.at] at hx
    cases hr : dget reg k with
    | none => rw [hr] at hx; simp [Reg.at] at hx
    | some r =>
      rw [hr] at hx
      cases r with
      | sched t i a => simp [Reg.at] at hx
      | node es =>
        have hkm : k ∈ fs.map Fld.name := by
          refine Classical.byContradiction fun hn => ?_
          have := hch k hn
          simp only [Reg.child] at this
          rw [hr] at this
          exact (nomatch this)
        obtain ⟨f, hf, rfl⟩ := List.mem_map.1 hkm
        obtain ⟨t, y, hy, hfy, hey⟩ := fitsFs_at hF hef f.name hkm
        simp only [Reg.child, hr] at hfy
        obtain ⟨n', fs', ver', kvs', rfl, b1, b2, b3⟩ := fits_nodeInst t hfy hey
        have hnv : f.name ≠ "version" := hC.2.2.1 rfl f hf
        have hnn : f.name ≠ NAME_KEY := (hC.2.1 f hf).1.1
        obtain ⟨w, bs', c1, c2⟩ := (asdictD_spec h1).2 f.name _ (dget_of_mem (by rw [hk]; exact hC.1) hy)
        refine ⟨hnn, ronTrip w, ?_, inst_dump_strong b1 b2 b3 c2⟩
        rw [dget_ddel_ne _ (Ne.symm hnv)]
        simp only [dget, if_neg (Ne.symm hnn)]
        rw [dget_ronTripD]
        simp only [List.cons_append, List.nil_append, dget, if_neg (Ne.symm hnv), c1, Option.map_some]

end HS
