import Verif.Proofs.Settled
import Verif.Props.Manager
/-!
# C45, C50, C51: what a checkpoint gives back
-/
namespace HS

/-- what a successful dump consists of -/
theorem dump_inv {E : MgrEnv} {m : Mgr} {c : Val} {o o' : LObj} {files : Files} (h : m.dump E c o = .ok (files, o')) :
    ∃ cdoc cblobs vs sdoc sblobs, typedDump E.w.env (some m.schedules) false c = .ok (cdoc, cblobs) ∧
      (readAll (lazyGet (m.lenv E) E.depth) o E.stTy.fieldNames).res = .ok vs ∧
      typedDump E.w.env .none false (.inst o.cls (E.stTy.fieldNames.zip vs)) = .ok (sdoc, sblobs) ∧
      files = ⟨cdoc, sdoc, sblobs.foldl (fun a kv => dset a kv.1 kv.2) cblobs⟩ ∧
      o' = (readAll (lazyGet (m.lenv E) E.depth) o E.stTy.fieldNames).obj := by
  simp only [Mgr.dump, bind, Except.bind, pure, Except.pure] at h
  split at h
  · exact (nomatch h)
  · rename_i q hq
    split at h
    · exact (nomatch h)
    · rename_i vs hvs
      split at h
      · exact (nomatch h)
      · rename_i q2 hq2
        simp only [Except.ok.injEq, Prod.mk.injEq] at h
        exact ⟨q.1, q.2, vs, q2.1, q2.2, hq, hvs, hq2, h.1.symm, h.2.symm⟩

theorem stepRun_last {P : Type} {mv : Move} {key : String} {val : Int} {p : P} {d d' : Dir P} {last last' : Option String}
    (h : stepRun mv key val p d last = some (d', last')) : last' = some (ckptName key val) := by
  simp only [stepRun, stepOps] at h
  cases last with
  | none => simp only [Option.some.injEq, Prod.mk.injEq] at h; exact h.2.symm
  | some l =>
    by_cases hd : dhas (runOps d (if dhas d (ckptName key val) = true then [] else checkpointOps mv (ckptName key val) p)) l = true
    · simp only [if_pos hd] at h
      simp only [Option.some.injEq, Prod.mk.injEq] at h
      exact h.2.symm
    · simp only [if_neg hd] at h
      exact (nomatch h)

/-- reading a field that is an ordinary attribute -/
theorem getState_settled {E : MgrEnv} {m : Mgr} {o : LObj} {k : String} {x : Val} (ho : m.state = some o)
    (h : Settled E.stLazy o k x) (hd : E.depth ≠ 0) : m.getState E k = .ok (x, m) := by
  obtain ⟨f, hf⟩ : ∃ f, E.depth = f + 1 := ⟨E.depth - 1, by omega⟩
  have h' : Settled (m.lenv E).isLazy o k x := h
  have hm : ({ m with state := some o } : Mgr) = m := by rw [← ho]
  simp only [Mgr.getState, Mgr.readState, ho, bind, Except.bind, pure, Except.pure, hf, h'.get f]
  rw [hm]

/-! ## C51: removing the old checkpoint loses nothing -/

/-- C51 (partial): after a step that has written a checkpoint, every field of the state is an ordinary attribute: reading it
succeeds whatever has happened to the old directory (and to the new one). Missing: steps whose target directory existed
already, for which the claim is false (C51_false). -/
theorem C51_partial (E : MgrEnv) (disk0 : Dir Files) (pre : List MOp) (mv : Move) (m m' : Mgr) (hck : E.ckpt = true)
    (h0 : (Mgr.new E disk0).run E pre = .ok m) (h : m.step E mv = .ok m')
    (hfresh : ∀ n, m'.last = some n → dhas m.disk n = false) :
    ∀ k ∈ E.stTy.fieldNames, ∃ x, ∀ disk' : Dir Files,
      ({ m' with disk := disk' } : Mgr).getState E k = .ok (x, { m' with disk := disk' }) := by
  have hI := run_inv pre _ m (.new E disk0) h0
  obtain ⟨o, m0, m1, hr, ha, j1, ⟨c, hc, hcur⟩, hst, hlast, hdisk, hfin⟩ := step_inv hI h
  rcases hfin with ⟨hno, _⟩ | ⟨_, c', kv, val, files, o', d', l', hc', hkv, hval, hor, hrun, rfl⟩
  · rw [hck] at hno; exact (nomatch hno)
  have hl' := stepRun_last hrun
  have hf := hfresh (ckptName E.key val) hl'
  rcases hor with ⟨hdh, _⟩ | ⟨_, hdump⟩
  · rw [hf] at hdh; exact (nomatch hdh)
  obtain ⟨cdoc, cblobs, vs, sdoc, sblobs, _, hvs, _, _, rfl⟩ := dump_inv hdump
  obtain ⟨hlen, _, hset⟩ := readAll_settled _ E.depth E.stTy.fieldNames _ vs hvs
  intro k hk
  obtain ⟨i, hi, hik⟩ := List.getElem_of_mem hk
  have hmem : (k, vs[i]'(by omega)) ∈ E.stTy.fieldNames.zip vs := by
    rw [← hik]
    have : (E.stTy.fieldNames.zip vs)[i]'(by simp; omega) = (E.stTy.fieldNames[i], vs[i]'(by omega)) := by simp
    rw [← this]
    exact List.getElem_mem ..
  refine ⟨vs[i]'(by omega), fun disk' => ?_⟩
  have hd : E.depth ≠ 0 := by
    intro hd
    rw [hd] at hvs
    cases hns : E.stTy.fieldNames with
    | nil => rw [hns] at hk; simp at hk
    | cons a as => rw [hns] at hvs; simp [readAll, lazyGet] at hvs
  exact getState_settled rfl (hset _ _ hmem) hd

/-- C51 (partial): and the value is the stored one. `saved` are the values of the fields when the step begins, of which the
unread ones are in the files of the checkpoint that the step removes. -/
theorem C51_values_partial (E : MgrEnv) (disk0 : Dir Files) (pre : List MOp) (mv : Move) (m m' m0 : Mgr) (o : LObj)
    (hck : E.ckpt = true) (h0 : (Mgr.new E disk0).run E pre = .ok m) (h : m.step E mv = .ok m')
    (hfresh : ∀ n, m'.last = some n → dhas m.disk n = false)
    (hr : m.readState E = .ok (o, m0)) (saved : List (String × Val)) (hsaved : LInv (m0.lenv E).disk saved o)
    (hkey : (dget saved E.key).isSome = true)
    (hfields : ∀ k ∈ E.stTy.fieldNames, (dget saved k).isSome = true)
    (rank : String → Nat) (hser : SerOK (m0.lenv E) saved rank E.depth) :
    ∀ k ∈ E.stTy.fieldNames, ∀ x, dget saved k = some x → ∀ disk' : Dir Files,
      ({ m' with disk := disk' } : Mgr).getState E k = .ok (x, { m' with disk := disk' }) := by
  have hI := run_inv pre _ m (.new E disk0) h0
  obtain ⟨o1, m01, m1, hr1, ha, j1, ⟨c, hc, hcur⟩, hst, hlast, hdisk, hfin⟩ := step_inv hI h
  rw [hr] at hr1
  cases hr1
  rcases hfin with ⟨hno, _⟩ | ⟨_, c', kv, val, files, o', d', l', hc', hkv, hval, hor, hrun, rfl⟩
  · rw [hck] at hno; exact (nomatch hno)
  have hl' := stepRun_last hrun
  have hf := hfresh (ckptName E.key val) hl'
  rcases hor with ⟨hdh, _⟩ | ⟨_, hdump⟩
  · rw [hf] at hdh; exact (nomatch hdh)
  have hIm0 := readState_inv hI hr
  obtain ⟨_, a2, a3, a4, a5, _⟩ := apply_inv hIm0.1 ha
  have hlenv : m1.lenv E = m0.lenv E := by simp only [Mgr.lenv, Mgr.blobs, a3, a5]
  have hlenv2 : Mgr.lenv E { m1 with state := some (lazyGet (m1.lenv E) E.depth o E.key).obj } = m0.lenv E := by
    rw [← hlenv]; rfl
  obtain ⟨cdoc, cblobs, vs, sdoc, sblobs, _, hvs, _, _, rfl⟩ := dump_inv hdump
  rw [hlenv2] at hvs ⊢
  rw [hlenv] at hvs ⊢
  obtain ⟨kx, hkx⟩ := Option.isSome_iff_exists.1 hkey
  have h1 := (lazyGet_inv hser E.depth o E.key kx hsaved hkx (hser.rank _ hkey)).2.1
  obtain ⟨vs', h2, h3, h4, h5⟩ := readAll_inv hser E.stTy.fieldNames _ h1 hfields
  intro k hk x hx disk'
  have hd : E.depth ≠ 0 := by
    have := hser.rank k (hfields k hk)
    omega
  refine getState_settled rfl ?_ hd
  rcases h4 k x hx with ⟨h6, h7⟩ | ⟨c2, y2, f2, _, h6, _⟩
  · exact ⟨h7, fun _ => h6⟩
  · rw [h5 k hk] at h6; exact (nomatch h6)

namespace ExM

/-- `class State(Lazy): step: int; net: Net` -/
def blobTy : PyTy := .data "State" [.mk "step" .int .none, .mk "net" (.blob "Net") .none] .none

def blobEnv : MgrEnv := { E with stTy := blobTy, stLazy := true }

def blobFiles : Files :=
  ⟨.dict [("opt", .dict [("lr", .str txt)]), ("n", .int 3)],
   .dict [("step", .int 10), ("net", .str "<blob:msgpack>")], [("state.net.msgpack", .int 7)]⟩

def blobDisk : Dir Files := [("latest-step000000000010", .full blobFiles)]

/-- restored state with `net` unread -/
def unread : LObj := ⟨"State", [("step", .int 10), ("net", .none)], [("net", ⟨"Net", "state.net.msgpack", false⟩)]⟩

def restoredMgr : Mgr :=
  ⟨some (cfgV 10), regd, some unread, .ckpt "latest-step000000000010", some "latest-step000000000010", blobDisk⟩

theorem blob_restored : (Mgr.new blobEnv blobDisk).readState blobEnv = .ok (unread, restoredMgr) := by
  have : Mgr.new blobEnv blobDisk = ⟨.none, [], .none, .init, some "latest-step000000000010", blobDisk⟩ := by
    have : openMgr blobDisk = some "latest-step000000000010" := by decide +kernel
    simp [Mgr.new, blobEnv, E, this]
  rw [this]
  rfl

/-- step 10 → 20 with `net` unread: the hypotheses of C51_partial are met, and `net` can be read -/
example : ((Mgr.new blobEnv blobDisk).run blobEnv [.setState "step" (.int 20), .step ⟨.none, false⟩]).toOption.map
    (fun m => (m.last, dkeys m.disk, dhas blobDisk "latest-step000000000020", match m.getState blobEnv "net" with
      | .ok (.ser c (.int i), _) => some (c, i)
      | _ => .none)) =
    some (some "latest-step000000000020", ["latest-step000000000020"], false, some ("Net", 7)) := by
  decide +kernel

example : LInv (restoredMgr.lenv blobEnv).disk [("step", .int 10), ("net", .ser "Net" (.int 7))] unread := by
  intro k x hk
  simp only [dget] at hk
  split at hk
  · rename_i h; subst h; cases hk; exact .inl ⟨rfl, rfl⟩
  · split at hk
    · rename_i h; subst h; cases hk; exact .inr ⟨"Net", .int 7, "state.net.msgpack", rfl, rfl, rfl⟩
    · exact (nomatch hk)

example : SerOK (restoredMgr.lenv blobEnv) [("step", .int 10), ("net", .ser "Net" (.int 7))] (fun _ => 0) 100 where
  lazy := rfl
  inv := fun _ _ _ _ _ _ => rfl
  deps := fun _ _ _ _ d hd => by simp [Mgr.lenv, blobEnv, E] at hd
  rank := fun _ _ => by omega

end ExM

/-- C51 is false when the target directory exists already: `step()` right after restoring writes nothing and then removes the
directory, the unread field can never be read again. -/
theorem C51_false : ∃ (E : MgrEnv) (disk : Dir Files) (m : Mgr),
    (Mgr.new E disk).run E [.step ⟨.none, false⟩] = .ok m ∧ E.ckpt = true ∧ E.stLazy = true ∧
    (∃ v m1, (Mgr.new E disk).getState E "net" = .ok (v, m1) ∧ v = .ser "Net" (.int 7)) ∧
    "net" ∈ E.stTy.fieldNames ∧ m.getState E "net" = .error .fileNotFound ∧ m.disk = [] := by
  have hrun : ∀ (r : Except Err Mgr), (r.toOption.map (fun m => (decide (m.disk.length = 0), match m.getState ExM.blobEnv "net" with
      | .error .fileNotFound => true
      | _ => false))) = some (true, true) →
      ∃ m, r = .ok m ∧ m.disk = [] ∧ m.getState ExM.blobEnv "net" = .error .fileNotFound := by
    intro r h
    cases r with
    | error e => simp [Except.toOption] at h
    | ok m =>
      simp only [Except.toOption, Option.map_some, Option.some.injEq, Prod.mk.injEq, decide_eq_true_eq] at h
      refine ⟨m, rfl, List.length_eq_zero_iff.1 h.1, ?_⟩
      have h2 := h.2
      split at h2
      · rename_i he; exact he
      · exact (nomatch h2)
  obtain ⟨m, h1, h2, h3⟩ := hrun ((Mgr.new ExM.blobEnv ExM.blobDisk).run ExM.blobEnv [.step ⟨.none, false⟩]) (by decide +kernel)
  refine ⟨ExM.blobEnv, ExM.blobDisk, m, h1, rfl, rfl, ?_, by simp [ExM.blobEnv, ExM.blobTy, PyTy.fieldNames, Fld.name], h3, h2⟩
  refine ⟨_, { ExM.restoredMgr with state := some ⟨"State", [("step", .int 10), ("net", .ser "Net" (.int 7))], []⟩ }, ?_, rfl⟩
  simp only [Mgr.getState, ExM.blob_restored, bind, Except.bind]
  rfl

/-! ## C50: Serializables and their files -/

/-- C50 (partial): for every state whose Serializables are fields of the state or of (optional) dataclasses nested in it to
any depth: the dump writes one file for each of them, the load refers to exactly these files under the right classes, and
different Serializables have different files. Missing: list elements (C50_list_false). -/
theorem C50_files_partial (w : World) {n : String} {fs : List Fld} {ver : Option VerInfo} {kvs : List (String × Val)}
    (hfit : Fits w.ext true (.data n fs ver) none (.inst n kvs)) (henv : EnvOK w.env (.data n fs ver)) (ig : Bool) :
    ∃ doc bs l, typedDump w.env none false (.inst n kvs) = .ok (doc, bs) ∧
      smLoadState w (.data n fs ver) doc ig = .ok l ∧
      -- every Serializable: the file the loader will read contains what was serialized
      (∀ segs c y, valAt (.inst n kvs) segs = some (.ser c y) →
        ∃ p e, segsOf p = segs ∧ dget l.lazyFields p = some e ∧ e.cls = c ∧ e.pickle = false ∧ dget bs e.file = some y) ∧
      -- nothing else is lazy
      (∀ p e, dget l.lazyFields p = some e → ∃ y, valAt (.inst n kvs) (segsOf p) = some (.ser e.cls y)) ∧
      -- different files
      (∀ p p' e e', dget l.lazyFields p = some e → dget l.lazyFields p' = some e' → e.file = e'.file → p = p') := by
  obtain ⟨doc, bs, kvs', es, h1, h2, h3, h4, h5, h6⟩ := state_roundtrip w hfit henv ig
  obtain ⟨z1, z2⟩ := lazyInto_spec es [] h6
  have hroot : segsOf "" = [] := by simp [segsOf]
  have hinv : ∀ p e, dget (lazyAll es) p = some e → Ev.lazy p e.cls e.file e.pickle ∈ es := by
    intro p e he
    by_cases hp : p ∈ lazyPaths es
    · obtain ⟨c, f, b, hev⟩ := mem_lazyPaths hp
      have := z1 p c f b hev
      rw [show lazyAll es = lazyInto [] es from rfl, this] at he
      cases he
      exact hev
    · rw [show lazyAll es = lazyInto [] es from rfl, z2 p hp] at he
      exact (nomatch he)
  refine ⟨doc, bs, _, h1, h2, ?_, ?_, ?_⟩
  · intro segs c y hv
    obtain ⟨p, hp, hev⟩ := h4.complete segs c y hv
    rw [hroot, List.nil_append] at hp
    refine ⟨p, _, hp, z1 p c _ _ hev, rfl, rfl, ?_⟩
    obtain ⟨_, _, segs', y', hs', hv', hm⟩ := h4.sound p c _ _ hev
    rw [hroot, List.nil_append, hp] at hs'
    subst hs'
    rw [hv] at hv'
    cases hv'
    exact dget_of_mem h5 hm
  · intro p e he
    obtain ⟨_, _, segs, y, hs, hv, _⟩ := h4.sound p _ _ _ (hinv p e he)
    rw [hroot, List.nil_append] at hs
    exact ⟨y, by rw [hs]; exact hv⟩
  · intro p p' e e' he he' hf
    have k1 := hinv p e he
    have k2 := hinv p' e' he'
    have c1 := h4.clean ⟨by simp, by simp⟩ p (lazyPaths_mem k1)
    have c2 := h4.clean ⟨by simp, by simp⟩ p' (lazyPaths_mem k2)
    rw [(h4.sound p _ _ _ k1).1, (h4.sound p' _ _ _ k2).1] at hf
    exact blobFile_inj c1 c2 hf

/-- C50 (partial): if the Serializables are direct fields of the state and its class inherits from `Lazy`, then after dump
and load every field reads as the value that was saved, in whatever order fields are read. Missing: Serializables in nested
dataclasses (C50_nested_false), list elements (C50_list_false), state classes that do not inherit from `Lazy`
(C50_plain_class_false). -/
theorem C50_read_partial (w : World) {n : String} {fs : List Fld} {ver : Option VerInfo} {kvs : List (String × Val)}
    (hfit : Fits w.ext true (.data n fs ver) none (.inst n kvs)) (henv : EnvOK w.env (.data n fs ver)) (ig : Bool)
    (hdirect : ∀ segs c y, valAt (.inst n kvs) segs = some (.ser c y) → segs.length = 1) :
    ∃ doc bs l o, typedDump w.env none false (.inst n kvs) = .ok (doc, bs) ∧
      smLoadState w (.data n fs ver) doc ig = .ok l ∧ l.obj = some o ∧
      ∀ (L : LEnv) (rank : String → Nat) (depth : Nat), L.disk = dget bs → SerOK L kvs rank depth →
        ∀ ks : List String, (∀ k ∈ ks, (dget kvs k).isSome = true) →
          ∃ vs, (readAll (lazyGet L depth) o ks).res = .ok vs ∧ ks.map (dget kvs) = vs.map some := by
  obtain ⟨doc, bs, kvs', es, h1, h2, h3, h4, h5, h6⟩ := state_roundtrip w hfit henv ig
  refine ⟨doc, bs, _, _, h1, h2, rfl, ?_⟩
  intro L rank depth hL hS ks hks
  have hinv : LInv L.disk kvs ⟨n, kvs', lazyAll es⟩ :=
    state_linv w.ext h3 h4 h6 hdirect (fun f y hm => by rw [hL]; exact dget_of_mem h5 hm)
  obtain ⟨vs, r1, r2, _⟩ := readAll_inv hS ks _ hinv hks
  exact ⟨vs, r1, r2⟩

namespace ExM

/-- `class State(Lazy): nets: List[Net]` -/
def listBlobTy : PyTy := .data "State" [.mk "nets" (.list (.blob "Net")) .none] .none
/-- `class Agent: net: Net`, `class State(Lazy): agent: Agent` -/
def nestedBlobTy : PyTy := .data "State" [.mk "agent" (.data "Agent" [.mk "net" (.blob "Net") .none] .none) .none] .none

/-- an environment in which everything can be read that should be -/
def lenv (isLazy : Bool) (bs : List (String × Val)) : LEnv :=
  { isLazy := isLazy, disk := dget bs, pickleOk := false, deps := fun _ => [], deser := fun c y _ => .ok (.ser c y) }

example : Fits w.ext true nestedBlobTy none (.inst "State" [("agent", .inst "Agent" [("net", .ser "Net" (.int 7))])]) := by
  simp [nestedBlobTy, Fits, FitsFs, FitsF, ClassOK, VerOK, NameOK, IdOK, Reg.isSched, Reg.child, Fld.name]
  decide

end ExM

/-- C50 is false for list elements: the dump writes `state.nets.0.msgpack`, the load wants `state.nets_0.msgpack`. -/
theorem C50_list_false (y : Val) : ∃ doc bs l o e,
    typedDump ExM.w.env none false (.inst "State" [("nets", .list [.ser "Net" y])]) = .ok (doc, bs) ∧
    smLoadState ExM.w ExM.listBlobTy doc false = .ok l ∧ l.obj = some o ∧
    dkeys bs = ["state.nets.0.msgpack"] ∧ l.lazyFields = [("nets[0]", e)] ∧ e.file = "state.nets_0.msgpack" ∧
    dget bs e.file = none ∧ (lazyGet (ExM.lenv true bs) 10 o "nets").res = .ok (.list [.none]) := by
  refine ⟨.dict [("!__name__", .str "State"), ("nets", .list [.str "<blob:msgpack>"])], [("state.nets.0.msgpack", y)],
    ⟨.inst "State" [("nets", .list [.none])], [], [("nets[0]", ⟨"Net", "state.nets_0.msgpack", false⟩)]⟩,
    ⟨"State", [("nets", .list [.none])], [("nets[0]", ⟨"Net", "state.nets_0.msgpack", false⟩)]⟩,
    ⟨"Net", "state.nets_0.msgpack", false⟩, rfl, rfl, rfl, rfl, rfl, rfl, by simp [dget], rfl⟩

/-- C50 is false for nested dataclasses: the file is written and found, but the attribute is never loaded from it. -/
theorem C50_nested_false (y : Val) : ∃ doc bs l o e,
    typedDump ExM.w.env none false (.inst "State" [("agent", .inst "Agent" [("net", .ser "Net" y)])]) = .ok (doc, bs) ∧
    smLoadState ExM.w ExM.nestedBlobTy doc false = .ok l ∧ l.obj = some o ∧
    l.lazyFields = [("agent.net", e)] ∧ dget bs e.file = some y ∧
    (lazyGet (ExM.lenv true bs) 10 o "agent").res = .ok (.inst "Agent" [("net", .none)]) := by
  refine ⟨.dict [("!__name__", .str "State"), ("agent", .dict [("!__name__", .str "Agent"), ("net", .str "<blob:msgpack>")])], [("state.agent.net.msgpack", y)],
    ⟨.inst "State" [("agent", .inst "Agent" [("net", .none)])], [], [("agent.net", ⟨"Net", "state.agent.net.msgpack", false⟩)]⟩,
    ⟨"State", [("agent", .inst "Agent" [("net", .none)])], [("agent.net", ⟨"Net", "state.agent.net.msgpack", false⟩)]⟩,
    ⟨"Net", "state.agent.net.msgpack", false⟩, rfl, rfl, rfl, rfl, by simp [dget], rfl⟩

/-- C50 is false for a state class that does not inherit from `Lazy` (as in README.md:257-288): every Serializable reads as
None, for every object. -/
theorem C50_plain_class_false (L : LEnv) (h : L.isLazy = false) (depth : Nat) (cls : String) (kvs : List (String × Val))
    (es : List (String × LazyEntry)) (k : String) (hk : dget kvs k = some .none) :
    (lazyGet L (depth + 1) ⟨cls, kvs, es⟩ k).res = .ok .none := by
  simp [lazyGet, h, plainGet, hk]

/-- the state restored from a checkpoint with one Serializable -/
example : (lazyGet (ExM.lenv false [("state.net.msgpack", .int 7)]) 10 ExM.unread "net").res = .ok .none :=
  C50_plain_class_false (ExM.lenv false [("state.net.msgpack", .int 7)]) rfl 9 "State" [("step", .int 10), ("net", .none)]
    [("net", ⟨"Net", "state.net.msgpack", false⟩)] "net" rfl

end HS
