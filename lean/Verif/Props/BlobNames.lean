import Verif.Props.Restore
import Verif.Props.ConfigHist
/-!
# C50: what the blob files of a dump contain

No condition on the object: whatever is dumped, wherever its Serializables are.
-/
namespace HS

/-- the place of an entry below another place -/
def placeBelow (p k : String) : String := if p = "" then k else p ++ "." ++ k

mutual
/-- the Serializables of a value with their places, in the order of the fields, entries and elements -/
def serials (p : String) : Val → List (String × Val)
  | .ser _ y => [(p, y)]
  | .inst _ kvs => serialsD p kvs
  | .dict kvs => serialsD p kvs
  | .list xs => serialsL p 0 xs
  | .tup xs => serialsL p 0 xs
  | .ntup _ kvs => serialsV p 0 kvs
  | _ => []
termination_by structural x => x
def serialsD (p : String) : List (String × Val) → List (String × Val)
  | [] => []
  | kv :: r => serialsP p kv ++ serialsD p r
termination_by structural x => x
def serialsP (p : String) : String × Val → List (String × Val)
  | (k, v) => serials (placeBelow p k) v
termination_by structural x => x
def serialsL (p : String) : Nat → List Val → List (String × Val)
  | _, [] => []
  | i, v :: r => serials (placeBelow p i.repr) v ++ serialsL p (i + 1) r
termination_by structural _ x => x
def serialsV (p : String) : Nat → List (String × Val) → List (String × Val)
  | _, [] => []
  | i, kv :: r => serialsE p i kv ++ serialsV p (i + 1) r
termination_by structural _ x => x
def serialsE (p : String) : Nat → String × Val → List (String × Val)
  | i, (_, v) => serials (placeBelow p i.repr) v
termination_by structural _ x => x
end

/-- the file for a place: `state.`, the place with `_` for `[` and without `]`, `.msgpack` -/
def fileFor (p : String) : String :=
  "state." ++ String.ofList ((p.toList.filter (· ≠ ']')).map (fun c => if c = '[' then '_' else c)) ++ ".msgpack"

theorem blobFile_fileFor (p : String) : blobFile p = fileFor p := by
  simp only [blobFile, blobName, fileFor]
  congr 3
  induction p.toList with
  | nil => rfl
  | cons c l ih =>
    by_cases h : c = ']'
    · subst h; simpa using ih
    · by_cases h2 : c = '['
      · subst h2; simpa using ih
      · simp only [List.map_cons, h2, if_false, List.filter_cons, ne_eq, h, not_false_eq_true, decide_true, if_true] at ih ⊢
        rw [ih]

theorem serHooks_plain {c : SerCfg} (hs : c.sched = none) (file : String) (v : Val) (hv : ∀ n y, v ≠ .ser n y) :
    serHooks c file v = .ok (v, []) := by
  simp only [serHooks, schedFind, hs, bind, Except.bind, pure, Except.pure]
  cases c.lazy <;> cases v <;> first | rfl | exact absurd rfl (hv _ _)

mutual
theorem asdict_serials {c : SerCfg} (hs : c.sched = none) (hl : c.lazy = true) :
    ∀ (v : Val) (file : String) (w : Val) (bs : List (String × Val)), asdict c file v = .ok (w, bs) →
      bs = (serials file v).map (fun py => (fileFor py.1, py.2))
  | .inst cls kvs, file, w, bs, h => by
    simp only [asdict, serHooks_plain hs file (.inst cls kvs) (by simp), bind, Except.bind, pure, Except.pure] at h
    cases hk : asdictD c file kvs with
    | error e => simp [hk] at h
    | ok r =>
      simp only [hk] at h
      cases hp : packAttrs c cls r.1 with
      | error e => simp [hp] at h
      | ok x =>
        simp only [hp, Except.ok.injEq, Prod.mk.injEq] at h
        rw [← h.2]
        simpa only [serials] using asdictD_serials hs hl kvs file r.1 r.2 hk
  | .dict kvs, file, w, bs, h => by
    simp only [asdict, serHooks_plain hs file (.dict kvs) (by simp), bind, Except.bind, pure, Except.pure] at h
    cases hk : asdictD c file kvs with
    | error e => simp [hk] at h
    | ok r =>
      simp only [hk, Except.ok.injEq, Prod.mk.injEq] at h
      rw [← h.2]
      simpa only [serials] using asdictD_serials hs hl kvs file r.1 r.2 hk
  | .list xs, file, w, bs, h => by
    simp only [asdict, serHooks_plain hs file (.list xs) (by simp), bind, Except.bind, pure, Except.pure] at h
    cases hk : asdictL c file 0 xs with
    | error e => simp [hk] at h
    | ok r =>
      simp only [hk, Except.ok.injEq, Prod.mk.injEq] at h
      rw [← h.2]
      simpa only [serials] using asdictL_serials hs hl 0 xs file r.1 r.2 hk
  | .tup xs, file, w, bs, h => by
    simp only [asdict, serHooks_plain hs file (.tup xs) (by simp), bind, Except.bind, pure, Except.pure] at h
    cases hk : asdictL c file 0 xs with
    | error e => simp [hk] at h
    | ok r =>
      simp only [hk, Except.ok.injEq, Prod.mk.injEq] at h
      rw [← h.2]
      simpa only [serials] using asdictL_serials hs hl 0 xs file r.1 r.2 hk
  | .ntup n kvs, file, w, bs, h => by
    simp only [asdict, serHooks_plain hs file (.ntup n kvs) (by simp), bind, Except.bind, pure, Except.pure] at h
    cases hk : asdictV c file 0 kvs with
    | error e => simp [hk] at h
    | ok r =>
      simp only [hk, Except.ok.injEq, Prod.mk.injEq] at h
      rw [← h.2]
      simpa only [serials] using asdictV_serials hs hl 0 kvs file r.1 r.2 hk
  | .ser n y, file, w, bs, h => by
    simp only [asdict, serHooks, hl, schedFind, hs, bind, Except.bind, pure, Except.pure, Except.ok.injEq, Prod.mk.injEq] at h
    rw [← h.2]
    simp [serials, blobFile_fileFor]
  | .none, file, w, bs, h => by
    simp only [asdict, serHooks_plain hs file (.none) (by simp), bind, Except.bind, pure, Except.pure, Except.ok.injEq, Prod.mk.injEq] at h
    simp [serials, ← h.2]
  | .bool b, file, w, bs, h => by
    simp only [asdict, serHooks_plain hs file (.bool b) (by simp), bind, Except.bind, pure, Except.pure, Except.ok.injEq, Prod.mk.injEq] at h
    simp [serials, ← h.2]
  | .int i, file, w, bs, h => by
    simp only [asdict, serHooks_plain hs file (.int i) (by simp), bind, Except.bind, pure, Except.pure, Except.ok.injEq, Prod.mk.injEq] at h
    simp [serials, ← h.2]
  | .flt x, file, w, bs, h => by
    simp only [asdict, serHooks_plain hs file (.flt x) (by simp), bind, Except.bind, pure, Except.pure, Except.ok.injEq, Prod.mk.injEq] at h
    simp [serials, ← h.2]
  | .str t, file, w, bs, h => by
    simp only [asdict, serHooks_plain hs file (.str t) (by simp), bind, Except.bind, pure, Except.pure, Except.ok.injEq, Prod.mk.injEq] at h
    simp [serials, ← h.2]
  | .enm a b e, file, w, bs, h => by
    simp only [asdict, serHooks_plain hs file (.enm a b e) (by simp), bind, Except.bind, pure, Except.pure, Except.ok.injEq, Prod.mk.injEq] at h
    simp [serials, ← h.2]
termination_by structural x => x
theorem asdictD_serials {c : SerCfg} (hs : c.sched = none) (hl : c.lazy = true) :
    ∀ (kvs : List (String × Val)) (file : String) (w bs : List (String × Val)), asdictD c file kvs = .ok (w, bs) →
      bs = (serialsD file kvs).map (fun py => (fileFor py.1, py.2))
  | [], file, w, bs, h => by
    simp only [asdictD, Except.ok.injEq, Prod.mk.injEq] at h
    simp [serialsD, ← h.2]
  | kv :: r, file, w, bs, h => by
    simp only [asdictD, bind, Except.bind, pure, Except.pure] at h
    cases h1 : asdictP c file kv with
    | error e => simp [h1] at h
    | ok x =>
      simp only [h1] at h
      cases h2 : asdictD c file r with
      | error e => simp [h2] at h
      | ok y =>
        simp only [h2, Except.ok.injEq, Prod.mk.injEq] at h
        rw [← h.2, asdictP_serials hs hl kv file x.1 x.2 h1, asdictD_serials hs hl r file y.1 y.2 h2]
        simp only [serialsD, List.map_append]
termination_by structural x => x
theorem asdictP_serials {c : SerCfg} (hs : c.sched = none) (hl : c.lazy = true) :
    ∀ (kv : String × Val) (file : String) (w : String × Val) (bs : List (String × Val)), asdictP c file kv = .ok (w, bs) →
      bs = (serialsP file kv).map (fun py => (fileFor py.1, py.2))
  | (k, v), file, w, bs, h => by
    simp only [asdictP, bind, Except.bind, pure, Except.pure] at h
    cases h1 : asdict c (joinPath file k) v with
    | error e => simp [h1] at h
    | ok x =>
      simp only [h1, Except.ok.injEq, Prod.mk.injEq] at h
      rw [← h.2]
      simpa only [serialsP, placeBelow, joinPath] using asdict_serials hs hl v (joinPath file k) x.1 x.2 h1
termination_by structural x => x
theorem asdictL_serials {c : SerCfg} (hs : c.sched = none) (hl : c.lazy = true) :
    ∀ (i : Nat) (xs : List Val) (file : String) (w : List Val) (bs : List (String × Val)), asdictL c file i xs = .ok (w, bs) →
      bs = (serialsL file i xs).map (fun py => (fileFor py.1, py.2))
  | i, [], file, w, bs, h => by
    simp only [asdictL, Except.ok.injEq, Prod.mk.injEq] at h
    simp [serialsL, ← h.2]
  | i, v :: r, file, w, bs, h => by
    simp only [asdictL, bind, Except.bind, pure, Except.pure] at h
    cases h1 : asdict c (joinPath file i.repr) v with
    | error e => simp [h1] at h
    | ok x =>
      simp only [h1] at h
      cases h2 : asdictL c file (i + 1) r with
      | error e => simp [h2] at h
      | ok y =>
        simp only [h2, Except.ok.injEq, Prod.mk.injEq] at h
        rw [← h.2, asdict_serials hs hl v _ x.1 x.2 h1, asdictL_serials hs hl (i + 1) r file y.1 y.2 h2]
        simp only [serialsL, List.map_append, placeBelow, joinPath]
termination_by structural _ x => x
theorem asdictV_serials {c : SerCfg} (hs : c.sched = none) (hl : c.lazy = true) :
    ∀ (i : Nat) (xs : List (String × Val)) (file : String) (w : List Val) (bs : List (String × Val)), asdictV c file i xs = .ok (w, bs) →
      bs = (serialsV file i xs).map (fun py => (fileFor py.1, py.2))
  | i, [], file, w, bs, h => by
    simp only [asdictV, Except.ok.injEq, Prod.mk.injEq] at h
    simp [serialsV, ← h.2]
  | i, kv :: r, file, w, bs, h => by
    simp only [asdictV, bind, Except.bind, pure, Except.pure] at h
    cases h1 : asdictE c file i kv with
    | error e => simp [h1] at h
    | ok x =>
      simp only [h1] at h
      cases h2 : asdictV c file (i + 1) r with
      | error e => simp [h2] at h
      | ok y =>
        simp only [h2, Except.ok.injEq, Prod.mk.injEq] at h
        rw [← h.2, asdictE_serials hs hl i kv file x.1 x.2 h1, asdictV_serials hs hl (i + 1) r file y.1 y.2 h2]
        simp only [serialsV, List.map_append]
termination_by structural _ x => x
theorem asdictE_serials {c : SerCfg} (hs : c.sched = none) (hl : c.lazy = true) :
    ∀ (i : Nat) (kv : String × Val) (file : String) (w : Val) (bs : List (String × Val)), asdictE c file i kv = .ok (w, bs) →
      bs = (serialsE file i kv).map (fun py => (fileFor py.1, py.2))
  | i, (k, v), file, w, bs, h => by
    simp only [asdictE] at h
    simpa only [serialsE, placeBelow, joinPath] using asdict_serials hs hl v _ w bs h
termination_by structural _ x => x
end

/-- the last entry under a key -/
def lastOf (d : List (String × Val)) (k : String) : Option Val := dget d.reverse k

theorem foldl_dset_last (bs acc : List (String × Val)) (k : String) :
    dget (bs.foldl (fun a kv => dset a kv.1 kv.2) acc) k = (lastOf bs k).or (dget acc k) := by
  induction bs generalizing acc with
  | nil => simp [lastOf]
  | cons x r ih =>
    obtain ⟨k', v⟩ := x
    simp only [List.foldl_cons, ih, lastOf, List.reverse_cons, dget_append, dget]
    by_cases h : k' = k
    · subst h
      simp only [dget_dset_self, if_true]
      cases dget r.reverse k' <;> rfl
    · rw [dget_dset_ne _ _ h]
      simp only [h, if_false]
      cases dget r.reverse k <;> rfl

theorem nodup_foldl_dset (bs acc : List (String × Val)) (h : (dkeys acc).Nodup) :
    (dkeys (bs.foldl (fun a kv => dset a kv.1 kv.2) acc)).Nodup := by
  induction bs generalizing acc with
  | nil => exact h
  | cons x r ih => exact ih _ (nodup_dset _ _ _ h)

/-- C50: whatever is dumped, the files written are those for the places of its Serializables, one per name, and each
contains what the last Serializable with that file name was serialized to. -/
theorem C50_contents (env : String → ClsInfo) (elide : Bool) (v doc : Val) (bs : List (String × Val))
    (h : typedDump env none elide v = .ok (doc, bs)) :
    (dkeys bs).Nodup ∧ ∀ f, dget bs f = lastOf ((serials "" v).map (fun py => (fileFor py.1, py.2))) f := by
  simp only [typedDump, bind, Except.bind, pure, Except.pure] at h
  cases ha : asdict (dumpCfg env none elide) "" v with
  | error e => simp [ha] at h
  | ok r =>
    simp only [ha, Except.ok.injEq, Prod.mk.injEq] at h
    obtain ⟨_, rfl⟩ := h
    have hr := asdict_serials (c := dumpCfg env none elide) rfl rfl v "" r.1 r.2 ha
    constructor
    · exact nodup_foldl_dset _ _ (by simp [dkeys])
    · intro f
      rw [foldl_dset_last, hr]
      simp only [dget]
      cases lastOf _ f <;> rfl

namespace ExB
/-- a state with a Serializable in a field, one in a list and one in a dict -/
def obj : Val := .inst "State" [("net", .ser "Net" (.int 1)), ("opts", .list [.int 0, .ser "Opt" (.int 2)]),
  ("by_name", .dict [("x", .ser "Net" (.int 3))])]
/-- two entries whose places differ, but not their file names -/
def clash : Val := .inst "State" [("by_name", .dict [("a_b", .ser "Net" (.int 1)), ("a[b]", .ser "Net" (.int 2))])]
end ExB

example : (∃ doc bs, typedDump ExM.w.env none false ExB.obj = .ok (doc, bs) ∧ dkeys bs = ["state.net.msgpack", "state.opts.1.msgpack",
    "state.by_name.x.msgpack"]) ∧ (serials "" ExB.obj).map Prod.fst = ["net", "opts.1", "by_name.x"] :=
  ⟨⟨_, _, rfl, by decide +kernel⟩, by decide +kernel⟩

/-- C50 is false of the code below dicts: two Serializables at different places are written to the same file, and only the later one
is kept. -/
theorem C50_same_file_false : ∃ doc bs, typedDump ExM.w.env none false ExB.clash = .ok (doc, bs) ∧
    (serials "" ExB.clash).map Prod.fst = ["by_name.a_b", "by_name.a[b]"] ∧ bs.length = 1 ∧
    (match dget bs "state.by_name.a_b.msgpack" with | some (.int 2) => true | _ => false) = true :=
  ⟨_, _, rfl, by decide +kernel, by decide +kernel, by decide +kernel⟩

/-! ## the config has no blobs -/

mutual
/-- no part of the annotation is a Serializable class -/
def NoSer : PyTy → Prop
  | .blob _ => False
  | .list a => NoSer a
  | .tuple as => NoSerL as
  | .dict k v => NoSer k ∧ NoSer v
  | .union as => NoSerL as
  | .data _ fs _ => NoSerF fs
  | _ => True
termination_by structural x => x
def NoSerL : List PyTy → Prop
  | [] => True
  | t :: ts => NoSer t ∧ NoSerL ts
termination_by structural x => x
def NoSerF : List Fld → Prop
  | [] => True
  | f :: fs => NoSer1 f ∧ NoSerF fs
termination_by structural x => x
def NoSer1 : Fld → Prop
  | .mk _ t _ => NoSer t
termination_by structural x => x
end

mutual
theorem materialize_noSer : ∀ (t : PyTy) (s : STy), materialize t = .ok s → NoSer t
  | .blob _, s, h => by simp [materialize] at h
  | .noneT, s, h => by simp [materialize] at h
  | .int, _, _ => by simp [NoSer]
  | .float, _, _ => by simp [NoSer]
  | .str, _, _ => by simp [NoSer]
  | .bool, _, _ => by simp [NoSer]
  | .enum _ _, _, _ => by simp [NoSer]
  | .literal _, _, _ => by simp [NoSer]
  | .list a, s, h => by
    simp only [materialize, bind, Except.bind] at h
    cases ha : materialize a with
    | error e => simp [ha] at h
    | ok x => simpa only [NoSer] using materialize_noSer a x ha
  | .tuple as, s, h => by
    simp only [materialize, bind, Except.bind] at h
    cases ha : materializeL as with
    | error e => simp [ha] at h
    | ok x => simpa only [NoSer] using materializeL_noSer as x ha
  | .dict k v, s, h => by
    simp only [materialize, bind, Except.bind] at h
    cases ha : materialize k with
    | error e => simp [ha] at h
    | ok x =>
      simp only [ha] at h
      cases hb : materialize v with
      | error e => simp [hb] at h
      | ok y => exact (by simp only [NoSer]; exact ⟨materialize_noSer k x ha, materialize_noSer v y hb⟩)
  | .union as, s, h => by
    simp only [materialize] at h
    split at h
    · rename_i ho
      simp only [NoSer]
      exact materializeOpt_noSer as s ho h
    · simp only [bind, Except.bind] at h
      cases ha : materializeL as with
      | error e => simp [ha] at h
      | ok x => simpa only [NoSer] using materializeL_noSer as x ha
  | .data n fs ver, s, h => by
    simp only [materialize, bind, Except.bind] at h
    cases ha : materializeF fs with
    | error e => simp [ha] at h
    | ok x => simpa only [NoSer] using materializeF_noSer fs x ha
termination_by structural x => x
theorem materializeOpt_noSer : ∀ (as : List PyTy) (s : STy), isOptionalArgs as = true → materializeOpt as = .ok s → NoSerL as
  | [], _, _, h => by simp [materializeOpt] at h
  | t :: r, s, ho, h => by
    simp only [materializeOpt, bind, Except.bind] at h
    cases ha : materialize t with
    | error e => simp [ha] at h
    | ok x =>
      have ht := materialize_noSer t x ha
      match r, ho with
      | [b], ho =>
        cases b <;> simp_all [isOptionalArgs, PyTy.isNoneT, NoSerL, NoSer]
termination_by structural x => x
theorem materializeL_noSer : ∀ (ts : List PyTy) (s : List STy), materializeL ts = .ok s → NoSerL ts
  | [], _, _ => by simp [NoSerL]
  | t :: ts, s, h => by
    simp only [materializeL, bind, Except.bind] at h
    cases ha : materialize t with
    | error e => simp [ha] at h
    | ok x =>
      simp only [ha] at h
      cases hb : materializeL ts with
      | error e => simp [hb] at h
      | ok y => exact (by simp only [NoSerL]; exact ⟨materialize_noSer t x ha, materializeL_noSer ts y hb⟩)
termination_by structural x => x
theorem materializeF_noSer : ∀ (fs : List Fld) (s : List (String × SFld)), materializeF fs = .ok s → NoSerF fs
  | [], _, _ => by simp [NoSerF]
  | f :: fs, s, h => by
    simp only [materializeF, bind, Except.bind] at h
    cases ha : materializeF1 f with
    | error e => simp [ha] at h
    | ok x =>
      simp only [ha] at h
      cases hb : materializeF fs with
      | error e => simp [hb] at h
      | ok y => exact (by simp only [NoSerF]; exact ⟨materializeF1_noSer f x ha, materializeF_noSer fs y hb⟩)
termination_by structural x => x
theorem materializeF1_noSer : ∀ (f : Fld) (s : String × SFld), materializeF1 f = .ok s → NoSer1 f
  | .mk n t d, s, h => by
    simp only [materializeF1, bind, Except.bind] at h
    cases ha : materialize t with
    | error e => simp [ha] at h
    | ok x => simpa only [NoSer1] using materialize_noSer t x ha
termination_by structural x => x
end

/-- C50: a manager whose config class has a Serializable field anywhere cannot load its config, whatever the files: the blob
files of a checkpoint all belong to the state. -/
theorem C50_config (E : MgrEnv) (disk : Dir Files) (ops : List MOp) (m m1 : Mgr) (c : Val)
    (h : (Mgr.new E disk).run E ops = .ok m) (hr : m.readConfig E = .ok (c, m1)) : NoSer E.cfgTy := by
  obtain ⟨doc, l, _, h2, _⟩ := config_history (P := fun _ _ => True) (fun _ _ _ _ => trivial) (fun _ _ _ _ _ _ _ => trivial) ops h hr
  have key : ∀ (d : DCfg) (doc : Val), typedLoad d E.w.ron (some E.overrides) E.ignoreExtra E.cfgTy doc = .ok l → NoSer E.cfgTy := by
    intro d doc h
    simp only [typedLoad, applyOverrides, bind, Except.bind] at h
    cases hm : materialize E.cfgTy with
    | error e => simp [hm] at h
    | ok s => exact materialize_noSer _ _ hm
  cases doc with
  | none => exact key _ _ h2
  | some doc => exact key _ _ h2

/-- the config of the example can be read; a class with a Serializable field is not `NoSer` -/
example : (∃ m1, (Mgr.new ExM.E ExM.disk).readConfig ExM.E = .ok (ExM.cfgV 0, m1)) ∧ ¬ NoSer ExM.blobTy :=
  ⟨⟨_, ExM.read_config⟩, by simp [ExM.blobTy, NoSer, NoSerF, NoSer1]⟩

end HS
