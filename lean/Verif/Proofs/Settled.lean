import Verif.Proofs.Manager
import Verif.Props.Checkpoint
/-!
# Lemmas for restoring a checkpoint: fields that are loaded stay loaded, the state object after a load, the directory after
a step
-/
namespace HS

/-! ## fields that are not lazy (any more) -/

/-- the field is an ordinary attribute with this value -/
def Settled (isLazy : Bool) (o : LObj) (k : String) (x : Val) : Prop :=
  dget o.attrs k = some x ∧ (isLazy = true → dget o.unloaded k = none)

theorem lazyGet_not_lazy {L : LEnv} (h : L.isLazy = false) (fuel : Nat) (o : LObj) (n : String) :
    (lazyGet L fuel o n).obj = o := by
  cases fuel with
  | zero => rfl
  | succ fuel =>
    simp only [lazyGet, h, plainGet]
    split <;> rfl

/-- reading it gives the value, changes nothing and needs no file -/
theorem Settled.get {L : LEnv} {o : LObj} {k : String} {x : Val} (h : Settled L.isLazy o k x) (fuel : Nat) :
    lazyGet L (fuel + 1) o k = ⟨.ok x, o, []⟩ := by
  obtain ⟨h1, h2⟩ := h
  simp only [lazyGet]
  split
  · rename_i e hl he
    rw [h2 hl] at he; exact (nomatch he)
  · simp [plainGet, h1]

theorem Settled.keep {L : LEnv} {o : LObj} {k : String} {x : Val} (h : Settled L.isLazy o k x) (fuel : Nat) (n : String) :
    Settled L.isLazy (lazyGet L fuel o n).obj k x := by
  cases hl : L.isLazy with
  | false => rw [lazyGet_not_lazy hl, ← hl]; exact h
  | true =>
    rw [hl] at h
    obtain ⟨h1, h2⟩ := h
    have hext := lazyGet_ext L fuel o n
    have hk : k ∉ loads (lazyGet L fuel o n).log := by
      intro hk
      have := (hext.was k hk).1
      rw [h2 rfl] at this
      exact (nomatch this)
    exact ⟨by rw [hext.attr k hk]; exact h1, fun _ => by rw [hext.unl k hk]; exact h2 rfl⟩

/-- after a successful read the field is an ordinary attribute -/
theorem lazyGet_settled (L : LEnv) (fuel : Nat) (o : LObj) (n : String) (x : Val) (h : (lazyGet L fuel o n).res = .ok x) :
    Settled L.isLazy (lazyGet L fuel o n).obj n x := by
  refine ⟨?_, fun hl => lazyGet_done L hl fuel o n x h⟩
  cases fuel with
  | zero => simp [lazyGet] at h
  | succ fuel =>
    have hp : (plainGet o n).res = .ok x → dget (plainGet o n).obj.attrs n = some x := by
      simp only [plainGet]
      split
      · rename_i v hv; intro h; cases h; exact hv
      · intro h; exact (nomatch h)
    revert h
    simp only [lazyGet]
    split
    · split
      · intro h; exact (nomatch h)
      · split
        · intro h; exact (nomatch h)
        · split
          · intro h; exact (nomatch h)
          · split
            · intro h; exact (nomatch h)
            · split
              · intro h
                cases h
                simp
              · intro h; exact (nomatch h)
    · exact hp

theorem readAll_settled (L : LEnv) (fuel : Nat) : ∀ (ns : List String) (o : LObj) (vs : List Val),
    (readAll (lazyGet L fuel) o ns).res = .ok vs → ns.length = vs.length ∧
    (∀ k x, Settled L.isLazy o k x → Settled L.isLazy (readAll (lazyGet L fuel) o ns).obj k x) ∧
    ∀ k x, (k, x) ∈ ns.zip vs → Settled L.isLazy (readAll (lazyGet L fuel) o ns).obj k x := by
  intro ns
  induction ns with
  | nil =>
    intro o vs h
    simp only [readAll, Except.ok.injEq] at h
    subst h
    exact ⟨rfl, fun k x h => h, by simp⟩
  | cons n ns ih =>
    intro o vs h
    simp only [readAll] at h ⊢
    cases hg : (lazyGet L fuel o n).res with
    | error e => rw [hg] at h; exact (nomatch h)
    | ok v =>
      rw [hg] at h
      simp only at h ⊢
      cases hr : (readAll (lazyGet L fuel) (lazyGet L fuel o n).obj ns).res with
      | error e => rw [hr] at h; exact (nomatch h)
      | ok rs =>
        rw [hr] at h
        simp only [Except.map, Except.ok.injEq] at h
        subst h
        obtain ⟨h1, h2, h3⟩ := ih _ _ hr
        refine ⟨by simp [h1], fun k x hs => h2 k x (hs.keep fuel n), ?_⟩
        intro k x hm
        simp only [List.zip_cons_cons, List.mem_cons, Prod.mk.injEq] at hm
        rcases hm with ⟨rfl, rfl⟩ | hm
        · exact h2 _ _ (lazyGet_settled L fuel o _ _ hg)
        · exact h3 k x hm

/-! ## the state object after a load -/

theorem restoredFs_get (e : Ext) : ∀ (fs : List Fld) (r : Option Reg) (path : String)
    (kvs kvs' bs : List (String × Val)) (es : List Ev), RestoredFs e fs r path kvs kvs' bs es →
    ∀ k x, dget kvs k = some x → ∃ f ∈ fs, f.name = k ∧ ∃ t x' bs1 es1, dget kvs' k = some x' ∧
      Restored e t (Reg.child r k) (joinPath path k) x x' bs1 es1 := by
  intro fs
  induction fs with
  | nil =>
    intro r path kvs kvs' bs es h k x hk
    simp only [RestoredFs] at h
    rw [h.1] at hk; simp [dget] at hk
  | cons f fs ih =>
    intro r path kvs kvs' bs es h k x hk
    obtain ⟨n, t, d⟩ := f
    simp only [RestoredFs, RestoredF] at h
    obtain ⟨v, v', bs1, es1, rest, rest', bs2, es2, h1, h2, rfl, rfl, rfl, rfl⟩ := h
    have hname : (Fld.mk n t d).name = n := rfl
    rw [hname] at hk ⊢
    by_cases hnk : n = k
    · subst hnk
      simp only [dget, if_true, Option.some.injEq] at hk
      subst hk
      exact ⟨_, List.mem_cons_self .., rfl, t, v', bs1, es1, by simp [dget], h1⟩
    · simp only [dget, if_neg hnk] at hk
      obtain ⟨f, hf, hfn, t', x', bs', es', h3, h4⟩ := ih r path rest rest' bs2 es2 h2 k x hk
      exact ⟨f, List.mem_cons_of_mem _ hf, hfn, t', x', bs', es', by simp only [dget, if_neg hnk]; exact h3, h4⟩

/-- the state object restored from a dump: every field is an attribute with its value, or is unread with its value in its file -/
theorem state_linv (e : Ext) {n : String} {fs : List Fld} {ver : Option VerInfo} {kvs kvs' bs : List (String × Val)}
    {es : List Ev} (hres : Restored e (.data n fs ver) none "" (.inst n kvs) (.inst n kvs') bs es)
    (hbl : BlobsOK "" (.inst n kvs) bs es) (hndp : (lazyPaths es).Nodup)
    (hdirect : ∀ segs c y, valAt (.inst n kvs) segs = some (.ser c y) → segs.length = 1)
    {disk : String → Option Val} (hdisk : ∀ f y, (f, y) ∈ bs → disk f = some y) :
    LInv disk kvs ⟨n, kvs', lazyAll es⟩ := by
  have hR := hres
  simp only [Restored] at hR
  obtain ⟨hcls, _, _, kvs0, kvs0', h1, h2, hfs⟩ := hR
  cases h1; cases h2
  obtain ⟨hz1, hz2⟩ := lazyInto_spec es [] hndp
  intro k x hk
  obtain ⟨f, hf, rfl, t, x', bs1, es1, hx', hrx⟩ := restoredFs_get e fs none "" kvs kvs' bs es hfs k x hk
  have hid : IdOK f.name := (hcls.2.1 f hf).2
  generalize f.name = k at *
  have hsk : segsOf k = [k] := by
    have := segsOf_join (p := "") hid
    simpa [joinPath, segsOf] using this
  have hval : valAt (.inst n kvs) [k] = some x := by simp [valAt, hk]
  by_cases hser : ∃ c y, x = .ser c y
  · obtain ⟨c, y, rfl⟩ := hser
    right
    obtain ⟨p, hp, hev⟩ := hbl.complete [k] c y hval
    have hpk : p = k := segsOf_inj (by rw [hp, hsk]; simp [segsOf])
    subst hpk
    obtain ⟨_, _, segs, y', h3, h4, h5⟩ := hbl.sound p c _ _ hev
    have : segs = [p] := by simpa [segsOf, hsk, hid.1] using (h3.symm.trans hp)
    subst this
    rw [hval] at h4
    cases h4
    exact ⟨c, y, blobFile p, rfl, hz1 p c _ _ hev, hdisk _ _ h5⟩
  · left
    have hnl : k ∉ lazyPaths es := by
      intro hm
      obtain ⟨c, f, b, hev⟩ := mem_lazyPaths hm
      obtain ⟨_, _, segs, y, h3, h4, _⟩ := hbl.sound k c f b hev
      have : segs = [k] := by
        have : segsOf "" = [] := by simp [segsOf]
        rw [this, hsk] at h3
        simpa using h3.symm
      subst this
      rw [hval] at h4
      cases h4
      exact hser ⟨c, y, rfl⟩
    refine ⟨by rw [show (LObj.mk n kvs' (lazyAll es)).unloaded = lazyInto [] es from rfl, hz2 k hnl]; rfl, ?_⟩
    have hb1 := blobs_restored e t _ _ x x' bs1 es1 hrx
    have hno : lazyPaths es1 = [] := by
      cases hq : lazyPaths es1 with
      | nil => rfl
      | cons q qs =>
        obtain ⟨c, f, b, hev⟩ := mem_lazyPaths (es := es1) (p := q) (by rw [hq]; simp)
        obtain ⟨_, _, segs, y, _, h4, _⟩ := hb1.sound q c f b hev
        have := hdirect (k :: segs) c y (by simp [valAt, hk, h4])
        simp only [List.length_cons, Nat.add_eq_right, List.length_eq_zero_iff] at this
        subst this
        simp only [valAt, Option.some.injEq] at h4
        exact absurd ⟨c, y, h4⟩ hser
    have hbs1 : bs1 = [] := by
      have := hb1.files
      rw [hno] at this
      simpa using this
    subst hbs1
    have := restored_plain e t _ x x' es1 hrx
    rw [this.1] at hx'
    exact hx'

/-! ## the directory after a step -/

/-- if all numbered names in the directory have smaller numbers, then after the step the new checkpoint is there and is the
one a new manager opens -/
theorem step_open {P : Type} {mv : Move} {key : String} {val : Int} {p : P} {d d' : Dir P} {last last' : Option String}
    (hv : KeyInRange val) (hlt : ∀ n ∈ dkeys d, ∀ i, suffixInt n = some i → i < val)
    (hlast : last ≠ some (ckptName key val)) (h : stepRun mv key val p d last = some (d', last')) :
    last' = some (ckptName key val) ∧ openMgr d' = last' ∧ dget d' (ckptName key val) = some (.full p) := by
  have htgt := suffixInt_ckptName key hv
  have hfresh : dhas d (ckptName key val) = false := by
    rw [dhas_false, dget_eq_none_iff]
    intro hm
    have := hlt _ hm _ htgt
    omega
  have htmp : ∀ id, suffixInt (ckptName key val ++ "." ++ id ++ ".tmp") = none := by
    intro id
    rcases (C44_tmp_foreign (P := P) (ckptName key val) id .broken).skip with h | h
    · exact (nomatch h)
    · exact h
  have hne : ∀ id, ckptName key val ++ "." ++ id ++ ".tmp" ≠ ckptName key val := by
    intro id he
    have := htmp id
    rw [he, htgt] at this
    exact (nomatch this)
  -- after writing
  have hw : dget (runOps d (checkpointOps mv (ckptName key val) p)) (ckptName key val) = some (.full p) ∧
      ∀ n ∈ dkeys (runOps d (checkpointOps mv (ckptName key val) p)), ∀ i, suffixInt n = some i →
        n = ckptName key val ∨ i < val := by
    simp only [checkpointOps]
    split
    · simp only [runOps, List.foldl_cons, List.foldl_nil, Op.run]
      refine ⟨by simp, ?_⟩
      intro n hn i hi
      rcases mem_dkeys_dset.1 hn with rfl | hn
      · exact .inl rfl
      · exact .inr (hlt n hn i hi)
    · rename_i id _
      simp only [runOps, List.foldl_cons, List.foldl_nil, Op.run, dget_dset_self]
      refine ⟨by simp, ?_⟩
      intro n hn i hi
      rcases mem_dkeys_dset.1 hn with rfl | hn
      · exact .inl rfl
      · have hn := (mem_dkeys_ddel.1 hn).2
        rcases mem_dkeys_dset.1 hn with rfl | hn
        · rw [htmp] at hi; exact (nomatch hi)
        · rcases mem_dkeys_dset.1 hn with rfl | hn
          · rw [htmp] at hi; exact (nomatch hi)
          · exact .inr (hlt n hn i hi)
  -- the directory that is left
  have hfin : last' = some (ckptName key val) ∧ dget d' (ckptName key val) = some (.full p) ∧
      ∀ n ∈ dkeys d', ∀ i, suffixInt n = some i → n = ckptName key val ∨ i < val := by
    simp only [stepRun, stepOps, hfresh, Bool.false_eq_true, if_false] at h
    cases last with
    | none =>
      simp only [Option.some.injEq, Prod.mk.injEq] at h
      obtain ⟨rfl, rfl⟩ := h
      exact ⟨rfl, hw⟩
    | some l =>
      simp only at h
      split at h
      · rename_i ops t heq
        simp only [Option.some.injEq, Prod.mk.injEq] at h
        obtain ⟨rfl, rfl⟩ := h
        split at heq
        · simp only [Prod.mk.injEq, Option.some.injEq] at heq
          obtain ⟨rfl, rfl⟩ := heq
          have hl : l ≠ ckptName key val := fun he => hlast (by rw [he])
          rw [runOps_append]
          refine ⟨rfl, ?_⟩
          simp only [removeOps]
          split
          · simp only [runOps, List.foldl_cons, List.foldl_nil, Op.run]
            refine ⟨by rw [dget_ddel_ne _ hl, dget_dset_ne _ _ hl]; exact hw.1, ?_⟩
            intro n hn i hi
            obtain ⟨hnl, hn⟩ := mem_dkeys_ddel.1 hn
            rcases mem_dkeys_dset.1 hn with rfl | hn
            · exact absurd rfl hnl
            · exact hw.2 n hn i hi
          · simp only [runOps, List.foldl_cons, List.foldl_nil, Op.run]
            refine ⟨by rw [dget_ddel_ne _ hl]; exact hw.1, ?_⟩
            intro n hn i hi
            exact hw.2 n (mem_dkeys_ddel.1 hn).2 i hi
        · simp at heq
      · exact (nomatch h)
  obtain ⟨rfl, h2, h3⟩ := hfin
  refine ⟨rfl, ?_, h2⟩
  have hok : DirOK key (fun _ : P => val) d' (some p) :=
    ⟨fun n hn i hi => ⟨p, rfl, h3 n hn i hi⟩, fun c hc => by cases hc; exact ⟨hv, h2⟩⟩
  exact hok.openMgr_eq.1

/-! ## what is loaded is a Serializable -/

/-- `deserialize` returns a Serializable -/
def DeserSer (deser : String → Val → List Val → Except Err Val) : Prop :=
  ∀ c y vs x, deser c y vs = .ok x → ∃ c' y', x = .ser c' y'

/-- all fields in `read` hold Serializables -/
def LoadsSer (o : LObj) (read : List String) : Prop := ∀ k ∈ read, ∃ c y, dget o.attrs k = some (.ser c y)

theorem LoadsSer.trans {o o' o'' : LObj} {a b : List String} (hext : LExt o' o'' b)
    (ha : LoadsSer o' a) (hb : LoadsSer o'' b) : LoadsSer o'' (a ++ b) := by
  intro k hk
  by_cases hkb : k ∈ b
  · exact hb k hkb
  · have hka : k ∈ a := by simpa [hkb] using hk
    rw [hext.attr k hkb]
    exact ha k hka

theorem lazyGet_loadsSer {L : LEnv} (hd : DeserSer L.deser) : ∀ (fuel : Nat) (o : LObj) (n : String),
    LoadsSer (lazyGet L fuel o n).obj (loads (lazyGet L fuel o n).log) := by
  intro fuel
  induction fuel with
  | zero => intro o n k hk; simp [lazyGet, loads] at hk
  | succ fuel ih =>
    have hall : ∀ (ns : List String) (o : LObj),
        LoadsSer (readAll (lazyGet L fuel) o ns).obj (loads (readAll (lazyGet L fuel) o ns).log) := by
      intro ns
      induction ns with
      | nil => intro o k hk; simp [readAll, loads] at hk
      | cons n ns ihn =>
        intro o
        simp only [readAll]
        split
        · exact ih o n
        · rw [loads_append]
          exact LoadsSer.trans (o := o) (readAll_ext (lazyGet_ext L fuel) ns _) (ih o n) (ihn _)
    intro o n
    simp only [lazyGet]
    split
    · rename_i e hl he
      split
      · intro k hk; simp [loads] at hk
      · rename_i payload hp
        split
        · intro k hk; simp [loads] at hk
        · have hds := hall (L.deps e.cls) o
          split
          · intro k hk; exact hds k (by simpa [loads] using hk)
          · split
            · intro k hk; exact hds k (by simpa [loads] using hk)
            · rename_i vs hvs x hx
              split
              · intro k hk
                by_cases hkn : n = k
                · subst hkn
                  obtain ⟨c, y, rfl⟩ := hd _ _ _ _ hx
                  exact ⟨c, y, by simp⟩
                · have hk' : k ∈ loads (readAll (lazyGet L fuel) o (L.deps e.cls)).log := by
                    rw [List.cons_append] at hk
                    have h2 : loads (.opened n e.file :: ((readAll (lazyGet L fuel) o (L.deps e.cls)).log ++ [.loaded n])) =
                        loads (readAll (lazyGet L fuel) o (L.deps e.cls)).log ++ [n] := by
                      simp [loads]
                    rw [h2] at hk
                    rcases List.mem_append.1 hk with hk | hk
                    · exact hk
                    · simp only [List.mem_singleton] at hk; exact absurd hk.symm hkn
                  simp only [dget_dset_ne _ _ hkn]
                  exact hds k hk'
              · intro k hk
                have hk' : k ∈ loads (readAll (lazyGet L fuel) o (L.deps e.cls)).log := by simpa [loads] using hk
                by_cases hkn : n = k
                · subst hkn
                  obtain ⟨c, y, rfl⟩ := hd _ _ _ _ hx
                  exact ⟨c, y, by simp⟩
                · simp only [dget_dset_ne _ _ hkn]
                  exact hds k hk'
    · intro k hk
      simp only [plainGet] at hk
      split at hk <;> simp [loads] at hk

theorem readAll_loadsSer {L : LEnv} (hd : DeserSer L.deser) (fuel : Nat) : ∀ (ns : List String) (o : LObj),
    LoadsSer (readAll (lazyGet L fuel) o ns).obj (loads (readAll (lazyGet L fuel) o ns).log) := by
  intro ns
  induction ns with
  | nil => intro o k hk; simp [readAll, loads] at hk
  | cons n ns ihn =>
    intro o
    simp only [readAll]
    split
    · exact lazyGet_loadsSer hd fuel o n
    · rw [loads_append]
      exact LoadsSer.trans (o := o) (readAll_ext (lazyGet_ext L fuel) ns _) (lazyGet_loadsSer hd fuel o n) (ihn _)

end HS
