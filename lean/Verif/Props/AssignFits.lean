import Verif.Proofs.UserConfig
import Verif.Proofs.StateFits
import Verif.Props.ConfigFits
/-!
# Values of the declared type that are assigned to the config
-/
namespace HS

/-- the part of the registry at a path -/
def Reg.sub : Option Reg → List String → Option Reg
  | r, [] => r
  | r, k :: ks => Reg.sub (Reg.child r k) ks

theorem Reg.at_sub : ∀ (path : List String) (r : Option Reg) (q : List String), path ≠ [] → Reg.at (Reg.sub r path) q = Reg.at r (path ++ q) := by
  intro path
  induction path with
  | nil => intro r q h; exact absurd rfl h
  | cons k ks ih =>
    intro r q _
    have hc : Reg.at (Reg.child r k) (ks ++ q) = Reg.at r (k :: (ks ++ q)) := by
      match r with
      | none => simp [Reg.child, Reg.at]
      | some (.sched _ _ _) => simp [Reg.child, Reg.at]
      | some (.node es) => simp [Reg.child, Reg.at]
    simp only [Reg.sub, List.cons_append]
    rw [← hc]
    cases ks with
    | nil => simp [Reg.sub]
    | cons k' ks => exact ih _ q (by simp)

/-- `r` is well-formed with no empty nodes -/
def Reg.Full (r : Option Reg) : Prop := WF? r ∧ ∀ es, r = some (.node es) → es ≠ []

theorem Reg.full_child {r : Option Reg} (h : WF? r) (k : String) : Reg.Full (Reg.child r k) := by
  refine ⟨h.child k, ?_⟩
  match r, h with
  | none, _ => simp [Reg.child]
  | some (.sched _ _ _), _ => simp [Reg.child]
  | some (.node es), h =>
    intro es' he
    simp only [Reg.child] at he
    have := h.2.mem (dget_mem he)
    simp only [Reg.WF] at this
    exact this.1

theorem Reg.full_sub : ∀ (path : List String) (r : Option Reg), WF? r → path ≠ [] → Reg.Full (Reg.sub r path) := by
  intro path
  induction path with
  | nil => intro r _ h; exact absurd rfl h
  | cons k ks ih =>
    intro r hr _
    simp only [Reg.sub]
    cases ks with
    | nil => exact Reg.full_child hr k
    | cons k' ks => exact ih _ (hr.child k) (by simp)

theorem fitsFs_put (e : Ext) (b : Bool) (r : Option Reg) (k : String) : ∀ (fs : List Fld) (kvs : List (String × Val)) (f : Fld),
    FitsFs e b fs r kvs → fs.find? (fun f => f.name == k) = some f → ∃ y, dget kvs k = some y ∧ Fits e b f.ty (Reg.child r k) y ∧
      ∀ x, Fits e b f.ty (Reg.child r k) x → FitsFs e b fs r (dset kvs k x) := by
  intro fs
  induction fs with
  | nil => intro kvs f _ h; simp at h
  | cons g fs ih =>
    intro kvs f h hf
    obtain ⟨n, t, d⟩ := g
    simp only [FitsFs, FitsF] at h
    obtain ⟨v, rest, rfl, h1, h2⟩ := h
    by_cases hn : n = k
    · subst hn
      simp [List.find?, Fld.name] at hf
      subst hf
      refine ⟨v, by simp [dget, Fld.name], h1, fun x hx => ?_⟩
      simp only [dset, Fld.name, if_true, FitsFs, FitsF]
      exact ⟨x, rest, rfl, hx, h2⟩
    · have : ((Fld.mk n t d).name == k) = false := by simp [hn, Fld.name]
      simp only [List.find?, this] at hf
      obtain ⟨y, g1, g2, g3⟩ := ih rest f h2 hf
      refine ⟨y, by simpa [dget, Fld.name, hn] using g1, g2, fun x hx => ?_⟩
      simp only [FitsFs, FitsF]
      exact ⟨v, _, by simp [dset, Fld.name, hn], h1, g3 x hx⟩

/-- an object in an optional field -/
theorem strips_fits (e : Ext) {t u : PyTy} (h : Strips t u) : ∀ {r : Option Reg} {c : String} {kvs : List (String × Val)}, IdsOK t →
    Fits e false t r (.inst c kvs) → Fits e false u r (.inst c kvs) := by
  induction h with
  | refl => intro r c kvs _ h; exact h
  | @opt t u _ ih =>
    intro r c kvs hi h
    simp only [PyTy.optional, IdsOK, IdsOKHead] at hi
    simp only [PyTy.optional, Fits, FitsHead] at h
    rcases h with ⟨rfl, h1, h2⟩ | ⟨_, _, h⟩ | ⟨_, h⟩
    · simp only [TyOK, TyOKs] at h1
      obtain ⟨h2, h3, h4⟩ := h2
      simp only [HasType, HasTypeAny] at h2
      rcases h2 with h2 | h2 | h2
      · exact ih hi (storable_fits e false t _ h1.1.1 hi ⟨h2, h3, h4⟩)
      · exact (nomatch h2)
      · exact h2.elim
    · exact (nomatch h)
    · exact ih hi h

theorem fits_under (e : Ext) (b : Bool) {t u : PyTy} (h : Strips t u) : ∀ {r : Option Reg} {v : Val}, Fits e b u r v → Fits e b t r v := by
  induction h with
  | refl => intro r v h; exact h
  | opt _ ih =>
    intro r v h
    simp only [PyTy.optional, Fits, FitsHead]
    exact .inr (.inr ⟨rfl, ih h⟩)

theorem Strips.ids {t u : PyTy} (h : Strips t u) : IdsOK t → IdsOK u := by
  induction h with
  | refl => exact fun h => h
  | opt _ ih =>
    intro h
    simp only [PyTy.optional, IdsOK, IdsOKHead] at h
    exact ih h

theorem Strips.tyOK {e : Ext} {t u : PyTy} (h : Strips t u) : TyOK e t → TyOK e u := by
  induction h with
  | refl => exact fun h => h
  | opt _ ih =>
    intro h
    simp only [PyTy.optional, TyOK, TyOKs] at h
    exact ih h.1.1

theorem idsOKf_find {k : String} : ∀ {fs : List Fld} {f : Fld}, fs.find? (fun f => f.name == k) = some f → IdsOKf fs → IdsOK f.ty := by
  intro fs
  induction fs with
  | nil => intro f h; simp at h
  | cons g fs ih =>
    intro f h hi
    obtain ⟨n, t, d⟩ := g
    simp only [IdsOKf, IdsOK1] at hi
    by_cases hn : n = k
    · simp [List.find?, Fld.name, hn] at h
      subst h
      exact hi.1
    · have : ((Fld.mk n t d).name == k) = false := by simp [hn, Fld.name]
      simp only [List.find?, this] at h
      exact ih h hi.2

theorem fldsOK_find {e : Ext} {k : String} : ∀ {fs : List Fld} {f : Fld}, fs.find? (fun f => f.name == k) = some f → FldsOK e fs → TyOK e f.ty := by
  intro fs
  induction fs with
  | nil => intro f h; simp at h
  | cons g fs ih =>
    intro f h hi
    obtain ⟨n, t, d⟩ := g
    simp only [FldsOK, FldOK] at hi
    by_cases hn : n = k
    · simp [List.find?, Fld.name, hn] at h
      subst h
      exact hi.1
    · have : ((Fld.mk n t d).name == k) = false := by simp [hn, Fld.name]
      simp only [List.find?, this] at h
      exact ih h hi.2

/-- the types of fields -/
theorem FieldAt.ok {e : Ext} {fs : List Fld} {path : List String} {t : PyTy} (h : FieldAt fs path t) :
    FldsOK e fs → IdsOKf fs → TyOK e t ∧ IdsOK t := by
  induction h with
  | here hf => intro h1 h2; exact ⟨fldsOK_find hf h1, idsOKf_find hf h2⟩
  | there hf hs _ ih =>
    intro h1 h2
    have g1 := hs.tyOK (fldsOK_find (e := e) hf h1)
    have g2 := hs.ids (idsOKf_find hf h2)
    simp only [TyOK] at g1
    simp only [IdsOK] at g2
    exact ih g1.2.2.2.2 g2.2.2

/-- a field is replaced by a value that fits -/
theorem fits_setAttrAt (e : Ext) {v : Val} {fs : List Fld} {path : List String} {t : PyTy} (hf : FieldAt fs path t) :
    ∀ {n : String} {ver : Option VerInfo} {r : Option Reg} {c c' : Val}, IdsOKf fs → Fits e false (.data n fs ver) r c →
      setAttrAt v path c = .ok c' →
      ∃ y, Fits e false t (Reg.sub r path) y ∧ (Fits e false t (Reg.sub r path) v → Fits e false (.data n fs ver) r c') := by
  induction hf with
  | @here fs k f hfind =>
    intro n ver r c c' hi h hs
    simp only [Fits] at h
    obtain ⟨h1, h2, h3, kvs, rfl, h4⟩ := h
    obtain ⟨y, g1, g2, g3⟩ := fitsFs_put e false r k fs kvs f h4 hfind
    cases hs
    refine ⟨y, g2, fun hv => ?_⟩
    simp only [Fits]
    exact ⟨h1, h2, h3, _, rfl, g3 v hv⟩
  | @there fs k k' ks f n' fs' ver' t hfind hst _ ih =>
    intro n ver r c c' hi h hs
    simp only [Fits] at h
    obtain ⟨h1, h2, h3, kvs, rfl, h4⟩ := h
    obtain ⟨y, g1, g2, g3⟩ := fitsFs_put e false r k fs kvs f h4 hfind
    simp only [setAttrAt, getAttr, g1, bind, Except.bind] at hs
    cases hs2 : setAttrAt v (k' :: ks) y with
    | error er => rw [hs2] at hs; exact (nomatch hs)
    | ok c2 =>
      rw [hs2] at hs
      cases hs
      have hid := idsOKf_find hfind hi
      cases y with
      | inst cn ykvs =>
        have hid' := hst.ids hid
        simp only [IdsOK] at hid'
        obtain ⟨z, z1, z2⟩ := ih hid'.2.2 (strips_fits e hst hid g2) hs2
        refine ⟨z, z1, fun hv => ?_⟩
        simp only [Fits]
        exact ⟨h1, h2, h3, _, rfl, g3 _ (fits_under e false hst (z2 hv))⟩
      | _ => cases ks <;> exact (nomatch hs2)

/-! ## assignments that the class of the config allows -/

/-- An assignment `config.a.b.c = v` to a field of the config, of a value of the declared type of the field (`Storable`: what a
checkpoint can hold). The field has no schedules in it, unless it is an `int` or `float` field itself; and if there is an override
for the field, for a part of it or for an object that it is in, then it is for a schedule of the field itself. -/
structure AssignOK (E : MgrEnv) (reg : RegD) (path : List String) (v : Val) : Prop where
  field : ∃ n fs ver t, E.cfgTy = .data n fs ver ∧ FieldAt fs path t ∧ Storable t v ∧
    ((∀ q z, Reg.at (some (.node reg)) q = some z → ¬ path <+: q) ∨ t = .int ∨ t = .float)
  apart : ∀ o ∈ E.overrides, ∀ key p s, IsOv o key p s → Unrelated path p ∨ path = p ∧ (Reg.at (some (.node reg)) p).isSome = true

theorem cfgGood_assign {E : MgrEnv} (hC : CfgClass E) {reg : RegD} {c c' : Val} (htop : TopOK reg) (h : CfgGood E reg c) {path : List String} {v : Val}
    (hA : AssignOK E reg path v) (hs : setAttrAt v path c = .ok c') : CfgGood E reg c' := by
  obtain ⟨n, fs, ver, t, hE, hf, hst, hns⟩ := hA.field
  have hty := hC.ty
  have hid := hC.ids
  rw [hE] at hty hid
  simp only [TyOK] at hty
  simp only [IdsOK] at hid
  obtain ⟨k1, k2⟩ := hf.ok hty.2.2.2.2 hid.2.2
  have hne : path ≠ [] := by cases hf <;> simp
  have hwf : WF? (some (.node reg)) := ⟨htop.1, h.wf⟩
  refine ⟨?_, h.depth, h.wf, h.denotes, ?_⟩
  · have hfit := h.fits
    rw [hE] at hfit ⊢
    obtain ⟨y, g1, g2⟩ := fits_setAttrAt E.w.ext hf hid.2.2 hfit hs
    refine g2 ?_
    rcases hns with hns | rfl | rfl
    · have hr : Reg.sub (some (.node reg)) path = none := by
        refine reg_none ?_ (Reg.full_sub path _ hwf hne).1 (Reg.full_sub path _ hwf hne).2
        intro q
        rw [Reg.at_sub path _ q hne, Reg.at_none]
        cases hq : Reg.at (some (.node reg)) (path ++ q) with
        | none => rfl
        | some z => exact absurd (List.prefix_append path q) (hns _ z hq)
      rw [hr]
      exact storable_fits _ _ t v k1 k2 hst
    · simp only [Fits] at g1 ⊢
      exact ⟨hst, g1.2⟩
    · simp only [Fits] at g1 ⊢
      exact ⟨hst, g1.2⟩
  · intro n' fs' ver' hE' o ho
    have := h.effect n' fs' ver' hE' o ho
    cases this with
    | @plain key p s t x y h1 h2 h3 h4 h5 h6 h7 h8 =>
      rcases hA.apart o ho.mem key p s h1 with hu | ⟨rfl, hz⟩
      · exact .plain h1 h2 h3 h4 h5 h6 (by rw [setAttrAt_apart hs p hu.1 hu.2]; exact h7) h8
      · obtain ⟨z, hz⟩ := Option.isSome_iff_exists.1 hz
        exact absurd (List.prefix_refl _) (h8 _ z hz).1
    | @sched key p s t txt i y h1 h2 h3 h4 h5 =>
      rcases hA.apart o ho.mem key p s h1 with hu | ⟨rfl, _⟩
      · exact .sched h1 h2 h3 h4 (by rw [setAttrAt_apart hs p hu.1 hu.2]; exact h5)
      · exact .sched h1 h2 h3 h4 (setAttrAt_get hs)

end HS
