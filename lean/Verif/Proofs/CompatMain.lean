import Verif.Proofs.Compat
/-!
# Lemmas: harmless changes keep documents loadable (main induction)
-/
namespace HS

theorem litUsableF_mem {e : Ext} : ∀ {F : List (String × SFld)} {k : String} {f : SFld}, (k, f) ∈ F → LitUsableF e F → LitUsable e f.type
  | (k', f') :: F, k, f, hm, h => by
    simp only [LitUsableF, LitUsableP] at h
    rcases List.mem_cons.1 hm with hm | hm
    · cases hm
      cases f'
      simpa only [LitUsableS, SFld.type] using h.1
    · exact litUsableF_mem hm h.2

theorem sizeOf_type_lt {F : List (String × SFld)} {k : String} {f : SFld} (h : (k, f) ∈ F) : sizeOf f.type < sizeOf F := by
  have h1 := List.sizeOf_lt_of_mem h
  obtain ⟨nm, t, d, b, doc⟩ := f
  simp only [Prod.mk.sizeOf_spec, SFld.mk.sizeOf_spec] at h1
  show sizeOf t < _
  omega

/-- a harmless change from a dataclass is a change between dataclasses -/
theorem harmless_struct {path : List String} {n : String} {F : List (String × SFld)} {v : Option Int} {B : STy} {cs : List Change}
    (h : findChanges path B (.struct n F v) = .ok cs) (hh : ∀ c ∈ cs, Harmless c) :
    ∃ m G w cs', B = .struct m G w ∧ findFields path F G = .ok cs' ∧ (∀ c ∈ cs', Harmless c) ∧ ∀ c ∈ removedFields path G F, Harmless c := by
  cases B with
  | struct m G w =>
    simp only [findChanges, bind, Except.bind, pure, Except.pure] at h
    cases h1 : findFields path F G with
    | error e => rw [h1] at h; exact (nomatch h)
    | ok q =>
      rw [h1] at h
      cases h
      exact ⟨m, G, w, q, rfl, h1, fun c hc => hh c (List.mem_append_left _ hc), fun c hc => hh c (List.mem_append_right _ hc)⟩
  | _ =>
    simp only [findChanges] at h
    cases h
    have := (hh _ (List.mem_singleton.2 rfl)).2
    cases this

/-- a field of the old class is in the new class, with a harmless change -/
theorem old_field {path : List String} {F G : List (String × SFld)} {cs : List Change} (hc : findFields path F G = .ok cs)
    (hh : ∀ c ∈ cs, Harmless c) (hr : ∀ c ∈ removedFields path G F, Harmless c) (hg : ∀ k f, (k, f) ∈ F → NeS f.type) {k : String} {f : SFld}
    (hf : dget F k = some f) : ∃ g, dget G k = some g ∧ (∃ cs', findChanges (path ++ [k]) g.type f.type = .ok cs' ∧ ∀ c ∈ cs', Harmless c) ∧
      (f.hasDefault = true → g.hasDefault = true ∧ pyEq f.dflt g.dflt = true) := by
  have hm := dget_mem hf
  have hgood := hg k f hm
  cases h1 : dget G k with
  | none =>
    obtain ⟨p, t, d, b, hx⟩ := allGoneS_nonempty hgood path k
    exact (hr _ (removedFields_mem hm (by simp [dhas, h1]) _ hx)).elim
  | some g =>
    obtain ⟨cs', h2, h3⟩ := findFields_mem (dget_mem h1) hc
    obtain ⟨-, h4, h5⟩ := field_pair h2 hf (fun c hc => hh c (h3 c hc)) hgood
    exact ⟨g, rfl, h4, h5⟩

theorem new_field {path : List String} {F G : List (String × SFld)} {cs : List Change} (hc : findFields path F G = .ok cs)
    (hh : ∀ c ∈ cs, Harmless c) {fs : List Fld} (hm : materializeF fs = .ok G) (hn : (fs.map Fld.name).Nodup) {f : Fld} (hf : f ∈ fs)
    (hF : dget F f.name = .none) : ∃ kv, createField f = some kv := by
  obtain ⟨-, -, t, h1, h2⟩ := (matF_find hm f.name).1 f (find_of_mem hn hf)
  obtain ⟨cs', h3, h4⟩ := findFields_mem (dget_mem h2) hc
  exact field_new h1 h3 hF (fun c hc => hh c (h4 c hc))

theorem schemaFld_hasDefault (f : Fld) (t : STy) : (schemaFld f t).hasDefault = f.dflt.isSome := by
  show (schemaDefault f.dflt).2 = _
  cases hd : f.dflt with
  | none => rfl
  | some v => cases v <;> rfl

theorem createField_eq (f : Fld) : (∃ kv, createField f = some kv) ↔ (f.dflt.isSome = true ∨ ∃ v, createDefault f.ty = some v) := by
  obtain ⟨n, t, d⟩ := f
  cases d with
  | some d => simp [createField, Fld.dflt]
  | none =>
    simp only [createField, Fld.dflt, Fld.ty]
    cases h : createDefault t <;> simp

/-- if the old class can be constructed from its defaults, so can the new one -/
theorem create_mono : ∀ (N : Nat) (A B : STy) (ta tb : PyTy) (path : List String) (cs : List Change) (v : Val),
    sizeOf A + sizeOf B < N → materialize ta = .ok A → materialize tb = .ok B → GoodS true A → GoodS false B →
    findChanges path B A = .ok cs → (∀ c ∈ cs, Harmless c) → createDefault ta = some v → ∃ w, createDefault tb = some w := by
  intro N
  induction N with
  | zero => intro A B ta tb path cs v hN; exact absurd hN (Nat.not_lt_zero _)
  | succ N ih =>
    intro A B ta tb path cs v hN hA hB gA gB hc hh h
    cases ta <;> try (simp only [createDefault] at h; cases h; done)
    rename_i n fs ver
    obtain ⟨F, h1, hAe⟩ := mat_data hA
    generalize ver.map VerInfo.version = va at hAe
    subst hAe
    obtain ⟨m, G, w, cs', rfl, h2, h3, h4⟩ := harmless_struct hc hh
    obtain ⟨fs', ver', rfl, h5, -⟩ := mat_struct_inv hB
    simp only [createDefault] at h
    cases h6 : createFields fs with
    | none => rw [h6] at h; exact (nomatch h)
    | some kvs =>
      have h7 := createFields_inv fs kvs h6
      cases gA with | struct _ a1 a2 =>
      cases gB with | struct _ b1 b2 =>
      simp only [STy.struct.sizeOf_spec] at hN
      suffices hs : ∀ g ∈ fs', ∃ kv, createField g = some kv by
        obtain ⟨r, hr⟩ := createFields_of fs' hs
        exact ⟨.inst m r, by simp only [createDefault, hr]⟩
      intro g hg
      rw [matF_keys h5] at b1
      obtain ⟨-, -, t, g1, g2⟩ := (matF_find h5 g.name).1 g (find_of_mem b1 hg)
      cases h8 : dget F g.name with
      | none => exact new_field h2 h3 h5 b1 hg h8
      | some f =>
        obtain ⟨g', e1, ⟨cs2, e2, e3⟩, e4⟩ := old_field h2 h3 h4 (fun k f h => goodS_neS (a2 k f h)) h8
        rw [g2] at e1
        cases e1
        obtain ⟨f', t', f1, f2, f3, rfl⟩ := matF_dget h1 h8
        have hfm := List.mem_of_find?_eq_some f1
        have hkv := h7 f' hfm
        rw [createField_eq] at hkv ⊢
        rcases hkv with hd | ⟨v', hv'⟩
        · left
          rw [schemaFld_hasDefault, schemaFld_hasDefault] at e4
          exact (e4 hd).1
        · have s1 := sizeOf_type_lt (dget_mem h8)
          have s2 := sizeOf_type_lt (dget_mem g2)
          right
          exact ih t' t f'.ty g.ty _ cs2 v' (by
            have : sizeOf t' < sizeOf F := s1
            have : sizeOf t < sizeOf G := s2
            omega) f3 g1 (a2 _ _ (dget_mem h8)) (b2 _ _ (dget_mem g2)) e2 e3 hv'

/-- the claim for types of bounded size -/
def CompIH (c : DCfg) (N : Nat) : Prop := ∀ (A B : STy) (ta tb : PyTy) (p : List String) (cs : List Change) (path : String) (x : Val)
  (r : Val × List Ev), sizeOf A + sizeOf B < N → materialize ta = .ok A → materialize tb = .ok B → GoodS true A → GoodS false B →
  LitUsable c.ext B → Raw x → IntsFit x → findChanges p B A = .ok cs → (∀ c ∈ cs, Harmless c) →
  fromDict c ta false path x = .ok r → ∃ r', fromDict c tb false path x = .ok r' ∧ KeptR x r r'

/-- the fields of a dataclass -/
theorem fields_sound (c : DCfg) (N : Nat) (ih : CompIH c N) {fsa fsb : List Fld} {F G : List (String × SFld)} {p : List String}
    {cs : List Change} (hN : sizeOf F + sizeOf G ≤ N) (hF : materializeF fsa = .ok F) (hG : materializeF fsb = .ok G)
    (gF : GoodF true F) (gG : GoodF false G) (hl : LitUsableF c.ext G) (hc : findFields p F G = .ok cs)
    (hh : ∀ c ∈ cs, Harmless c) (hr : ∀ c ∈ removedFields p G F, Harmless c) (path : String) (d : List (String × Val))
    (hraw : ∀ k x, (k, x) ∈ d → Raw x) (hint : ∀ k x, (k, x) ∈ d → IntsFit x) (q : List (String × Val) × List Ev) (kvs : List (String × Val))
    (h1 : itemsLoop (fun k x => fdField c fsa k (fieldPath path k) x) false d = .ok q) (h2 : fillFields q.1 fsa = .ok kvs) :
    ∃ q' kvs', itemsLoop (fun k x => fdField c fsb k (fieldPath path k) x) false d = .ok q' ∧ fillFields q'.1 fsb = .ok kvs' ∧
      EvsLike q.2 q'.2 ∧ ∀ k a, dget d k = some a → k ≠ NAME_KEY → a.isWeak = false → ∃ v w, dget kvs k = some v ∧ dget kvs' k = some w ∧ Kept a v w ∧
        ∃ f es, fsa.find? (fun f => f.name == k) = some f ∧ fromDict c f.ty false (fieldPath path k) a = .ok (v, es) := by
  have gG1 : (fsb.map Fld.name).Nodup := by rw [← matF_keys hG]; exact gG.1
  obtain ⟨q', a1, a2, a3⟩ := itemsLoop_mono (g := fun k x => fdField c fsb k (fieldPath path k) x) d q (by
    intro k x s hm _ hs
    simp only [fdField_lookup] at hs ⊢
    cases h3 : fsa.find? (fun f => f.name == k) with
    | none => rw [h3] at hs; exact (nomatch hs)
    | some f =>
      rw [h3] at hs
      simp only [Option.map_some, Option.some.injEq] at hs
      obtain ⟨-, hfm, t, h4, h5⟩ := (matF_find hF k).1 f h3
      obtain ⟨g', e1, ⟨cs2, e2, e3⟩, -⟩ := old_field hc hh hr (fun k f h => goodS_neS (gF.2 k f h)) h5
      obtain ⟨g, u, e4, -, e5, rfl⟩ := matF_dget hG e1
      rw [e4]
      simp only [Option.map_some, Option.some.injEq]
      have s1 : sizeOf t < sizeOf F := sizeOf_type_lt (dget_mem h5)
      have s2 : sizeOf u < sizeOf G := sizeOf_type_lt (dget_mem e1)
      exact ih t u f.ty g.ty _ cs2 _ x s (by omega) h4 e5 (gF.2 _ _ (dget_mem h5)) (gG.2 _ _ (dget_mem e1))
        (litUsableF_mem (dget_mem e1) hl) (hraw k x hm) (hint k x hm) e2 e3 hs) h1
  obtain ⟨b1, b2⟩ := fillFields_inv q.1 fsa kvs h2
  have hfill : ∀ g ∈ fsb, ∃ v, fieldValue q'.1 g = .ok v := by
    intro g hg
    obtain ⟨-, -, t, g1, g2⟩ := (matF_find hG g.name).1 g (find_of_mem gG1 hg)
    cases h8 : dget F g.name with
    | none =>
      obtain ⟨kv, hkv⟩ := new_field hc hh hG gG1 hg h8
      exact createField_value hkv _
    | some f =>
      obtain ⟨g', e1, ⟨cs2, e2, e3⟩, e4⟩ := old_field hc hh hr (fun k f h => goodS_neS (gF.2 k f h)) h8
      rw [g2] at e1
      cases e1
      obtain ⟨f', t', f1, f2, f3, rfl⟩ := matF_dget hF h8
      obtain ⟨v, hv⟩ := b1 f' (List.mem_of_find?_eq_some f1)
      have hkeys : ∀ k, dget q.1 k = .none ↔ dget q'.1 k = .none := by
        intro k
        rw [dget_eq_none_iff, dget_eq_none_iff, a2.1]
      cases hq : dget q'.1 g.name with
      | some w => exact ⟨w, by simp only [fieldValue, hq]⟩
      | none =>
        have hq0 := (hkeys g.name).2 hq
        unfold fieldValue at hv
        rw [f2, hq0] at hv
        have : ∃ kv, createField f' = some kv := by
          rw [createField_eq]
          cases hd : f'.dflt with
          | some d => exact .inl rfl
          | none =>
            rw [hd] at hv
            right
            cases hcd : createDefault f'.ty with
            | none => rw [hcd] at hv; exact (nomatch hv)
            | some v => exact ⟨v, rfl⟩
        have hg' : ∃ kv, createField g = some kv := by
          rw [createField_eq] at this ⊢
          rcases this with hd | ⟨v', hv'⟩
          · left
            rw [schemaFld_hasDefault, schemaFld_hasDefault] at e4
            exact (e4 hd).1
          · exact .inr (create_mono _ t' t f'.ty g.ty _ cs2 v' (Nat.lt_succ_self _) f3 g1 (gF.2 _ _ (dget_mem h8)) (gG.2 _ _ (dget_mem g2)) e2 e3 hv')
        obtain ⟨kv, hkv⟩ := hg'
        exact createField_value hkv _
  obtain ⟨kvs', hk⟩ := fillFields_of q'.1 fsb hfill
  obtain ⟨-, c2⟩ := fillFields_inv q'.1 fsb kvs' hk
  refine ⟨q', kvs', a1, hk, a2.2, ?_⟩
  intro k a hd hk1 hw
  obtain ⟨v, w, e1, e2, e3, s, e4⟩ := a3 k a hd hk1 hw
  simp only [fdField_lookup] at e4
  cases h3 : fsa.find? (fun f => f.name == k) with
  | none => rw [h3] at e4; exact (nomatch e4)
  | some f =>
    obtain ⟨hn, hfm, t, h4, h5⟩ := (matF_find hF k).1 f h3
    obtain ⟨g', x1, -, -⟩ := old_field hc hh hr (fun k f h => goodS_neS (gF.2 k f h)) h5
    obtain ⟨g, u, x4, x5, -, rfl⟩ := matF_dget hG x1
    obtain ⟨v', y1, y2⟩ := b2 k f h3
    obtain ⟨w', z1, z2⟩ := c2 k g x4
    simp only [fieldValue, hn, e1, Except.ok.injEq] at y2
    simp only [fieldValue, x5, e2, Except.ok.injEq] at z2
    subst y2
    subst z2
    rw [h3] at e4
    simp only [Option.map_some, Option.some.injEq] at e4
    exact ⟨v, w, y1, z1, e3, f, s, rfl, e4⟩

theorem raw_entries {c : DCfg} {x : Val} (hx : Raw x) {d : List (String × Val)} (h : asRawDict c x = .ok d) :
    d = x.entries ∧ ∀ k y, (k, y) ∈ d → Inside y x := by
  have h0 := hx x .refl
  cases x <;> simp [Val.isRaw] at h0 <;>
    simp [asRawDict, bind, Except.bind, pure, Except.pure, throw, throwThe, MonadExceptOf.throw] at h
  · rename_i xs
    cases xs <;> simp at h
    subst h
    exact ⟨rfl, by simp⟩
  · subst h
    exact ⟨rfl, fun k y hm => .dict hm .refl⟩
  · subst h
    exact ⟨rfl, fun k y hm => .ntup hm .refl⟩

theorem Inside.trans {x y z : Val} (h1 : Inside x y) (h2 : Inside y z) : Inside x z := by
  induction h2 with
  | refl => exact h1
  | list a _ ih => exact .list a ih
  | tup a _ ih => exact .tup a ih
  | ntup a _ ih => exact .ntup a ih
  | dict a _ ih => exact .dict a ih

/-- the body of `from_dict` for dataclasses (after the version hook), for documents -/
theorem load_data_raw {c : DCfg} {n : String} {fs : List Fld} {path : String} {x : Val} (hx : Raw x) :
    fromDict c (.data n fs .none) false path x = (do
      let d ← asRawDict c x
      let (kwargs, es) ← itemsLoop (fun k x => fdField c fs k (fieldPath path k) x) false d
      let kvs ← fillFields kwargs fs
      return (.inst n kvs, es)) := by
  have h0 := hx x .refl
  cases x <;> simp [Val.isRaw] at h0 <;> simp [fromDict, bind, Except.bind, pure, Except.pure]

/-- two dataclasses, with what is needed of the fields set in the document -/
theorem struct_sound_fields (c : DCfg) (N : Nat) (ih : CompIH c N) {na nb : String} {fsa fsb : List Fld} {F G : List (String × SFld)} {p : List String}
    {cs : List Change} (hN : sizeOf F + sizeOf G ≤ N) (hF : materializeF fsa = .ok F) (hG : materializeF fsb = .ok G)
    (gF : GoodF true F) (gG : GoodF false G) (hl : LitUsableF c.ext G) (hc : findFields p F G = .ok cs)
    (hh : ∀ c ∈ cs, Harmless c) (hr : ∀ c ∈ removedFields p G F, Harmless c) (path : String) (x : Val) (hx : Raw x) (hi : IntsFit x)
    (r : Val × List Ev) (h : fromDict c (.data na fsa .none) false path x = .ok r) :
    ∃ r' ys zs, fromDict c (.data nb fsb .none) false path x = .ok r' ∧ KeptR x r r' ∧ r.1 = .inst na ys ∧ r'.1 = .inst nb zs ∧
      ∀ k a, dget x.entries k = some a → k ≠ NAME_KEY → a.isWeak = false → ∃ v w, dget ys k = some v ∧ dget zs k = some w ∧ Kept a v w ∧
        ∃ f es, fsa.find? (fun f => f.name == k) = some f ∧ fromDict c f.ty false (fieldPath path k) a = .ok (v, es) := by
  rw [load_data_raw hx] at h ⊢
  simp only [bind, Except.bind, pure, Except.pure] at h ⊢
  cases h1 : asRawDict c x with
  | error e => rw [h1] at h; exact (nomatch h)
  | ok d =>
    rw [h1] at h
    simp only at h ⊢
    obtain ⟨hd, hin⟩ := raw_entries hx h1
    cases h2 : itemsLoop (fun k x => fdField c fsa k (fieldPath path k) x) false d with
    | error e => rw [h2] at h; exact (nomatch h)
    | ok q =>
      rw [h2] at h
      simp only at h
      cases h3 : fillFields q.1 fsa with
      | error e => rw [h3] at h; exact (nomatch h)
      | ok kvs =>
        rw [h3] at h
        cases h
        obtain ⟨q', kvs', a1, a2, ae, a3⟩ := fields_sound c N ih hN hF hG gF gG hl hc hh hr path d
          (fun k y hm z hz => hx z (hz.trans (hin k y hm))) (fun k y hm i hz => hi i (hz.trans (hin k y hm))) q kvs h2 h3
        rw [a1]
        simp only [a2]
        refine ⟨_, kvs, kvs', rfl, ⟨.inst ?_ ?_, ae⟩, rfl, rfl, by rw [← hd]; exact a3⟩
        · intro k a hk hn hw
          rw [← hd] at hk
          obtain ⟨v, w, b1, b2, -⟩ := a3 k a hk hn hw
          simp [dhas, b1, b2]
        · intro k a v w hk hn hw hv hw'
          rw [← hd] at hk
          obtain ⟨v', w', b1, b2, b3, -⟩ := a3 k a hk hn hw
          rw [b1] at hv
          rw [b2] at hw'
          cases hv
          cases hw'
          exact b3

theorem struct_sound (c : DCfg) (N : Nat) (ih : CompIH c N) {na nb : String} {fsa fsb : List Fld} {F G : List (String × SFld)} {p : List String}
    {cs : List Change} (hN : sizeOf F + sizeOf G ≤ N) (hF : materializeF fsa = .ok F) (hG : materializeF fsb = .ok G)
    (gF : GoodF true F) (gG : GoodF false G) (hl : LitUsableF c.ext G) (hc : findFields p F G = .ok cs)
    (hh : ∀ c ∈ cs, Harmless c) (hr : ∀ c ∈ removedFields p G F, Harmless c) (path : String) (x : Val) (hx : Raw x) (hi : IntsFit x)
    (r : Val × List Ev) (h : fromDict c (.data na fsa .none) false path x = .ok r) :
    ∃ r', fromDict c (.data nb fsb .none) false path x = .ok r' ∧ KeptR x r r' := by
  obtain ⟨r', _, _, h1, h2, _⟩ := struct_sound_fields c N ih (na := na) (nb := nb) hN hF hG gF gG hl hc hh hr path x hx hi r h
  exact ⟨r', h1, h2⟩

theorem enum_twins {path : List String} {n : String} {vs ws : List (String × Val)} (hn : (vs.map Prod.fst).Nodup)
    (hh : ∀ c ∈ enumChanges path n vs ws, Harmless c) {k : String} {v : Val} (hm : (k, v) ∈ vs) : ∃ w, (k, w) ∈ ws ∧ pyEq v w = true := by
  simp only [enumChanges, List.mem_append, List.mem_flatMap] at hh
  cases h1 : dget ws k with
  | none => exact (hh (.variantRemoved path n k v) (.inr ⟨(k, v), hm, by simp [dhas, h1]⟩)).elim
  | some w =>
    have h2 := dget_mem h1
    refine ⟨w, h2, ?_⟩
    cases h3 : pyEq v w with
    | true => rfl
    | false =>
      exact (hh (.variantValueChanged path n k v w) (.inl ⟨(k, w), h2, by simp [dget_of_mem hn hm, h3]⟩)).elim

theorem literal_twins {path : List String} {vs ws : List Val} (hh : ∀ c ∈ literalChanges path vs ws, Harmless c) {v : Val} (hm : v ∈ vs) :
    pyMem v ws = true := by
  simp only [literalChanges, List.mem_append] at hh
  cases h : pyMem v ws with
  | true => rfl
  | false =>
    have hin : v ∈ vs.filter (fun v => !(pyMem v ws)) := List.mem_filter.2 ⟨hm, by simp [h]⟩
    have hne : (vs.filter (fun v => !(pyMem v ws))).isEmpty = false := by
      cases hl : vs.filter (fun v => !(pyMem v ws)) with
      | nil => rw [hl] at hin; exact (nomatch hin)
      | cons => rfl
    exact (hh (.literalRemoved path _) (.inr (by rw [if_neg (by simp [hne])]; exact List.mem_singleton.2 rfl))).elim

theorem comp_sound (c : DCfg) : ∀ N, CompIH c N := by
  intro N
  induction N with
  | zero => intro A B ta tb p cs path x r hN; exact absurd hN (Nat.not_lt_zero _)
  | succ N ih =>
    intro A B ta tb p cs path x r hN hA hB gA gB hl hx hi hc hh h
    -- a changed type
    have typ : cs = [.typeChanged p A B] → ∃ r', fromDict c tb false path x = .ok r' ∧ KeptR x r r' := by
      intro hcs
      have := hh _ (hcs ▸ List.mem_singleton.2 rfl)
      exact sub_sound c _ A B ta tb false path x r (Nat.lt_succ_self _) hA hB this.2 hl hi this.1 h
    cases B with
    | prim q =>
      cases A <;> simp only [findChanges, Except.ok.injEq] at hc <;> try exact typ hc.symm
      rename_i o
      by_cases ho : o = q
      · subst ho
        rcases mat_prim_inv hA with ⟨rfl, h1⟩ | ⟨rfl, h1⟩ | ⟨rfl, h1⟩ | ⟨rfl, h1⟩ <;> subst h1 <;>
          rcases mat_prim_inv hB with ⟨rfl, h2⟩ | ⟨rfl, h2⟩ | ⟨rfl, h2⟩ | ⟨rfl, h2⟩ <;> try exact absurd h2 (by decide)
        all_goals exact ⟨r, h, keptR_refl _ (prim_not_inst (by simp) h)⟩
      · exact typ (by rw [← hc]; simp [ho])
    | list u =>
      cases A <;> simp only [findChanges, Except.ok.injEq] at hc <;> try exact typ hc.symm
      rename_i t
      obtain ⟨a, rfl, ha⟩ := mat_list_inv hA
      obtain ⟨b, rfl, hb⟩ := mat_list_inv hB
      simp only [LitUsable] at hl
      simp only [STy.list.sizeOf_spec] at hN
      cases gA with | list gA =>
      cases gB with | list gB =>
      cases x <;> simp only [fromDict] at h <;> try (cases h; done)
      rename_i xs
      simp only [bind, Except.bind, pure, Except.pure] at h
      cases h1 : mapIdx (fun i x => fromDict c a false (path ++ "[" ++ i.repr ++ "]") x) 0 xs with
      | error e => rw [h1] at h; exact (nomatch h)
      | ok q =>
        have h2 := mapIdx_mono (g := fun i x => fromDict c b false (path ++ "[" ++ i.repr ++ "]") x) xs 0 q
          (fun j y r hy hr => ih t u a b p cs _ y r (by omega) ha hb gA gB hl (fun z hz => hx z (.list hy hz))
            (fun i hz => hi i (.list hy hz)) hc hh hr) h1
        obtain ⟨q', hq, hk⟩ := h2
        rw [h1] at h
        cases h
        exact ⟨(.list q'.1, q'.2), by simp only [fromDict, hq, bind, Except.bind, pure, Except.pure], .list hk.1.1 hk.1.2.1 hk.1.2.2, hk.2⟩
    | option u =>
      cases A <;> simp only [findChanges, Except.ok.injEq] at hc <;> try exact typ hc.symm
      rename_i t
      obtain ⟨a, rfl, ha⟩ := mat_option_inv hA
      obtain ⟨b, rfl, hb⟩ := mat_option_inv hB
      simp only [LitUsable] at hl
      simp only [STy.option.sizeOf_spec] at hN
      cases gA with | option gA =>
      cases gB with | option gB =>
      by_cases hv : x.isNone = true
      · refine ⟨(.none, []), by simp [fromDict, isOptionalArgs, PyTy.isNoneT, hv], ?_⟩
        simp [fromDict, isOptionalArgs, PyTy.isNoneT, hv] at h
        rw [← h]
        exact ⟨.refl nofun, trivial⟩
      · simp [fromDict, isOptionalArgs, PyTy.isNoneT, hv, fdHead] at h ⊢
        have := ih t u a b p cs path x r (by omega) ha hb gA gB hl hx hi hc hh h
        obtain ⟨r', h1, h2⟩ := this
        exact ⟨r'.1, r'.2, h1, h2⟩
    | struct nb G vb =>
      cases A <;> try (simp only [findChanges, Except.ok.injEq] at hc; exact typ hc.symm)
      rename_i na F va
      obtain ⟨m, G', w, cs', he, h2, h3, h4⟩ := harmless_struct hc hh
      cases he
      cases gA with | struct _ a1 a2 =>
      cases gB with | struct _ b1 b2 =>
      obtain ⟨fsa, ver, rfl, h5, hv⟩ := mat_struct_inv hA
      obtain ⟨fsb, ver', rfl, h6, hv'⟩ := mat_struct_inv hB
      cases ver <;> simp at hv
      cases ver' <;> simp at hv'
      simp only [STy.struct.sizeOf_spec] at hN
      simp only [LitUsable] at hl
      exact struct_sound c N ih (by omega) h5 h6 ⟨a1, a2⟩ ⟨b1, b2⟩ hl h2 h3 h4 path x hx hi r h
    | enum nb ws =>
      cases A <;> simp only [findChanges, Except.ok.injEq] at hc <;> try exact typ hc.symm
      rename_i na vs
      have := mat_enum_inv hA
      subst this
      have := mat_enum_inv hB
      subst this
      subst hc
      cases gA with | enum e1 e2 =>
      have key : fromDict c (.enum na vs) false path x = (do return (← enumByValue na x vs, [])) ∧
          fromDict c (.enum nb ws) false path x = (do return (← enumByValue nb x ws, [])) := by
        have h0 := hx x .refl
        cases x <;> simp [Val.isRaw] at h0 <;> exact ⟨rfl, rfl⟩
      rw [key.1] at h
      rw [key.2]
      simp only [bind, Except.bind, pure, Except.pure] at h ⊢
      cases h1 : enumByValue na x vs with
      | error e => rw [h1] at h; exact (nomatch h)
      | ok q =>
        rw [h1] at h
        cases h
        obtain ⟨m, w, h2, h3, rfl⟩ := enumByValue_inv h1
        obtain ⟨w', h4, h5⟩ := enum_twins e1 hh h2
        obtain ⟨q', hq⟩ := enumByValue_of (c := nb) h4 (pyEq_trans x w w' h3 h5)
        rw [hq]
        obtain ⟨m', w2, h6, h7, rfl⟩ := enumByValue_inv hq
        exact ⟨_, rfl, .same nofun (pyEq_trans w x w2 (pyEq_symm_right (e2 m w h2) h3) h7), trivial⟩
    | literal ws =>
      cases A <;> simp only [findChanges, Except.ok.injEq] at hc <;> try exact typ hc.symm
      rename_i vs
      have := mat_literal_inv hA
      subst this
      have := mat_literal_inv hB
      subst this
      subst hc
      obtain ⟨-, h2, rfl⟩ := load_literal h
      simp only [LitUsable] at hl
      exact ⟨_, load_literal_of (List.all_eq_true.2 hl) (pyMem_trans h2 (List.all_eq_true.2 fun w hw => literal_twins hh hw)), kept_litRead x, trivial⟩
    | tuple us => cases A <;> simp only [findChanges, Except.ok.injEq] at hc <;> first | exact typ hc.symm | exact (nomatch hc)
    | dict k v => cases A <;> simp only [findChanges, Except.ok.injEq] at hc <;> first | exact typ hc.symm | exact (nomatch hc)
    | union us => cases A <;> simp only [findChanges, Except.ok.injEq] at hc <;> first | exact typ hc.symm | exact (nomatch hc)
    | nothing => cases A <;> simp only [findChanges, Except.ok.injEq] at hc <;> first | exact typ hc.symm | exact (nomatch hc)

end HS
