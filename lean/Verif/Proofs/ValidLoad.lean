import Verif.Spec.ValidLoad
import Verif.Proofs.Valid
import Verif.Proofs.CompatMain
/-!
# Lemmas: documents valid for a schema load with a class whose schema differs harmlessly
-/
namespace HS

theorem MidS.neS {A : STy} (h : MidS A) : NeS A := by
  induction h with
  | struct h1 _ _ ih => exact .struct h1 ih
  | option => exact .other rfl
  | leaf h => exact .other h

theorem itemsLoop_of {f : String → Val → Option Res} : ∀ (d : List (String × Val)),
    (∀ k x, (k, x) ∈ d → k ≠ NAME_KEY → x.isWeak = false → ∃ q, f k x = some (.ok q)) →
    ∃ r, itemsLoop f false d = .ok r ∧ ∀ k x, dget d k = some x → k ≠ NAME_KEY → x.isWeak = false → ∃ v, dget r.1 k = some v
  | [], _ => ⟨([], []), rfl, fun k x h => nomatch h⟩
  | (k, x) :: d, h => by
    obtain ⟨r, h1, h2⟩ := itemsLoop_of d (fun k' x' hm => h k' x' (List.mem_cons_of_mem _ hm))
    by_cases hk : k = NAME_KEY
    · refine ⟨r, by simp only [itemsLoop, if_pos hk]; exact h1, fun k' x' hd hk' hw' => ?_⟩
      have hne : k ≠ k' := by rintro rfl; exact hk' hk
      simp only [dget, if_neg hne] at hd
      exact h2 k' x' hd hk' hw'
    · by_cases hw : x.isWeak = true
      · refine ⟨r, by simp only [itemsLoop, if_neg hk, if_pos hw]; exact h1, fun k' x' hd hk' hw' => ?_⟩
        by_cases he : k = k'
        · subst he
          simp only [dget, if_true] at hd
          cases hd
          rw [hw] at hw'
          exact (nomatch hw')
        · simp only [dget, if_neg he] at hd
          exact h2 k' x' hd hk' hw'
      · obtain ⟨q, hq⟩ := h k x (List.mem_cons_self ..) hk (by simpa using hw)
        refine ⟨((k, q.1) :: r.1, q.2 ++ r.2), ?_, fun k' x' hd hk' hw' => ?_⟩
        · simp only [itemsLoop, if_neg hk, if_neg hw, hq, h1, bind, Except.bind, pure, Except.pure]
        · by_cases he : k = k'
          · exact ⟨q.1, by simp [dget, he]⟩
          · simp only [dget, if_neg he] at hd ⊢
            exact h2 k' x' hd hk' hw'

/-- a field that may be left out still may after harmless changes -/
theorem omit_create {f : SFld} (ho : Omit f) : ∀ (g : Fld) (t : STy) (p : List String) (cs : List Change), materialize g.ty = .ok t → NeS f.type →
    GoodS false t → findChanges p t f.type = .ok cs → (∀ c ∈ cs, Harmless c) → (f.hasDefault = true → (schemaFld g t).hasDefault = true) →
    ∃ kv, createField g = some kv := by
  induction ho with
  | dflt =>
    intro g t p cs _ _ _ _ _ hd
    rw [createField_eq]
    have := hd rfl
    rw [schemaFld_hasDefault] at this
    exact .inl this
  | @struct nm m fs v d h doc hall ih =>
    intro g t p cs hm hne hgood hc hh hd
    rw [createField_eq]
    right
    obtain ⟨m', G, w, cs', rfl, h2, h3, h4⟩ := harmless_struct hc hh
    obtain ⟨fs', ver', hty, h5, -⟩ := mat_struct_inv hm
    rw [hty]
    cases hgood with | struct _ b1 b2 =>
    rw [matF_keys h5] at b1
    cases hne with
    | other h => exact (nomatch h)
    | struct _ hne =>
    suffices hs : ∀ g ∈ fs', ∃ kv, createField g = some kv by
      obtain ⟨r, hr⟩ := createFields_of fs' hs
      exact ⟨_, by simp only [createDefault, hr]; rfl⟩
    intro g hg
    obtain ⟨-, -, t, g1, g2⟩ := (matF_find h5 g.name).1 g (find_of_mem b1 hg)
    cases h8 : dget fs g.name with
    | none => exact new_field h2 h3 h5 b1 hg h8
    | some f =>
      obtain ⟨g', e1, ⟨cs2, e2, e3⟩, e4⟩ := old_field h2 h3 h4 hne h8
      rw [g2] at e1
      cases e1
      exact ih _ _ h8 g t _ cs2 g1 (hne _ _ (dget_mem h8)) (b2 _ _ (dget_mem g2)) e2 e3 (fun h => (e4 h).1)

/-- the claim for types of bounded size -/
def ValidIH (c : DCfg) (N : Nat) : Prop := ∀ (A B : STy) (tb : PyTy) (p : List String) (cs : List Change) (x : Val), sizeOf A + sizeOf B < N →
    materialize tb = .ok B → MidS A → GoodS false B → LitUsable c.ext B → Raw x → IntsFit x → findChanges p B A = .ok cs →
    (∀ c ∈ cs, Harmless c) → Valid (LoadsAs c) A x → x.isWeak = false → ∀ path, ∃ r, fromDict c tb false path x = .ok r

/-- the fields of a dataclass -/
theorem valid_fields (c : DCfg) (N : Nat) (ih : ValidIH c N) {n m : String} {v : Option Int} {fsb : List Fld} {F G : List (String × SFld)}
    {p : List String} {cs : List Change} (hN : sizeOf F + sizeOf G ≤ N) (h6 : materializeF fsb = .ok G) (hF : MidS (.struct n F v))
    (gG : GoodF false G) (hl : LitUsableF c.ext G) (h2 : findFields p F G = .ok cs) (h3 : ∀ c ∈ cs, Harmless c)
    (h4 : ∀ c ∈ removedFields p G F, Harmless c) (x : Val) (hx : Raw x) (hi : IntsFit x) (hv : Valid (LoadsAs c) (.struct n F v) x)
    (hxw : x.isWeak = false) (path : String) : ∃ r, fromDict c (.data m fsb .none) false path x = .ok r := by
  obtain ⟨b1, b2⟩ := gG
  cases hF with
  | leaf h => exact (nomatch h)
  | struct hF1 hFn hF2 =>
  obtain ⟨d, rfl, hnd, hkeys, hreq⟩ := (valid_struct ..).1 hv
  have hneF : ∀ k f, (k, f) ∈ F → NeS f.type := fun k f h => (hF2 k f h).neS
  have b1' : (fsb.map Fld.name).Nodup := by rw [← matF_keys h6]; exact b1
  have hdw : dhas d WEAK_REF = false := hxw
  obtain ⟨q, q1, q2⟩ := itemsLoop_of (f := fun k x => fdField c fsb k (fieldPath path k) x) d (by
    intro k y hm hk hyw
    have hd := dget_of_mem hnd hm
    rcases hkeys k y hd with (rfl | h) | ⟨f, hf, hvf⟩
    · simp [dhas, hd] at hdw
    · exact absurd h hk
    · obtain ⟨g', e1, ⟨cs2, e2, e3⟩, -⟩ := old_field h2 h3 h4 hneF hf
      obtain ⟨g, u, e4, -, e5, rfl⟩ := matF_dget h6 e1
      have s1 : sizeOf f.type < sizeOf F := sizeOf_type_lt (dget_mem hf)
      have s2 : sizeOf u < sizeOf G := sizeOf_type_lt (dget_mem e1)
      obtain ⟨r, hr⟩ := ih f.type u g.ty _ cs2 y (by omega) e5 (hF2 _ _ (dget_mem hf)) (b2 _ _ (dget_mem e1))
        (litUsableF_mem (dget_mem e1) hl) (fun z hz => hx z (.dict hm hz)) (fun z hz => hi z (.dict hm hz)) e2 e3 hvf hyw (fieldPath path k)
      exact ⟨r, by rw [fdField_lookup, e4]; simp [hr]⟩)
  have hfill : ∀ g ∈ fsb, ∃ v, fieldValue q.1 g = .ok v := by
    intro g hg
    obtain ⟨-, -, t, g1, g2⟩ := (matF_find h6 g.name).1 g (find_of_mem b1' hg)
    cases h8 : dget F g.name with
    | none =>
      obtain ⟨kv, hkv⟩ := new_field h2 h3 h6 b1' hg h8
      exact createField_value hkv _
    | some f =>
      obtain ⟨g', e1, ⟨cs2, e2, e3⟩, e4⟩ := old_field h2 h3 h4 hneF h8
      rw [g2] at e1
      cases e1
      rcases hreq hdw _ _ h8 with ⟨y, hy, hyw⟩ | ho
      · have hk : g.name ≠ NAME_KEY := fun h => hFn (h ▸ List.mem_map_of_mem (dget_mem h8))
        obtain ⟨v, hv⟩ := q2 _ y hy hk hyw
        exact ⟨v, by simp only [fieldValue, hv]⟩
      · obtain ⟨kv, hkv⟩ := omit_create ho g t _ cs2 g1 (hneF _ _ (dget_mem h8)) (b2 _ _ (dget_mem g2)) e2 e3 (fun h => (e4 h).1)
        exact createField_value hkv _
  obtain ⟨kvs, hk⟩ := fillFields_of q.1 fsb hfill
  exact ⟨(.inst m kvs, q.2), by simp [fromDict, asRawDict, q1, hk, bind, Except.bind, pure, Except.pure]⟩

/-- A document valid for a schema loads with every class whose schema differs harmlessly (main induction). -/
theorem valid_comp (c : DCfg) : ∀ N, ValidIH c N := by
  intro N
  induction N with
  | zero => intro A B tb p cs x hN; exact absurd hN (Nat.not_lt_zero _)
  | succ N ih =>
    intro A B tb p cs x hN hB hA gB hl hx hi hc hh hv hxw path
    cases A with
    | struct n F v =>
      obtain ⟨m, G, w, cs', rfl, h2, h3, h4⟩ := harmless_struct hc hh
      cases gB with | struct _ b1 b2 =>
      obtain ⟨fsb, ver', rfl, h6, hv'⟩ := mat_struct_inv hB
      cases ver' <;> simp at hv'
      simp only [STy.struct.sizeOf_spec] at hN
      simp only [LitUsable] at hl
      exact valid_fields c N ih (by omega) h6 hA ⟨b1, b2⟩ hl h2 h3 h4 x hx hi hv hxw path
    | option t =>
      cases hA with
      | leaf _ h => exact absurd rfl (h _)
      | option ht =>
      cases B with
      | option u =>
        simp only [findChanges] at hc
        obtain ⟨b, rfl, hb⟩ := mat_option_inv hB
        simp only [LitUsable] at hl
        simp only [STy.option.sizeOf_spec] at hN
        cases gB with | option gB =>
        by_cases hn : x.isNone = true
        · exact ⟨(.none, []), by simp [fromDict, isOptionalArgs, PyTy.isNoneT, hn]⟩
        · rcases hv with rfl | hv
          · exact absurd rfl hn
          · obtain ⟨r, hr⟩ := ih t u b p cs x (by omega) hb ht gB hl hx hi hc hh hv hxw path
            exact ⟨r, by simp [fromDict, isOptionalArgs, PyTy.isNoneT, hn, fdHead, hr]⟩
      | _ =>
        simp only [findChanges] at hc
        cases hc
        have := (hh _ (List.mem_singleton.2 rfl)).2
        cases this
    | _ =>
      cases hA with
      | leaf hs ho hg =>
      obtain ⟨ta, h1, h2⟩ := (show LoadsAs c _ x from hv)
      obtain ⟨r, hr⟩ := h2 path
      obtain ⟨r', hr', -⟩ := comp_sound c _ _ B ta tb p cs path x r (Nat.lt_succ_self _) h1 hB hg gB hl hx hi hc hh hr
      exact ⟨r', hr'⟩

end HS
