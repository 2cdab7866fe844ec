import Verif.Proofs.Overrides
import Verif.Props.FromDict
import Verif.Spec.Example
/-!
# Overrides: C11, C12, C13
-/
namespace HS

/-- the text `o` of an override is `path=s`: the key is everything before the first `=`, its segments are separated by dots -/
def IsOv (o : String) (key : String) (p : List String) (s : String) : Prop :=
  o = key ++ "=" ++ s ∧ '=' ∉ key.toList ∧ p = pySplit '.' key

/-- the spellings of a boolean -/
def boolSpelling : Bool → List String
  | true => ["True", "true", "1", "t", "T"]
  | false => ["False", "false", "0", "f", "F"]

/-- what the text `s` of an override denotes for a field of type `t`: itself for a string, one of the spellings for a
boolean, the parsed RON expression for anything else -/
inductive OvVal (ron : RonParse) : PyTy → String → Val → Prop
  | str (s) : OvVal ron .str s (.str s)
  | bool {b s} : s ∈ boolSpelling b → OvVal ron .bool s (.bool b)
  | other {t s v} : t ≠ .str → t ≠ .bool → ron s = .ok v → OvVal ron t s v

theorem split1C_iff (c : Char) : ∀ (cs k v : List Char), split1C c cs = (k, some v) ↔ cs = k ++ c :: v ∧ c ∉ k := by
  intro cs
  induction cs with
  | nil => intro k v; simp [split1C]
  | cons x xs ih =>
    intro k v
    simp only [split1C]
    by_cases h : x = c
    · subst h
      simp only [if_true, Prod.mk.injEq, Option.some.injEq]
      constructor
      · rintro ⟨rfl, rfl⟩; simp
      · rintro ⟨h1, h2⟩
        cases k with
        | nil => simp at h1; exact ⟨rfl, h1⟩
        | cons y k => simp at h1; exact absurd (by simp [h1.1]) h2
    · simp only [if_neg h, Prod.mk.injEq]
      cases k with
      | nil => simp [h]
      | cons y k =>
        constructor
        · rintro ⟨h1, h2⟩
          simp at h1
          obtain ⟨h3, h4⟩ := (ih k v).1 (by rw [← h1.2, ← h2])
          exact ⟨by simp [h1.1, h3], by simp [← h1.1, h4]; exact fun e => h e.symm⟩
        · rintro ⟨h1, h2⟩
          simp at h1 h2
          have := (ih k v).2 ⟨h1.2, h2.2⟩
          exact ⟨by rw [this, h1.1], by rw [this]⟩

theorem splitOverride_iff (o key s : String) : splitOverride o = some (key, s) ↔ o = key ++ "=" ++ s ∧ '=' ∉ key.toList := by
  simp only [splitOverride]
  have hstr : (o = key ++ "=" ++ s) ↔ o.toList = key.toList ++ '=' :: s.toList := by
    constructor
    · rintro rfl; simp
    · intro h
      apply String.toList_inj.1
      simp [h]
  constructor
  · intro h
    split at h
    · rename_i k v hk
      simp only [Option.some.injEq, Prod.mk.injEq] at h
      obtain ⟨rfl, rfl⟩ := h
      rw [hstr]
      simpa using (split1C_iff _ _ _ _).1 hk
    · simp at h
  · rintro ⟨h1, h2⟩
    rw [(split1C_iff '=' o.toList key.toList s.toList).2 ⟨hstr.1 h1, h2⟩]
    simp

theorem isOv_of_split {o key s : String} (h : splitOverride o = some (key, s)) : IsOv o key (pySplit '.' key) s :=
  ⟨((splitOverride_iff _ _ _).1 h).1, ((splitOverride_iff _ _ _).1 h).2, rfl⟩

theorem split_of_isOv {o key s : String} {p : List String} (h : IsOv o key p s) : splitOverride o = some (key, s) :=
  (splitOverride_iff _ _ _).2 ⟨h.1, h.2.1⟩

theorem splitC_ne_nil (c : Char) : ∀ cs : List Char, splitC c cs ≠ [] := by
  intro cs
  cases cs with
  | nil => simp [splitC]
  | cons x xs =>
    simp only [splitC]
    split
    · simp
    · split <;> simp

theorem pySplit_ne_nil (c : Char) (s : String) : pySplit c s ≠ [] := by
  simp [pySplit, splitC_ne_nil]

/-! ## the loop -/

theorem overridesLoop_frame (ron : RonParse) (sfs : List (String × SFld)) : ∀ (os : List String) (sd : Val) (stale : Option Val)
    (errs : List String) (sd' : Val) (errs' : List String), overridesLoop ron sfs os sd stale errs = .ok (sd', errs') →
    ∀ q, (∀ o ∈ os, ∀ key p s, IsOv o key p s → Unrelated p q) → sd'.at? q = sd.at? q := by
  intro os
  induction os with
  | nil => intro sd st errs sd' errs' h q _; simp [overridesLoop] at h; rw [h.1]
  | cons o os ih =>
    intro sd st errs sd' errs' h q hq
    simp only [overridesLoop] at h
    split at h
    · simp at h
    · rename_i key s hs
      have hov := isOv_of_split hs
      split at h
      · exact ih _ _ _ _ _ h q (fun o' ho' => hq o' (List.mem_cons_of_mem _ ho'))
      · simp only [bind, Except.bind] at h
        split at h
        · simp at h
        · split at h
          · simp at h
          · rename_i hset
            rw [ih _ _ _ _ _ h q (fun o' ho' => hq o' (List.mem_cons_of_mem _ ho'))]
            exact (setPath_spec _ hset).2.1 q (hq o (by simp) key _ s hov)

theorem overridesLoop_errs (ron : RonParse) (sfs : List (String × SFld)) : ∀ (os : List String) (sd : Val) (stale : Option Val)
    (errs : List String) (sd' : Val) (errs' : List String), overridesLoop ron sfs os sd stale errs = .ok (sd', errs') →
    ∃ new, errs' = errs ++ new := by
  intro os
  induction os with
  | nil => intro sd st errs sd' errs' h; simp [overridesLoop] at h; exact ⟨[], by simp [h.2]⟩
  | cons o os ih =>
    intro sd st errs sd' errs' h
    simp only [overridesLoop] at h
    split at h
    · simp at h
    · split at h
      · obtain ⟨new, hn⟩ := ih _ _ _ _ _ h
        exact ⟨_ :: new, by rw [hn]; simp; rfl⟩
      · simp only [bind, Except.bind] at h
        split at h
        · simp at h
        · split at h
          · simp at h
          · exact ih _ _ _ _ _ h

theorem materialize_isStr {t : PyTy} {s : STy} (h : materialize t = .ok s) :
    (s.isPrim "str" = true ↔ t = .str) ∧ (s.isPrim "bool" = true ↔ t = .bool) := by
  cases t <;> simp only [materialize] at h <;>
    first
    | (simp only [Except.ok.injEq] at h; subst h; simp [STy.isPrim]; done)
    | (simp at h; done)
    | skip
  case union as =>
    split at h
    · rename_i ho
      obtain ⟨t, rfl⟩ := isOptionalArgs_iff.1 ho
      simp only [materializeOpt, bind, Except.bind, pure, Except.pure] at h
      split at h
      · simp at h
      · simp at h; subst h; simp [STy.isPrim]
    · simp only [bind, Except.bind, pure, Except.pure] at h
      split at h
      · simp at h
      · simp at h; subst h; simp [STy.isPrim]
  all_goals
    try simp only [bind, Except.bind, pure, Except.pure] at h
    repeat' split at h
    all_goals first | (simp at h; done) | (simp at h; subst h; simp [STy.isPrim])

theorem parseBool_iff (s : String) (b : Bool) : parseBool s = some b ↔ s ∈ boolSpelling b := by
  simp only [parseBool]
  cases b
  · simp only [boolSpelling, List.mem_cons, List.not_mem_nil, or_false]
    split
    · rename_i h
      rcases h with rfl | rfl | rfl | rfl | rfl <;> decide
    · split <;> simp_all
  · simp only [boolSpelling, List.mem_cons, List.not_mem_nil, or_false]
    split
    · simp_all
    · split <;> simp_all

theorem overrideVal_ovVal {ron : RonParse} {t : PyTy} {st : STy} {s : String} {stale : Option Val} {v : Val}
    (ht : materialize t = .ok st) (hrec : t = .bool → ∃ b, s ∈ boolSpelling b)
    (h : overrideVal ron st s stale = .ok v) : OvVal ron t s v := by
  obtain ⟨h1, h2⟩ := materialize_isStr ht
  simp only [overrideVal] at h
  split at h
  · rename_i hs
    rw [h1.1 hs]; simp at h; subst h; exact .str s
  · rename_i hs
    split at h
    · rename_i hb
      have := h2.1 hb
      subst this
      obtain ⟨b, hb'⟩ := hrec rfl
      rw [(parseBool_iff s b).2 hb'] at h
      simp at h; subst h
      exact .bool hb'
    · rename_i hb
      exact .other (fun e => hs (h1.2 e)) (fun e => hb (h2.2 e)) h

theorem ovVal_overrideVal {ron : RonParse} {t : PyTy} {st : STy} {s : String} (stale : Option Val) {v : Val}
    (ht : materialize t = .ok st) (h : OvVal ron t s v) : overrideVal ron st s stale = .ok v := by
  obtain ⟨h1, h2⟩ := materialize_isStr ht
  cases h with
  | str => simp [overrideVal, h1.2 rfl]
  | @bool b _ hb =>
    have hns : st.isPrim "str" = false := by
      cases hx : st.isPrim "str"
      · rfl
      · exact absurd (h1.1 hx) (by simp)
    simp [overrideVal, hns, h2.2 rfl, (parseBool_iff s b).2 hb]
  | other hs hb hr =>
    have hns : st.isPrim "str" = false := by
      cases hx : st.isPrim "str"
      · rfl
      · exact absurd (h1.1 hx) hs
    have hnb : st.isPrim "bool" = false := by
      cases hx : st.isPrim "bool"
      · rfl
      · exact absurd (h2.1 hx) hb
    simp [overrideVal, hns, hnb, hr]

theorem overridesLoop_append (ron : RonParse) (sfs : List (String × SFld)) : ∀ (pre post : List String) (sd : Val)
    (stale : Option Val) (errs : List String) (r : Val × List String),
    overridesLoop ron sfs (pre ++ post) sd stale errs = .ok r →
    ∃ sd1 st1 errs1, overridesLoop ron sfs pre sd stale errs = .ok (sd1, errs1) ∧
      overridesLoop ron sfs post sd1 st1 errs1 = .ok r := by
  intro pre
  induction pre with
  | nil => intro post sd st errs r h; exact ⟨sd, st, errs, rfl, h⟩
  | cons o pre ih =>
    intro post sd st errs r h
    simp only [List.cons_append, overridesLoop] at h ⊢
    split at h
    · simp at h
    · split at h
      · exact ih _ _ _ _ _ h
      · simp only [bind, Except.bind] at h ⊢
        split at h
        · simp at h
        · split at h
          · simp at h
          · exact ih _ _ _ _ _ h

theorem applyOverrides_ok {ron : RonParse} {n : String} {fs : List Fld} {ver : Option VerInfo} {os : List String}
    {doc doc' : Val} (h : applyOverrides ron (.data n fs ver) os doc = .ok doc') :
    ∃ sfs, materializeF fs = .ok sfs ∧ overridesLoop ron sfs os doc .none [] = .ok (doc', []) := by
  simp only [applyOverrides, bind, Except.bind, pure, Except.pure] at h
  cases hm : materialize (.data n fs ver) with
  | error e => simp [hm] at h
  | ok s =>
    obtain ⟨sfs, hf, rfl⟩ := materialize_data hm
    simp only [hm] at h
    cases hl : overridesLoop ron sfs os doc .none [] with
    | error e => simp [hl] at h
    | ok r =>
      obtain ⟨d, errs⟩ := r
      simp only [hl] at h
      split at h
      · simp at h
        subst h
        exact ⟨sfs, hf, hl⟩
      · simp [throw, throwThe, MonadExceptOf.throw] at h
      · simp [throw, throwThe, MonadExceptOf.throw] at h

/-! ## C11 -/

/-- C11: when the overrides apply, each of them names a field, and unless a later one concerns a related path the document
holds at its path the value it denotes (for a boolean: if it is spelled like one). Objects on the way exist. Missing: booleans that are not spelled like one, which take over
another override's value (`C13_false`). -/
theorem C11_override_wins_partial (ron : RonParse) (n : String) (fs : List Fld) (ver : Option VerInfo) (doc doc' : Val)
    (pre post : List String) (o key s : String) (p : List String)
    (h : applyOverrides ron (.data n fs ver) (pre ++ o :: post) doc = .ok doc') (hov : IsOv o key p s)
    (hlast : ∀ o' ∈ post, ∀ key' p' s', IsOv o' key' p' s' → Unrelated p' p) :
    ∃ t v, FieldAt fs p t ∧ doc'.at? p = some v ∧ ((t = .bool → ∃ b, s ∈ boolSpelling b) → OvVal ron t s v) := by
  obtain ⟨sfs, hf, hl⟩ := applyOverrides_ok h
  obtain ⟨sd1, st1, errs1, _, hrest⟩ := overridesLoop_append ron sfs pre (o :: post) doc _ _ _ hl
  simp only [overridesLoop, split_of_isOv hov] at hrest
  rw [← hov.2.2] at hrest
  split at hrest
  · obtain ⟨new, hn⟩ := overridesLoop_errs _ _ _ _ _ _ _ _ hrest
    simp at hn
  · rename_i sf hff
    obtain ⟨t, ht, hmt⟩ := (findField_iff p hf).2 sf hff
    simp only [bind, Except.bind] at hrest
    split at hrest
    · simp at hrest
    · rename_i v hv
      split at hrest
      · simp at hrest
      · rename_i sd2 hset
        refine ⟨t, v, ht, ?_, fun hb => overrideVal_ovVal hmt hb hv⟩
        rw [overridesLoop_frame _ _ _ _ _ _ _ _ hrest p hlast]
        exact (setPath_spec v hset).1

/-- C11: a path unrelated to all overridden paths keeps its value. -/
theorem C11_frame (ron : RonParse) (n : String) (fs : List Fld) (ver : Option VerInfo) (doc doc' : Val) (os : List String)
    (h : applyOverrides ron (.data n fs ver) os doc = .ok doc') (q : List String)
    (hq : ∀ o ∈ os, ∀ key p s, IsOv o key p s → Unrelated p q) : doc'.at? q = doc.at? q := by
  obtain ⟨sfs, _, hl⟩ := applyOverrides_ok h
  exact overridesLoop_frame _ _ _ _ _ _ _ _ hl q hq

/-- a well formed override of the class: it names a field and its text denotes a value -/
def GoodOv (ron : RonParse) (fs : List Fld) (o : String) (p : List String) : Prop :=
  ∃ key s t v, IsOv o key p s ∧ FieldAt fs p t ∧ OvVal ron t s v

/-- C11: overrides of fields at paths none of which extends an earlier one succeed on every document in which the ancestors
that are present are objects or `None`; missing objects and `None`s are replaced by objects. -/
theorem C11_creates (ron : RonParse) (n : String) (fs : List Fld) (ver : Option VerInfo) (sfs : List (String × SFld))
    (hm : materializeF fs = .ok sfs) (ops : List (String × List String)) (doc : Val) (hd : doc.isDict = true)
    (hgood : ∀ op ∈ ops, GoodOv ron fs op.1 op.2) (hw : ∀ op ∈ ops, Walkable doc op.2)
    (hsep : ops.Pairwise (fun a b => ¬ a.2 <+: b.2)) :
    ∃ doc', applyOverrides ron (.data n fs ver) (ops.map Prod.fst) doc = .ok doc' := by
  have key : ∀ (ops : List (String × List String)) (sd : Val) (stale : Option Val), sd.isDict = true →
      (∀ op ∈ ops, GoodOv ron fs op.1 op.2) → (∀ op ∈ ops, Walkable sd op.2) →
      ops.Pairwise (fun a b => ¬ a.2 <+: b.2) →
      ∃ sd', overridesLoop ron sfs (ops.map Prod.fst) sd stale [] = .ok (sd', []) := by
    intro ops
    induction ops with
    | nil => intro sd st _ _ _ _; exact ⟨sd, rfl⟩
    | cons op ops ih =>
      intro sd st hd hg hw hs
      obtain ⟨o, p⟩ := op
      obtain ⟨key, s, t, v, hov, hft, hval⟩ := hg (o, p) (by simp)
      obtain ⟨sf, hff, hmt⟩ := (findField_iff p hm).1 t hft
      simp only at hov hft hff
      have hp : p ≠ [] := by rw [hov.2.2]; exact pySplit_ne_nil _ _
      obtain ⟨sd', hset⟩ := setPath_ok v hp hd (hw (o, p) (by simp))
      rw [List.pairwise_cons] at hs
      obtain ⟨sd'', hfin⟩ := ih sd' (some v) (setPath_isDict hset).2 (fun op h => hg op (List.mem_cons_of_mem _ h))
        (fun op h => walkable_setPath hset (hs.1 op h) (hw op (List.mem_cons_of_mem _ h))) hs.2
      refine ⟨sd'', ?_⟩
      simp only [List.map_cons, overridesLoop, split_of_isOv hov]
      rw [← hov.2.2]
      simp only [hff, ovVal_overrideVal st hmt hval, hset, bind, Except.bind]
      exact hfin
  obtain ⟨doc', h⟩ := key ops doc .none hd hgood hw hsep
  refine ⟨doc', ?_⟩
  simp only [applyOverrides, materialize, hm, bind, Except.bind, pure, Except.pure, h]

/-- a document without the object `sub` and with `net` set to `None`; two overrides -/
def Ex.ovTy : List Fld := [.mk "net" (.optional Ex.netTy) none, .mk "flag" .bool none, .mk "name" .str none]
def Ex.ovRon : RonParse := fun s => if s = "5" then .ok (.int 5) else .error .valueError

example : applyOverrides Ex.ovRon (.data "C" Ex.ovTy none) ["net.n=5", "name=a=b"] (.dict [("net", .none), ("flag", .bool true)])
    = .ok (.dict [("net", .dict [("n", .int 5)]), ("flag", .bool true), ("name", .str "a=b")]) := rfl

example : IsOv "net.n=5" "net.n" ["net", "n"] "5" ∧ IsOv "name=a=b" "name" ["name"] "a=b" ∧
    Unrelated ["name"] ["net", "n"] := by
  refine ⟨⟨rfl, by decide, rfl⟩, ⟨rfl, by decide, rfl⟩, by simp [Unrelated]⟩

example : GoodOv Ex.ovRon Ex.ovTy "net.n=5" ["net", "n"] :=
  ⟨"net.n", "5", .int, .int 5, ⟨rfl, by decide, rfl⟩, .there (f := .mk "net" (.optional Ex.netTy) none) rfl (.opt (.refl _ _ _))
    (.here (f := .mk "n" .int (some (.int 4))) rfl), .other (by simp) (by simp) rfl⟩

/-! ## C12 -/

/-- the overrides that name a field, and the keys of those that do not, in order -/
inductive Sorted (fs : List Fld) : List String → List String → List String → Prop
  | nil : Sorted fs [] [] []
  | good {o key p s t os g b} : IsOv o key p s → FieldAt fs p t → Sorted fs os g b → Sorted fs (o :: os) (o :: g) b
  | bad {o key p s os g b} : IsOv o key p s → (¬ ∃ t, FieldAt fs p t) → Sorted fs os g b → Sorted fs (o :: os) g (key :: b)

/-- the error for these unknown keys -/
def unknownErr : List String → Err
  | [k] => .fieldNotFound k
  | ks => .fieldsNotFound ks

theorem overridesLoop_sorted (ron : RonParse) {fs : List Fld} {sfs : List (String × SFld)} (hm : materializeF fs = .ok sfs)
    {os g b : List String} (h : Sorted fs os g b) : ∀ (sd : Val) (stale : Option Val) (errs : List String),
    overridesLoop ron sfs os sd stale errs = (overridesLoop ron sfs g sd stale []).map (fun r => (r.1, errs ++ b)) := by
  induction h with
  | nil => intro sd st errs; simp [overridesLoop, Except.map]
  | @good o key p s t os g b hov hft _ ih =>
    intro sd st errs
    obtain ⟨sf, hff, _⟩ := (findField_iff p hm).1 t hft
    simp only [overridesLoop, split_of_isOv hov]
    rw [← hov.2.2]
    simp only [hff, bind, Except.bind]
    split
    · rfl
    · split
      · rfl
      · exact ih _ _ _
  | @bad o key p s os g b hov hft _ ih =>
    intro sd st errs
    have hff : findField sfs p = .none := by
      cases hf : findField sfs p with
      | none => rfl
      | some sf =>
        obtain ⟨t, ht, _⟩ := (findField_iff p hm).2 sf hf
        exact absurd ⟨t, ht⟩ hft
    simp only [overridesLoop, split_of_isOv hov]
    rw [← hov.2.2, hff, ih]
    simp

/-- every list of overrides with an `=` in each is sorted in exactly one way -/
theorem sorted_exists (fs : List Fld) : ∀ os : List String, (∀ o ∈ os, '=' ∈ o.toList) → ∃ g b, Sorted fs os g b := by
  intro os
  induction os with
  | nil => intro _; exact ⟨[], [], .nil⟩
  | cons o os ih =>
    intro h
    obtain ⟨g, b, hgb⟩ := ih (fun o' ho' => h o' (List.mem_cons_of_mem _ ho'))
    have : ∃ key s, splitOverride o = some (key, s) := by
      have gen : ∀ cs : List Char, '=' ∈ cs → ∃ k v, split1C '=' cs = (k, some v) := by
        intro cs
        induction cs with
        | nil => simp
        | cons x xs ih =>
          intro hx
          by_cases e : x = '='
          · exact ⟨[], xs, by simp [split1C, e]⟩
          · have : '=' ∈ xs := by
              rcases List.mem_cons.1 hx with h | h
              · exact absurd h.symm e
              · exact h
            obtain ⟨k, v, hkv⟩ := ih this
            exact ⟨x :: k, v, by simp [split1C, e, hkv]⟩
      obtain ⟨k, v, hkv⟩ := gen _ (h o (by simp))
      exact ⟨_, _, by simp only [splitOverride, hkv]; rfl⟩
    obtain ⟨key, s, hs⟩ := this
    have hov := isOv_of_split hs
    by_cases hf : ∃ t, FieldAt fs (pySplit '.' key) t
    · obtain ⟨t, ht⟩ := hf
      exact ⟨_, _, .good hov ht hgb⟩
    · exact ⟨_, _, .bad hov hf hgb⟩

/-- C12: a list of overrides with unknown keys `b` is rejected; if the other overrides are fine, with the error that names
`b`. -/
theorem C12_unknown_reported_partial (ron : RonParse) (n : String) (fs : List Fld) (ver : Option VerInfo)
    (sfs : List (String × SFld)) (hm : materializeF fs = .ok sfs) (os g b : List String) (h : Sorted fs os g b) (hb : b ≠ [])
    (doc : Val) :
    ∃ e, applyOverrides ron (.data n fs ver) os doc = .error e ∧
      ((∃ doc', applyOverrides ron (.data n fs ver) g doc = .ok doc') → e = unknownErr b) := by
  have hl := overridesLoop_sorted ron hm h doc .none []
  cases hg : overridesLoop ron sfs g doc .none [] with
  | error e =>
    rw [hg] at hl
    refine ⟨e, ?_, ?_⟩
    · simp [applyOverrides, materialize, hm, bind, Except.bind, pure, Except.pure, hl, Except.map]
    · rintro ⟨doc', hd'⟩
      obtain ⟨sfs', hm', hl'⟩ := applyOverrides_ok hd'
      rw [hm] at hm'; cases hm'
      rw [hg] at hl'; simp at hl'
  | ok r =>
    rw [hg] at hl
    refine ⟨unknownErr b, ?_, fun _ => rfl⟩
    simp only [applyOverrides, materialize, hm, bind, Except.bind, pure, Except.pure, hl, Except.map, List.nil_append]
    match b with
    | [] => exact absurd rfl hb
    | [k] => rfl
    | k :: k' :: ks => rfl

/-- C12: a load with unknown override keys fails, with the same error. -/
theorem C12_load_fails_partial (c : DCfg) (ron : RonParse) (ig : Bool) (n : String) (fs : List Fld) (ver : Option VerInfo)
    (sfs : List (String × SFld)) (hm : materializeF fs = .ok sfs) (os g b : List String) (h : Sorted fs os g b) (hb : b ≠ [])
    (doc : Val) :
    ∃ e, typedLoad c ron (some os) ig (.data n fs ver) doc = .error e ∧
      ((∃ doc', applyOverrides ron (.data n fs ver) g doc = .ok doc') → e = unknownErr b) := by
  obtain ⟨e, he, h2⟩ := C12_unknown_reported_partial ron n fs ver sfs hm os g b h hb doc
  exact ⟨e, by simp [typedLoad, he, bind, Except.bind], h2⟩

/-- C12 is false when an override of an existing field cannot be used: that is reported, and the unknown one is not. -/
theorem C12_first_error_false (e : Err) : applyOverrides (fun _ => .error e) (.data "C" [.mk "a" (.list .int) .none] .none) ["nope=1", "a=["] (.dict []) =
    .error e := rfl

theorem overridesLoop_error (ron : RonParse) (sfs : List (String × SFld))
    (hron : ∀ s e, ron s = .error e → (∀ k, e ≠ .fieldNotFound k) ∧ ∀ ks, e ≠ .fieldsNotFound ks) :
    ∀ (os : List String) (sd : Val) (stale : Option Val) (errs : List String) (e : Err),
    overridesLoop ron sfs os sd stale errs = .error e → (∀ k, e ≠ .fieldNotFound k) ∧ ∀ ks, e ≠ .fieldsNotFound ks := by
  have hset : ∀ (p : List String) (v sd : Val) (e : Err), setPath v sd p = .error e →
      (∀ k, e ≠ .fieldNotFound k) ∧ ∀ ks, e ≠ .fieldsNotFound ks := by
    intro p
    induction p with
    | nil => intro v sd e h; simp [setPath] at h; subst h; simp
    | cons k ks ih =>
      intro v sd e h
      cases ks with
      | nil => cases sd <;> simp [setPath, pySetItem] at h <;> subst h <;> simp
      | cons k' ks =>
        simp only [setPath, bind, Except.bind, pure, Except.pure] at h
        split at h
        · rename_i hin
          cases sd <;> simp [pyIn] at hin <;> subst hin <;> simp at h <;> subst h <;> simp
        · have hget : ∀ e, pyGetItem k sd = .error e → (∀ k, e ≠ .fieldNotFound k) ∧ ∀ ks, e ≠ .fieldsNotFound ks := by
            intro e he
            cases sd <;> simp only [pyGetItem] at he
            all_goals first | (cases he; simp; done) | skip
            all_goals split at he <;> cases he
            all_goals simp
          have hseti : ∀ w e, pySetItem k w sd = .error e → (∀ k, e ≠ .fieldNotFound k) ∧ ∀ ks, e ≠ .fieldsNotFound ks := by
            intro w e he
            cases sd <;> simp [pySetItem] at he <;> subst he <;> simp
          repeat' split at h
          all_goals first
            | (cases h; rename_i hx; exact hget _ hx)
            | (cases h; rename_i hx; exact ih _ _ _ hx)
            | exact hseti _ _ h
  intro os
  induction os with
  | nil => intro sd st errs e h; simp [overridesLoop] at h
  | cons o os ih =>
    intro sd st errs e h
    simp only [overridesLoop] at h
    split at h
    · simp at h; subst h; simp
    · split at h
      · exact ih _ _ _ _ h
      · simp only [bind, Except.bind] at h
        split at h
        · rename_i hv
          simp at h; subst h
          simp only [overrideVal] at hv
          split at hv
          · simp at hv
          · split at hv
            · split at hv
              · simp at hv
              · split at hv <;> simp at hv
                subst hv; simp
            · exact hron _ _ hv
        · split at h
          · rename_i hs
            simp at h; subst h
            exact hset _ _ _ _ hs
          · exact ih _ _ _ _ h

/-- C12: only unknown keys are ever reported, all of them and in order. -/
theorem C12_only_unknown (ron : RonParse) (n : String) (fs : List Fld) (ver : Option VerInfo)
    (sfs : List (String × SFld)) (hm : materializeF fs = .ok sfs)
    (hron : ∀ s e, ron s = .error e → (∀ k, e ≠ .fieldNotFound k) ∧ ∀ ks, e ≠ .fieldsNotFound ks)
    (os g b : List String) (h : Sorted fs os g b) (doc : Val) :
    (∀ k, applyOverrides ron (.data n fs ver) os doc = .error (.fieldNotFound k) → b = [k]) ∧
    (∀ ks, applyOverrides ron (.data n fs ver) os doc = .error (.fieldsNotFound ks) → b = ks ∧ 2 ≤ ks.length) := by
  have hl := overridesLoop_sorted ron hm h doc .none []
  cases hg : overridesLoop ron sfs g doc .none [] with
  | error e =>
    rw [hg] at hl
    have he := overridesLoop_error ron sfs hron g doc .none [] e hg
    have : applyOverrides ron (.data n fs ver) os doc = .error e := by
      simp [applyOverrides, materialize, hm, bind, Except.bind, pure, Except.pure, hl, Except.map]
    rw [this]
    exact ⟨fun k hk => absurd (by simpa using hk) (he.1 k), fun ks hk => absurd (by simpa using hk) (he.2 ks)⟩
  | ok r =>
    rw [hg] at hl
    simp only [applyOverrides, materialize, hm, bind, Except.bind, pure, Except.pure, hl, Except.map, List.nil_append]
    match b with
    | [] => simp
    | [k] => simp [throw, throwThe, MonadExceptOf.throw]
    | k :: k' :: ks => simp [throw, throwThe, MonadExceptOf.throw]

example : Sorted Ex.ovTy ["net.n=5", "nett=1", "net.n.x=2"] ["net.n=5"] ["nett", "net.n.x"] := by
  refine .good (key := "net.n") (p := ["net", "n"]) (s := "5") (t := .int) ⟨rfl, by decide, rfl⟩ ?_ (.bad (p := ["nett"]) (s := "1")
    ⟨rfl, by decide, rfl⟩ ?_ (.bad (p := ["net", "n", "x"]) (s := "2") ⟨rfl, by decide, rfl⟩ ?_ .nil))
  · exact .there (f := .mk "net" (.optional Ex.netTy) none) rfl (.opt (.refl _ _ _)) (.here (f := .mk "n" .int (some (.int 4))) rfl)
  · rintro ⟨t, h⟩
    cases h with
    | here h => simp [Ex.ovTy, List.find?, Fld.name] at h
  · rintro ⟨t, h⟩
    cases h with
    | there h1 h2 h3 =>
      simp [Ex.ovTy, Fld.name] at h1
      subst h1
      cases h2 with
      | opt h2 =>
        cases h2 with
        | refl =>
          cases h3 with
          | there h4 h5 _ =>
            simp [List.find?, Fld.name] at h4
            subst h4
            cases h5

/-! ## C13 -/

/-- C13: a boolean override in one of the ten spellings yields that boolean; any other spelling is rejected when no earlier
override of the list was applied. -/
theorem C13_bool_partial (ron : RonParse) (s : String) :
    (∀ b, s ∈ boolSpelling b → ∀ stale, overrideVal ron (.prim "bool") s stale = .ok (.bool b)) ∧
    ((∀ b, s ∉ boolSpelling b) → overrideVal ron (.prim "bool") s .none = .error .unboundLocal) := by
  constructor
  · intro b hb st
    simp [overrideVal, STy.isPrim, (parseBool_iff s b).2 hb]
  · intro h
    have : parseBool s = .none := by
      cases hp : parseBool s with
      | none => rfl
      | some b => exact absurd ((parseBool_iff s b).1 hp) (h b)
    simp [overrideVal, STy.isPrim, this]

/-- C13, first in the list: an unrecognised spelling for a boolean field fails the load. -/
theorem C13_first_rejected (ron : RonParse) (n : String) (fs : List Fld) (ver : Option VerInfo) (doc : Val)
    (o key s : String) (p : List String) (os : List String) (hov : IsOv o key p s) (hf : FieldAt fs p .bool)
    (hs : ∀ b, s ∉ boolSpelling b) (sfs) (hm : materializeF fs = .ok sfs) :
    applyOverrides ron (.data n fs ver) (o :: os) doc = .error .unboundLocal := by
  obtain ⟨sf, hff, hmt⟩ := (findField_iff p hm).1 _ hf
  have hty : sf.type = .prim "bool" := by simp [materialize] at hmt; exact hmt.symm
  simp only [applyOverrides, materialize, hm, bind, Except.bind, pure, Except.pure, overridesLoop, split_of_isOv hov]
  rw [← hov.2.2]
  simp only [hff, hty, (C13_bool_partial ron s).2 hs]

/-- C13 is false: an unrecognised spelling takes over the value of the previous override. -/
theorem C13_false : ∃ (w : World) (ty : PyTy), ∀ s : String, (∀ b, s ∉ boolSpelling b) →
    hsLoads w ty (.dict []) (some ["a=True", "b=" ++ s]) false
      = .ok (.inst "C" [("a", .bool true), ("b", .bool true)]) := by
  refine ⟨Ex.world, .data "C" [.mk "a" .bool none, .mk "b" .bool none] none, ?_⟩
  intro s hs
  have hp : parseBool s = .none := by
    cases hp : parseBool s with
    | none => rfl
    | some b => exact absurd ((parseBool_iff s b).1 hp) (hs b)
  have hb : splitOverride ("b=" ++ s) = some ("b", s) :=
    (splitOverride_iff _ _ _).2 ⟨by rfl, by decide⟩
  have hpt : parseBool "True" = some true := by decide
  have ha : splitOverride "a=True" = some ("a", "True") := rfl
  have hpa : pySplit '.' "a" = ["a"] := rfl
  have hpb : pySplit '.' "b" = ["b"] := rfl
  have : applyOverrides Ex.world.ron (.data "C" [.mk "a" .bool none, .mk "b" .bool none] none) ["a=True", "b=" ++ s] (.dict [])
      = .ok (.dict [("a", .bool true), ("b", .bool true)]) := by
    simp [applyOverrides, materialize, materializeF, materializeF1, bind, Except.bind, pure, Except.pure, overridesLoop, ha, hb,
      hpa, hpb, findField, dget, SFld.type, overrideVal, STy.isPrim, hp, hpt, setPath, pySetItem, dset, schemaDefault]
  simp only [hsLoads, typedLoad, this, bind, Except.bind, pure, Except.pure]
  rfl

example : ∀ b, "yes" ∉ boolSpelling b := by decide

end HS
