import Verif.Props.OverrideLoad
/-!
# C15 through versioned classes: an override of a field at any depth, with any number of versioned classes on the way
-/
namespace HS

/-- The rules of the class (if it is versioned) that run on a section with this entry for `version` mention no path related to `p`.
Without an entry no rules run, if that is allowed at all. -/
def Quiet (am : Bool) (ver : Option VerInfo) (entry : Option Val) (p : List String) : Prop :=
  match ver with
  | .none => True
  | some vi => p.head? ≠ some "version" ∧
      ((∃ v0, entry = some (.int v0) ∧ ∀ r ∈ vi.rulesFrom v0, ∀ p' ∈ r.paths, Unrelated p' p ∧ WEAK_REF ∉ p') ∨
       (entry = .none ∧ am = true))

/-- The path names a field of type `t`. It goes through classes that may be versioned, the section at `q` having the entry `vers q` for
`version`, and no rule that runs concerns the way. -/
inductive ReachV (am : Bool) : Option VerInfo → List Fld → (List String → Option Val) → List String → PyTy → Prop
  | last {ver : Option VerInfo} {fs : List Fld} {vers : List String → Option Val} {p : List String} {t : PyTy} :
      Quiet am ver (vers []) p → FieldAtU fs p t → ReachV am ver fs vers p t
  | sec {ver ver' : Option VerInfo} {fs fs' : List Fld} {vers : List String → Option Val} {k : String} {f : Fld} {n' : String}
      {p : List String} {t : PyTy} :
      Quiet am ver (vers []) [k] → fs.find? (fun f => f.name == k) = some f → Strips f.ty (.data n' fs' ver') →
      ReachV am ver' fs' (fun q => vers (k :: q)) p t → ReachV am ver fs vers (k :: p) t

theorem ReachV.ne_nil {am : Bool} {ver : Option VerInfo} {fs : List Fld} {vers : List String → Option Val} {p : List String} {t : PyTy}
    (h : ReachV am ver fs vers p t) : p ≠ [] := by
  cases h with
  | last _ hf => cases hf <;> simp
  | sec => simp

theorem ReachV.toFieldAt {am : Bool} {ver : Option VerInfo} {fs : List Fld} {vers : List String → Option Val} {p : List String} {t : PyTy}
    (h : ReachV am ver fs vers p t) : FieldAt fs p t := by
  induction h with
  | last _ hf => exact hf.toFieldAt
  | @sec ver ver' fs fs' vers k f n' p t _ hfi hs hr ih =>
    cases p with
    | nil => exact absurd rfl hr.ne_nil
    | cons k' ks => exact .there hfi hs ih

theorem attr_cons {v y : Val} {k : String} (p : List String) (h : v.attr [k] = some y) : v.attr (k :: p) = y.attr p := by
  cases v <;> simp only [Val.attr, reduceCtorEq] at h ⊢
  rename_i kvs
  cases hg : dget kvs k with
  | none => rw [hg] at h; exact (nomatch h)
  | some z => rw [hg] at h; simp [Val.attr] at h; subst h; rfl

/-- Upgrading a section leaves what stands at a path that no rule concerns. -/
theorem quiet_upgrade {c : DCfg} {n : String} {fs : List Fld} {ver : Option VerInfo} {ig : Bool} {path : String}
    {d : List (String × Val)} {x : Val} {r : Val × List Ev} {p : List String} (hq : Quiet c.allowMissing ver (dget d "version") p)
    (hp0 : p ≠ []) (hw : WEAK_REF ∉ p) (hnm : NoMark (.dict d)) (hx : (Val.dict d).at? p = some x)
    (h : fromDict c (.data n fs ver) ig path (.dict d) = .ok r) :
    ∃ w, fromDict c (.data n fs .none) ig path w = .ok r ∧ w.at? p = some x ∧ Solid w p := by
  cases ver with
  | none => exact ⟨_, h, hx, hnm.solid hx⟩
  | some vi =>
    obtain ⟨hpv, hq⟩ := hq
    have hdel : ∀ q : List String, q ≠ [] → q.head? ≠ some "version" → (Val.dict (ddel d "version")).at? q = (Val.dict d).at? q := by
      intro q hq hq'
      cases q with
      | nil => exact absurd rfl hq
      | cons j js =>
        simp only [at?_dict_cons]
        rw [dget_ddel_ne _ (by simpa using fun e => hq' (by simp [e]))]
    have hnm' : NoMark (.dict (ddel d "version")) := by
      intro q
      by_cases hq : (q ++ [WEAK_REF]).head? = some "version"
      · cases q with
        | nil => simp [WEAK_REF] at hq
        | cons j js =>
          simp at hq; subst hq
          simp only [List.cons_append, at?_dict_cons, dget_ddel_self]; rfl
      · rw [hdel _ (by simp) hq]; exact hnm q
    have hx' : (Val.dict (ddel d "version")).at? p = some x := by rw [hdel p hp0 hpv, hx]
    cases hvh : versionHook c.allowMissing vi (.dict d) with
    | error e => simp [fromDict, hvh, bind, Except.bind] at h
    | ok w =>
      have hup : Upgraded c (some vi) (.dict d) w := hvh
      rw [fromDict_upgraded hup] at h
      rcases hq with ⟨v0, hv, hrules⟩ | ⟨hv, ham⟩
      · obtain ⟨f1, f2⟩ := applyRules_frame hw hp0 (versionHook_rules hv hvh) hrules
        exact ⟨w, h, by rw [f1, hx'], f2 (hnm'.solid hx')⟩
      · rw [versionHook_missing _ _ _ hv, ham] at hvh
        simp at hvh
        subst hvh
        exact ⟨_, h, hx, hnm.solid hx⟩

/-- What a loaded object holds at a path at which the document sets a value. -/
theorem fromDict_attrV (c : DCfg) {ver : Option VerInfo} {fs : List Fld} {vers : List String → Option Val} {p : List String} {t : PyTy}
    (hr : ReachV c.allowMissing ver fs vers p t) :
    ∀ (n : String) (ig : Bool) (path : String) (doc v : Val) (es : List Ev) (x : Val),
    fromDict c (.data n fs ver) ig path doc = .ok (v, es) → NoMark doc → doc.at? p = some x → NAME_KEY ∉ p → WEAK_REF ∉ p →
    (∀ q k, q ++ [k] <+: p → doc.at? (q ++ ["version"]) = vers q) →
    ∃ y es' path', v.attr p = some y ∧ fromDict c t false path' x = .ok (y, es') := by
  have hdict : ∀ {doc x : Val} {p : List String}, p ≠ [] → doc.at? p = some x → ∃ d, doc = .dict d := by
    intro doc x p hp hx
    cases p with
    | nil => exact absurd rfl hp
    | cons k ks =>
      cases hd : doc.isDict
      · simp [at?_cons_of_not_dict doc hd] at hx
      · exact (isDict_iff doc).1 hd
  have hentry : ∀ {d : List (String × Val)} {vers : List String → Option Val} {p : List String}, p ≠ [] →
      (∀ q k, q ++ [k] <+: p → (Val.dict d).at? (q ++ ["version"]) = vers q) → dget d "version" = vers [] := by
    intro d vers p hp hv
    cases p with
    | nil => exact absurd rfl hp
    | cons k ks =>
      have := hv [] k (by simp)
      rw [← this]
      simp only [List.nil_append, at?_dict_cons]
      cases dget d "version" <;> rfl
  induction hr with
  | @last ver fs vers p t hq hf =>
    intro n ig path doc v es x h hnm hx hn hw hv
    have hp0 : p ≠ [] := by cases hf <;> simp
    obtain ⟨d, rfl⟩ := hdict hp0 hx
    obtain ⟨w, h1, h2, h3⟩ := quiet_upgrade (by rw [hentry hp0 hv]; exact hq) hp0 hw hnm hx h
    exact fromDict_attr c hf n ig path w v es x h1 h3 h2 (hnm.at? hx).isWeak hn
  | @sec ver ver' fs fs' vers k f n' p t hq hfi hs hr ih =>
    intro n ig path doc v es x h hnm hx hn hw hv
    obtain ⟨d, rfl⟩ := hdict (by simp) hx
    cases hsec : (Val.dict d).at? [k] with
    | none =>
      have : (Val.dict d).at? ([k] ++ p) = .none := by rw [at?_append, hsec]; rfl
      rw [List.singleton_append] at this
      rw [this] at hx; exact (nomatch hx)
    | some doc' =>
      have hx' : doc'.at? p = some x := by
        rw [← List.singleton_append, at?_append, hsec] at hx; exact hx
      have hwk : WEAK_REF ∉ [k] := fun hh => hw (by simp at hh; simp [hh])
      have hnk : NAME_KEY ∉ [k] := fun hh => hn (by simp at hh; simp [hh])
      obtain ⟨w, h1, h2, h3⟩ := quiet_upgrade (by rw [hentry (p := k :: p) (by simp) hv]; exact hq) (by simp) hwk hnm hsec h
      obtain ⟨y1, es1, path1, h4, h5⟩ := fromDict_attr c (.here hfi) n ig path w v es doc' h1 h3 h2 (hnm.at? hsec).isWeak hnk
      obtain ⟨d', rfl⟩ := hdict hr.ne_nil hx'
      rw [fromDict_strips c hs] at h5
      obtain ⟨y, es', path', h6, h7⟩ := ih n' false path1 (.dict d') y1 es1 x h5 (hnm.at? hsec) hx'
        (fun hh => hn (List.mem_cons_of_mem _ hh)) (fun hh => hw (List.mem_cons_of_mem _ hh)) (by
          intro q k' hq'
          have := hv (k :: q) k' (by simpa using hq')
          show _ = vers (k :: q)
          have h8 : (Val.dict d).at? ([k] ++ (q ++ ["version"])) = (Val.dict d').at? (q ++ ["version"]) := by rw [at?_append, hsec]; rfl
          rw [← this, ← h8]; rfl)
      exact ⟨y, es', path', by rw [attr_cons p h4]; exact h6, h7⟩

/-- C15 and C14, part: an override of a field at any depth determines that field of the loaded config, with versioned classes anywhere
on the way, if each of these sections has a version (or none, where that is allowed), no rule that runs on one of them mentions a path
related to the way, and the overrides leave the versions alone. (Missing: rules that mention the path, see C14_false; sections without
a version in `load`, see C80_override_false.) -/
theorem C15_versions_partial (c : DCfg) (ron : RonParse) (hron : ∀ s v, ron s = .ok v → NoMark v) (n : String) (fs : List Fld)
    (ver : Option VerInfo) (ig : Bool) (doc : Val) (l : Loaded) (pre post : List String) (o key s : String) (p : List String) (t : PyTy)
    (h : typedLoad c ron (some (pre ++ o :: post)) ig (.data n fs ver) doc = .ok l) (hov : IsOv o key p s)
    (hlast : ∀ o' ∈ post, ∀ key' p' s', IsOv o' key' p' s' → Unrelated p' p)
    (hmark : ∀ o' ∈ pre ++ o :: post, ∀ key' p' s', IsOv o' key' p' s' →
      WEAK_REF ∉ p' ∧ ∀ q k, q ++ [k] <+: p → Unrelated p' (q ++ ["version"]))
    (hdoc : NoMark doc) (hr : ReachV c.allowMissing ver fs (fun q => doc.at? (q ++ ["version"])) p t)
    (hrec : t = .bool → ∃ b, s ∈ boolSpelling b) (hn : NAME_KEY ∉ p) :
    ∃ x y es path, OvVal ron t s x ∧ fromDict c t false path x = .ok (y, es) ∧ l.value.attr p = some y := by
  simp only [typedLoad, bind, Except.bind, pure, Except.pure] at h
  split at h
  · exact (nomatch h)
  rename_i doc' hdoc'
  split at h
  · exact (nomatch h)
  rename_i r hfr
  split at h
  · exact (nomatch h)
  cases h
  obtain ⟨t', x, ht', hx, hval⟩ := C11_override_wins_partial ron n fs ver doc doc' pre post o key s p hdoc' hov hlast
  have htt : t' = t := fieldAt_unique ht' hr.toFieldAt
  subst htt
  have hnm := applyOverrides_noMark hron hdoc' (fun o' ho' k p' s' h => (hmark o' ho' k p' s' h).1) hdoc
  obtain ⟨y, es, path, h1, h2⟩ := fromDict_attrV c hr n ig "" doc' r.1 r.2 x hfr hnm hx hn (hmark o (by simp) _ _ _ hov).1 (by
    intro q k hq
    exact C11_frame ron n fs ver doc doc' _ hdoc' _ (fun o' ho' key' p' s' hov' => (hmark o' ho' key' p' s' hov').2 q k hq))
  exact ⟨x, y, es, path, hval hrec, h2, h1⟩

namespace ExOV
/-- a config of version 3 with a section of version 2, both with rules; both are behind in the document -/
def inner : VerInfo := ⟨2, [(0, [.rename ["learning_rate"] ["lr"]]), (1, [.delete ["old"]])]⟩
def outer : VerInfo := ⟨3, [(2, [.rename ["n"] ["steps"]])]⟩
def netFs : List Fld := [.mk "lr" .int .none, .mk "k" .int (some (.int 2))]
def fs : List Fld := [.mk "steps" .int .none, .mk "net" (.optional (.data "Net" netFs (some inner))) (some .none)]
def doc : Val := .dict [("version", .int 2), ("n", .int 7), ("net", .dict [("version", .int 1), ("lr", .int 1), ("old", .int 0)])]

def out : Except Err Loaded → Option (Int × Int × Int)
  | .ok ⟨.inst _ kvs, _, _⟩ => match dget kvs "steps", dget kvs "net" with
    | some (.int a), some (.inst _ ks) => match dget ks "lr", dget ks "k" with
      | some (.int b), some (.int c) => some (a, b, c)
      | _, _ => .none
    | _, _ => .none
  | _ => .none
end ExOV

example : ExOV.out (typedLoad (Ex.world.dcfg false true) Ex.ronIdent (some ["net.k=5"]) false (.data "C" ExOV.fs (some ExOV.outer)) ExOV.doc)
      = some (7, 1, 5) ∧
    ReachV false (some ExOV.outer) ExOV.fs (fun q => ExOV.doc.at? (q ++ ["version"])) ["net", "k"] .int ∧
    IsOv "net.k=5" "net.k" ["net", "k"] "5" ∧
    (∀ q k, q ++ [k] <+: ["net", "k"] → Unrelated ["net", "k"] (q ++ ["version"])) := by
  refine ⟨by decide +kernel, ?_, ⟨rfl, by decide, rfl⟩, ?_⟩
  · refine .sec (f := .mk "net" (.optional (.data "Net" ExOV.netFs (some ExOV.inner))) (some .none)) (ver' := some ExOV.inner) ?_ rfl
      (.opt (.refl _ _ _)) (.last ?_ (.here (f := .mk "k" .int (some (.int 2))) rfl))
    · refine ⟨by decide, .inl ⟨2, rfl, ?_⟩⟩
      intro r hr
      have : r = .rename ["n"] ["steps"] := by
        simpa [ExOV.outer, VerInfo.rulesFrom, rangeI, List.range, List.range.loop, VerInfo.rulesAt] using hr
      subst this
      simp [Rule.paths, Unrelated, WEAK_REF]
    · refine ⟨by decide, .inl ⟨1, rfl, ?_⟩⟩
      intro r hr
      have : r = .delete ["old"] := by
        simpa [ExOV.inner, VerInfo.rulesFrom, rangeI, List.range, List.range.loop, VerInfo.rulesAt] using hr
      subst this
      simp [Rule.paths, Unrelated, WEAK_REF]
  · intro q k hq
    rcases q with _ | ⟨a, _ | ⟨b, q⟩⟩
    · simp [Unrelated]
    · simp only [List.cons_append, List.nil_append, List.cons_prefix_cons] at hq
      obtain ⟨rfl, rfl, _⟩ := hq
      simp [Unrelated]
    · have := hq.length_le
      simp at this

end HS
