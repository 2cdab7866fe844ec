import Verif.Props.OverrideLoad
import Verif.Props.Typed

/-!
# `ChangeDefault` and `AddDefault` for a field of a section that the document leaves out: C22, C83
-/

namespace HS

/-- the object at the top-level key `g` is missing, or carries the weak mark -/
def OmittedAt (g : String) (sd : Val) : Prop := ∀ x, sd.at? [g] = some x → x.isWeak = true

/-- the rules turn an object into an object -/
theorem applyRules_object : ∀ (rs : List Rule) (sd sd' : Val), applyRules rs sd = .ok sd' → sd.isDict = true → sd'.isDict = true
  | [], sd, sd', h, hd => by simp [applyRules] at h; subst h; exact hd
  | r :: rs, sd, sd', h, hd => by
    simp only [applyRules, bind, Except.bind] at h
    split at h
    · exact (nomatch h)
    rename_i sd1 h1
    refine applyRules_object rs sd1 sd' h ?_
    rcases rule_steps h1 with rfl | ⟨p1, _, sd2, r1, hr, h3⟩
    · exact hd
    have hd2 : sd2.isDict = true := by
      have hp : [] ≠ p1 := by rintro rfl; simp [removePath] at hr
      have := (removePath_spec hr).2.2.2.2 [] (List.nil_prefix) hp
      simpa [hd] using this
    rcases h3 with rfl | ⟨p2, _, v, cn, hi⟩
    · exact hd2
    · obtain ⟨d2, rfl⟩ := (isDict_iff sd2).1 hd2
      obtain ⟨d3, rfl, _⟩ := insertPath_isDict hi
      rfl

/-- inserting a default below a missing or weak object leaves a weak object -/
theorem omittedAt_insert (v : Val) (g k : String) (ks : List String) (hw : WEAK_REF ≠ k) (sd sd' : Val)
    (h : insertPath v false sd (g :: k :: ks) = .ok sd') (ho : OmittedAt g sd) : OmittedAt g sd' := by
  cases hd : sd.isDict
  · exfalso
    cases sd <;> simp_all [insertPath, pyGetItem, Val.isDict, bind, Except.bind]
  obtain ⟨d, rfl⟩ := (isDict_iff sd).1 hd
  rw [insertPath_cons_dict] at h
  split at h
  · rename_i dc hc
    have hdc : dhas dc WEAK_REF = true := by
      cases hg : dget d g with
      | none =>
        rw [hg] at hc
        simp only [Option.getD_none, freshObj] at hc
        cases hc; rfl
      | some x =>
        rw [hg] at hc
        have hx : x = .dict dc := hc
        subst hx
        exact ho (.dict dc) (by simp [hg])
    simp only [Bool.false_and, Bool.false_eq_true, if_false] at h
    split at h
    · rename_i c' hi
      cases h
      obtain ⟨d', rfl, hk⟩ := insertPath_isDict hi
      intro x hx
      simp only [dget_dset_self, Option.bind_some, Val.at?, Option.some.injEq] at hx
      subst hx
      simp only [Val.isWeak, dhas, hk _ (show some k ≠ some WEAK_REF from fun e => hw (Option.some.inj e).symm)] at hdc ⊢
      exact hdc
    · exact (nomatch h)
  · cases h; exact ho

/-- what a rule may do for `C22_omitted`: it does not concern `g`, or it is a `ChangeDefault` or
`AddDefault` of something inside `g` -/
def DefaultInside (g : String) (r : Rule) : Prop :=
  (∀ p ∈ r.paths, Unrelated p [g]) ∨ ∃ k ks old, (r = .addDefault (g :: k :: ks) old ∨ ∃ new, r = .changeDefault (g :: k :: ks) old new) ∧
    WEAK_REF ∉ k :: ks

theorem omittedAt_rules (g : String) (hg : WEAK_REF ≠ g) : ∀ (rs : List Rule) (sd sd' : Val), (∀ r ∈ rs, DefaultInside g r) →
    rs.Pairwise (fun r s => ∀ p ∈ r.paths, ∀ q ∈ s.paths, Unrelated p q ∨ Unrelated p [g]) →
    (∀ r ∈ rs, ∀ p ∈ r.paths, [g] <+: p → sd.at? p = .none) →
    applyRules rs sd = .ok sd' → OmittedAt g sd → OmittedAt g sd'
  | [], sd, sd', _, _, _, h, ho => by simp [applyRules] at h; subst h; exact ho
  | r :: rs, sd, sd', hr, hp, ha, h, ho => by
    simp only [applyRules, bind, Except.bind] at h
    split at h
    · exact (nomatch h)
    rename_i sd1 h1
    obtain ⟨hp1, hp2⟩ := List.pairwise_cons.1 hp
    have hr' := fun s hs => hr s (List.mem_cons_of_mem _ hs)
    refine omittedAt_rules g hg rs sd1 sd' hr' hp2 ?_ h ?_
    · intro s hs q hq hgq
      have hqw : WEAK_REF ∉ q := by
        rcases hr' s hs with hu | ⟨k, ks, o, hs', hw⟩
        · exact absurd hgq (hu q hq).2
        · have hq' : q = g :: k :: ks := by
            rcases hs' with rfl | ⟨n, rfl⟩ <;> simpa [Rule.paths] using hq
          subst hq'
          simp only [List.mem_cons, not_or] at hw ⊢
          exact ⟨hg, hw⟩
      rw [rule_frame h1 hqw ?_]
      · exact ha s (List.mem_cons_of_mem _ hs) q hq hgq
      · intro p hpr
        rcases hp1 s hs p hpr q hq with hu | hu
        · exact hu
        · refine ⟨fun hpq => ?_, fun hqp => hu.2 (hgq.trans hqp)⟩
          rcases List.prefix_or_prefix_of_prefix hpq hgq with h' | h'
          · exact hu.1 h'
          · exact hu.2 h'
    · rcases hr r (List.mem_cons_self ..) with hu | ⟨k, ks, o, hs', hw⟩
      · intro x hx
        rw [rule_frame h1 (by simpa using hg) hu] at hx
        exact ho x hx
      · have hab := ha r (List.mem_cons_self ..) (g :: k :: ks) (by rcases hs' with rfl | ⟨n, rfl⟩ <;> simp [Rule.paths]) (by simp)
        rcases hs' with rfl | ⟨n, rfl⟩ <;>
        · simp only [Rule.apply, bind, Except.bind] at h1
          split at h1
          · exact (nomatch h1)
          rename_i z hz
          obtain ⟨sd2, r2⟩ := z
          obtain ⟨hr1, hr2, _⟩ := removePath_spec hz
          rw [hab] at hr1
          subst hr1
          have := hr2 rfl
          subst this
          exact omittedAt_insert o g k ks (fun e => hw (by simp [e])) _ _ h1 ho

/-- C22, the other side: when the document does not have the section `f`, `ChangeDefault` and `AddDefault` rules for fields
inside that section have no effect at all on the loaded object. Whatever the old defaults in the rules are, the section has the default that the
class declares now. -/
theorem C22_omitted (c : DCfg) (n : String) (fs : List Fld) (vi : VerInfo) (ig : Bool) (d : List (String × Val)) (v0 : Int)
    (hver : dget d "version" = some (.int v0)) (hpl : Plain (.dict d)) (hnd : (fs.map Fld.name).Nodup)
    (hnk : ∀ f ∈ fs, f.name ≠ NAME_KEY) (f : Fld) (hf : f ∈ fs) (hfw : f.name ≠ WEAK_REF) (hfv : f.name ≠ "version")
    (habs : dget d f.name = .none) (hrp : ∀ r ∈ vi.rulesFrom v0, RulePlain r)
    (hr : ∀ r ∈ vi.rulesFrom v0, DefaultInside f.name r)
    (hpw : (vi.rulesFrom v0).Pairwise (fun r s => ∀ p ∈ r.paths, ∀ q ∈ s.paths, Unrelated p q ∨ Unrelated p [f.name]))
    (v : Val) (es : List Ev) (h : fromDict c (.data n fs (some vi)) ig "" (.dict d) = .ok (v, es)) :
    ∃ y, v.attr [f.name] = some y ∧ IsDefault f y := by
  cases hvh : versionHook c.allowMissing vi (.dict d) with
  | error e => simp [fromDict, hvh, bind, Except.bind] at h
  | ok w =>
    have hrun := versionHook_rules hver hvh
    have habs' : dget (ddel d "version") f.name = .none := by rw [dget_ddel_ne _ (Ne.symm hfv)]; exact habs
    have hpl' : Plain (.dict (ddel d "version")) := by
      simp only [Plain] at hpl ⊢
      exact ⟨nodup_ddel _ _ hpl.1, plainD_ddel hpl.2⟩
    have hw := plain_applyRules hrp hpl' hrun
    have ho := omittedAt_rules f.name (Ne.symm hfw) _ _ _ hr hpw
      (fun r _ p _ hp => by
        obtain ⟨q, rfl⟩ := hp
        simp [habs'])
      hrun (fun x hx => by simp [habs'] at hx)
    obtain ⟨dw, rfl⟩ := (isDict_iff w).1 (applyRules_object _ _ _ hrun rfl)
    simp only [Plain] at hw
    obtain ⟨kvs, rfl, _, hall⟩ := C06_fields c n fs (some vi) ig "" (.dict d) dw hvh hnd hnk hw.1 v es h
    obtain ⟨y, hy, _, hdf⟩ := hall f hf
    refine ⟨y, by simp [Val.attr, hy], hdf ?_⟩
    simp only [docEntry]
    cases hg : dget dw f.name with
    | none => rfl
    | some x =>
      have := ho x (by simp [hg])
      simp [Option.filter, this]

theorem areDefaults_mem {fs : List Fld} {kvs : List (String × Val)} (h : AreDefaults fs kvs) (f : Fld) (hf : f ∈ fs) :
    ∃ v, IsDefault f v := by
  induction fs generalizing kvs with
  | nil => exact (nomatch hf)
  | cons g fs ih =>
    cases h with
    | cons _ _ v kvs' h1 h2 =>
      rcases List.mem_cons.1 hf with rfl | hf
      · exact ⟨v, h1⟩
      · exact ih h2 hf

/-- C83, the other side: when the document does not have a section and a field of the section has no default in the class,
loading fails, also when an `AddDefault` rule gives that field a value: what the rule inserts is dropped. -/
theorem C83_omitted_false (c : DCfg) (n : String) (fs : List Fld) (vi : VerInfo) (ig : Bool) (d : List (String × Val)) (v0 : Int)
    (hver : dget d "version" = some (.int v0)) (hpl : Plain (.dict d)) (hnd : (fs.map Fld.name).Nodup)
    (hnk : ∀ f ∈ fs, f.name ≠ NAME_KEY) (g m : String) (gs : List Fld) (ver : Option VerInfo)
    (hf : .mk g (.data m gs ver) .none ∈ fs) (hfw : g ≠ WEAK_REF) (hfv : g ≠ "version")
    (habs : dget d g = .none) (hrp : ∀ r ∈ vi.rulesFrom v0, RulePlain r)
    (hr : ∀ r ∈ vi.rulesFrom v0, DefaultInside g r)
    (hpw : (vi.rulesFrom v0).Pairwise (fun r s => ∀ p ∈ r.paths, ∀ q ∈ s.paths, Unrelated p q ∨ Unrelated p [g]))
    (k : String) (t : PyTy) (hk : .mk k t .none ∈ gs) (ht : ∀ a b v, t ≠ .data a b v) :
    ∃ e, fromDict c (.data n fs (some vi)) ig "" (.dict d) = .error e := by
  cases h : fromDict c (.data n fs (some vi)) ig "" (.dict d) with
  | error e => exact ⟨e, rfl⟩
  | ok z =>
    obtain ⟨v, es⟩ := z
    obtain ⟨y, _, hy⟩ := C22_omitted c n fs vi ig d v0 hver hpl hnd hnk (.mk g (.data m gs ver) .none) hf hfw hfv habs hrp hr hpw v es h
    cases hy with
    | built _ _ _ _ kvs hd =>
      obtain ⟨x, hx⟩ := areDefaults_mem hd _ hk
      cases hx with
      | built => exact absurd rfl (ht _ _ _)

/-- the rule gives `net.act` the value None, but a document without `net` is rejected; with an empty `net` it loads -/
example : let vi : VerInfo := ⟨1, [(0, [.addDefault ["net", "act"] .none])]⟩
    let fs : List Fld := [.mk "net" (.data "Net" [.mk "n" .int (some (.int 8)), .mk "act" (.union [.int, .noneT]) .none] none) none]
    (∀ r ∈ vi.rulesFrom 0, DefaultInside "net" r) ∧ (∀ r ∈ vi.rulesFrom 0, RulePlain r) ∧
    hsLoad Ex.world (.data "C" fs (some vi)) (some (.dict [("version", .int 0)])) .none = .error .typeError ∧
    hsLoad Ex.world (.data "C" fs (some vi)) (some (.dict [("version", .int 0), ("net", .dict [])])) .none
      = .ok (.inst "C" [("net", .inst "Net" [("n", .int 8), ("act", .none)])]) := by
  have hr : (VerInfo.mk 1 [(0, [.addDefault ["net", "act"] .none])]).rulesFrom 0 = [.addDefault ["net", "act"] .none] := rfl
  refine ⟨?_, ?_, rfl, rfl⟩
  · rw [hr]
    intro r h
    simp only [List.mem_cons, List.not_mem_nil, or_false] at h
    subst h
    exact .inr ⟨_, _, _, .inl rfl, by decide⟩
  · rw [hr]
    simp [RulePlain, Plain]

/-- two fields of a section the document leaves out; an unrelated rule runs too -/
example : let vi : VerInfo := ⟨2, [(0, [.changeDefault ["net", "n"] (.int 4) (.int 8), .rename ["learning_rate"] ["lr"]]),
      (1, [.changeDefault ["net", "k"] (.int 1) (.int 2)])]⟩
    let fs : List Fld := [.mk "lr" .int .none, .mk "net" (.data "Net" [.mk "n" .int (some (.int 8)), .mk "k" .int (some (.int 2))] none) none]
    (∀ r ∈ vi.rulesFrom 0, DefaultInside "net" r) ∧
    (vi.rulesFrom 0).Pairwise (fun r s => ∀ p ∈ r.paths, ∀ q ∈ s.paths, Unrelated p q ∨ Unrelated p ["net"]) ∧
    hsLoad Ex.world (.data "C" fs (some vi)) (some (.dict [("version", .int 0), ("learning_rate", .int 3)])) .none
      = .ok (.inst "C" [("lr", .int 3), ("net", .inst "Net" [("n", .int 8), ("k", .int 2)])]) := by
  have hr : (VerInfo.mk 2 [(0, [.changeDefault ["net", "n"] (.int 4) (.int 8), .rename ["learning_rate"] ["lr"]]),
      (1, [.changeDefault ["net", "k"] (.int 1) (.int 2)])]).rulesFrom 0 = [.changeDefault ["net", "n"] (.int 4) (.int 8),
        .rename ["learning_rate"] ["lr"], .changeDefault ["net", "k"] (.int 1) (.int 2)] := rfl
  refine ⟨?_, ?_, rfl⟩
  · rw [hr]
    intro r h
    simp only [List.mem_cons, List.not_mem_nil, or_false] at h
    rcases h with rfl | rfl | rfl
    · exact .inr ⟨_, _, _, .inr ⟨_, rfl⟩, by decide⟩
    · exact .inl (by simp [Rule.paths, Unrelated])
    · exact .inr ⟨_, _, _, .inr ⟨_, rfl⟩, by decide⟩
  · rw [hr]
    simp [Rule.paths, Unrelated]

/-- Two `ChangeDefault` rules for the same field do not behave like one: the second one finds the value that the first one
left, and removes the weak mark. A document of version 0 that leaves out the section keeps the old default, a document of
version 1 gets the new one. -/
theorem C22_twice_false : ∃ (fs : List Fld) (vi : VerInfo),
    vi.rulesFrom 0 = [.changeDefault ["net", "n"] (.int 4) (.int 8), .changeDefault ["net", "n"] (.int 8) (.int 16)] ∧
    vi.rulesFrom 1 = [.changeDefault ["net", "n"] (.int 8) (.int 16)] ∧
    hsLoad Ex.world (.data "C" fs (some vi)) (some (.dict [("version", .int 0)])) .none
      = .ok (.inst "C" [("net", .inst "Net" [("n", .int 4)])]) ∧
    hsLoad Ex.world (.data "C" fs (some vi)) (some (.dict [("version", .int 1)])) .none
      = .ok (.inst "C" [("net", .inst "Net" [("n", .int 16)])]) :=
  ⟨[.mk "net" (.data "Net" [.mk "n" .int (some (.int 16))] none) none],
    ⟨2, [(0, [.changeDefault ["net", "n"] (.int 4) (.int 8)]), (1, [.changeDefault ["net", "n"] (.int 8) (.int 16)])]⟩,
    rfl, rfl, rfl, rfl⟩

end HS
