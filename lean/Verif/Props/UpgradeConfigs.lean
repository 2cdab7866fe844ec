import Verif.Props.UpgradeConfig
/-!
# C63: `upgrade-config` on several files
-/
namespace HS

/-- what the command does with one file, on its own: its contents afterwards and the outcome -/
def aloneOutcome (w : World) (ty : PyTy) (elide dryRun : Bool) (dir : List (String × Val)) (f : String) : Except Err Unit :=
  match dget dir f with
  | .none => .error .fileNotFound
  | some doc => (upgradeConfig w ty elide dryRun doc).2

/-- C63: files that are not named are untouched, and no file appears or disappears. -/
theorem C63_frame (w : World) (ty : PyTy) (elide dryRun : Bool) : ∀ (fs : List String) (dir : List (String × Val)) (n : String),
    (n ∉ fs → dget (upgradeConfigs w ty elide dryRun fs dir).1 n = dget dir n) ∧
    ((dget (upgradeConfigs w ty elide dryRun fs dir).1 n).isSome = (dget dir n).isSome) := by
  intro fs
  induction fs with
  | nil => intro dir n; exact ⟨fun _ => rfl, rfl⟩
  | cons f fs ih =>
    intro dir n
    simp only [upgradeConfigs]
    cases hd : dget dir f with
    | none => exact ⟨fun _ => rfl, rfl⟩
    | some doc =>
      have hset : ∀ x : Val, (n ∉ f :: fs → dget (dset dir f x) n = dget dir n) ∧ (dget (dset dir f x) n).isSome = (dget dir n).isSome := by
        intro x
        by_cases hn : n = f
        · subst hn; simp [hd]
        · rw [dget_dset_ne _ _ (Ne.symm hn)]; exact ⟨fun _ => rfl, rfl⟩
      cases hu : upgradeConfig w ty elide dryRun doc with
      | mk doc' r =>
        cases r with
        | error e => simp only [hu]; exact hset doc'
        | ok u =>
          simp only [hu]
          obtain ⟨h1, h2⟩ := ih (dset dir f doc') n
          exact ⟨fun hn => (h1 (fun h => hn (List.mem_cons_of_mem _ h))).trans ((hset doc').1 hn), h2.trans (hset doc').2⟩

/-- C63: with `--dry-run` nothing is changed. -/
theorem C63_dry_run (w : World) (ty : PyTy) (elide : Bool) : ∀ (fs : List String) (dir : List (String × Val)) (n : String),
    dget (upgradeConfigs w ty elide true fs dir).1 n = dget dir n := by
  intro fs
  induction fs with
  | nil => intro dir n; rfl
  | cons f fs ih =>
    intro dir n
    simp only [upgradeConfigs]
    cases hd : dget dir f with
    | none => rfl
    | some doc =>
      have hset : dget (dset dir f doc) n = dget dir n := by
        by_cases hn : n = f
        · subst hn; simp [hd]
        · exact dget_dset_ne _ _ (Ne.symm hn)
      have hu1 := C55_untouched w ty elide true doc (.inl rfl)
      cases hu : upgradeConfig w ty elide true doc with
      | mk doc' r =>
        rw [hu] at hu1
        dsimp only at hu1
        subst hu1
        cases r with
        | error e => simp only [hu]; exact hset
        | ok u => simp only [hu]; exact (ih _ n).trans hset

/-- C63: the files (named once each) are treated one after the other, each as if it were alone, up to the first that fails. The files
before it have been rewritten, that file and the ones after it are as before, and the outcome is that file's. -/
theorem C63_sequence (w : World) (ty : PyTy) (elide dryRun : Bool) : ∀ (fs : List String) (dir : List (String × Val)), fs.Nodup →
    ∃ done rest, fs = done ++ rest ∧
      (∀ f ∈ done, ∃ doc, dget dir f = some doc ∧ (upgradeConfig w ty elide dryRun doc).2 = .ok () ∧
        dget (upgradeConfigs w ty elide dryRun fs dir).1 f = some (upgradeConfig w ty elide dryRun doc).1) ∧
      (∀ n, n ∉ done → dget (upgradeConfigs w ty elide dryRun fs dir).1 n = dget dir n) ∧
      ((rest = [] ∧ (upgradeConfigs w ty elide dryRun fs dir).2 = .ok ()) ∨
        ∃ f rest' e, rest = f :: rest' ∧ aloneOutcome w ty elide dryRun dir f = .error e ∧
          (upgradeConfigs w ty elide dryRun fs dir).2 = .error e) := by
  intro fs
  induction fs with
  | nil => intro dir _; exact ⟨[], [], rfl, by simp, fun _ _ => rfl, .inl ⟨rfl, rfl⟩⟩
  | cons f fs ih =>
    intro dir hnd
    obtain ⟨hf, hnd⟩ := List.nodup_cons.1 hnd
    cases hd : dget dir f with
    | none =>
      have h : upgradeConfigs w ty elide dryRun (f :: fs) dir = (dir, .error .fileNotFound) := by simp only [upgradeConfigs, hd]
      rw [h]
      exact ⟨[], f :: fs, rfl, by simp, fun _ _ => rfl, .inr ⟨f, fs, .fileNotFound, rfl, by simp only [aloneOutcome, hd], rfl⟩⟩
    | some doc =>
      cases hu : upgradeConfig w ty elide dryRun doc with
      | mk doc' r =>
        cases r with
        | error e =>
          have h : upgradeConfigs w ty elide dryRun (f :: fs) dir = (dset dir f doc', .error e) := by simp only [upgradeConfigs, hd, hu]
          have hu1 := C55_untouched w ty elide dryRun doc (.inr ⟨e, by rw [hu]⟩)
          rw [hu] at hu1
          dsimp only at hu1
          rw [h]
          refine ⟨[], f :: fs, rfl, by simp, fun n _ => ?_, .inr ⟨f, fs, e, rfl, by simp only [aloneOutcome, hd, hu], rfl⟩⟩
          subst hu1
          by_cases hn : n = f
          · subst hn; simp [hd]
          · exact dget_dset_ne _ _ (Ne.symm hn)
        | ok u =>
          have h : upgradeConfigs w ty elide dryRun (f :: fs) dir = upgradeConfigs w ty elide dryRun fs (dset dir f doc') := by
            simp only [upgradeConfigs, hd, hu]
          rw [h]
          obtain ⟨done, rest, rfl, h1, h2, h3⟩ := ih (dset dir f doc') hnd
          have hne : ∀ g, g ≠ f → dget (dset dir f doc') g = dget dir g := fun g hg => dget_dset_ne _ _ (Ne.symm hg)
          have hfd : f ∉ done := fun h => hf (List.mem_append_left _ h)
          refine ⟨f :: done, rest, rfl, ?_, ?_, ?_⟩
          · intro g hg
            rcases List.mem_cons.1 hg with rfl | hg
            · refine ⟨doc, hd, by rw [hu], ?_⟩
              rw [h2 g hfd, hu]; simp
            · obtain ⟨d, hd1, hd2⟩ := h1 g hg
              exact ⟨d, by rw [← hd1, hne g (fun h => hfd (h ▸ hg))], hd2⟩
          · intro n hn
            simp only [List.mem_cons, not_or] at hn
            rw [h2 n hn.2, hne n hn.1]
          · rcases h3 with h3 | ⟨g, rest', e, rfl, h4, h5⟩
            · exact .inl h3
            · refine .inr ⟨g, rest', e, rfl, ?_, h5⟩
              have hg : g ≠ f := fun h => hf (h ▸ List.mem_append_right _ (by simp))
              simpa only [aloneOutcome, hne g hg] using h4

/-- C63: the order of the files matters only when one of them fails: if each succeeds on its own, the command succeeds for any order
and leaves the same contents. -/
theorem C63_order (w : World) (ty : PyTy) (elide dryRun : Bool) (fs fs' : List String) (dir : List (String × Val)) (hn : fs.Nodup)
    (hn' : fs'.Nodup) (hm : ∀ f, f ∈ fs ↔ f ∈ fs') (h : ∀ f ∈ fs, aloneOutcome w ty elide dryRun dir f = .ok ()) :
    (upgradeConfigs w ty elide dryRun fs dir).2 = .ok () ∧ (upgradeConfigs w ty elide dryRun fs' dir).2 = .ok () ∧
      ∀ n, dget (upgradeConfigs w ty elide dryRun fs dir).1 n = dget (upgradeConfigs w ty elide dryRun fs' dir).1 n := by
  have key : ∀ gs : List String, gs.Nodup → (∀ f ∈ gs, aloneOutcome w ty elide dryRun dir f = .ok ()) →
      (upgradeConfigs w ty elide dryRun gs dir).2 = .ok () ∧
      (∀ f ∈ gs, ∃ doc, dget dir f = some doc ∧
        dget (upgradeConfigs w ty elide dryRun gs dir).1 f = some (upgradeConfig w ty elide dryRun doc).1) ∧
      ∀ n, n ∉ gs → dget (upgradeConfigs w ty elide dryRun gs dir).1 n = dget dir n := by
    intro gs hg hall
    obtain ⟨done, rest, he, h1, h2, h3⟩ := C63_sequence w ty elide dryRun gs dir hg
    rcases h3 with ⟨rfl, h3⟩ | ⟨f, rest', e, rfl, h4, h5⟩
    · rw [List.append_nil] at he
      subst he
      exact ⟨h3, fun f hf => let ⟨d, hd, _, hx⟩ := h1 f hf; ⟨d, hd, hx⟩, h2⟩
    · have := hall f (by rw [he]; simp)
      rw [h4] at this
      exact (nomatch this)
  obtain ⟨h1, h2, h3⟩ := key fs hn h
  obtain ⟨h1', h2', h3'⟩ := key fs' hn' (fun f hf => h f ((hm f).2 hf))
  refine ⟨h1, h1', fun n => ?_⟩
  by_cases hf : n ∈ fs
  · obtain ⟨d, hd, hx⟩ := h2 n hf
    obtain ⟨d', hd', hx'⟩ := h2' n ((hm n).1 hf)
    rw [hd] at hd'
    cases hd'
    rw [hx, hx']
  · rw [h3 n hf, h3' n (fun h => hf ((hm n).2 h))]

/-- C63 (part: as C55, with `--include-defaults` and files without schedules). If every named file loads, the command succeeds, every file of the
directory means the same as before, and running it again changes nothing; files may be named twice. -/
theorem C63_meaning_partial (w : World) (ty : PyTy) (hty : TyOK w.ext ty) (henv : EnvOK w.env ty) (hdc : isData ty = true) (hd : DeclOK ty)
    (hf : FirmDecl ty) (fs : List String) (dir : List (String × Val))
    (h : ∀ f ∈ fs, ∃ doc r, dget dir f = some doc ∧ Plain doc ∧
      typedLoad (w.dcfg false true) w.ron .none false ty doc = .ok r ∧ r.schedules = []) :
    ∃ dir', upgradeConfigs w ty false false fs dir = (dir', .ok ()) ∧
      (∀ n doc, dget dir n = some doc → ∃ doc', dget dir' n = some doc' ∧ hsLoad w ty (some doc') .none = hsLoad w ty (some doc) .none) ∧
      ∀ n, dget (upgradeConfigs w ty false false fs dir').1 n = dget dir' n := by
  -- a file is good when the command keeps its meaning, and the result is a fixed point
  let Good : Val → Prop := fun doc => ∃ doc' v, upgradeConfig w ty false false doc = (doc', .ok ()) ∧
    hsLoad w ty (some doc) .none = .ok v ∧ hsLoad w ty (some doc') .none = .ok v ∧ upgradeConfig w ty false false doc' = (doc', .ok ())
  have hgood : ∀ f ∈ fs, ∃ doc, dget dir f = some doc ∧ Good doc := by
    intro f hfm
    obtain ⟨doc, r, h1, h2, h3, h4⟩ := h f hfm
    obtain ⟨doc', h5, h6, h7, h8⟩ := C55_every_document_partial w ty doc r hty henv hdc hd hf h2 h3 h4
    exact ⟨doc, h1, doc', r.value, h5, h6, h7, h8⟩
  have hfix : ∀ (gs : List String) (d : List (String × Val)),
      (∀ f ∈ gs, ∃ doc, dget d f = some doc ∧ upgradeConfig w ty false false doc = (doc, .ok ())) →
      ∀ n, dget (upgradeConfigs w ty false false gs d).1 n = dget d n := by
    intro gs
    induction gs with
    | nil => intro d _ n; rfl
    | cons f gs ih =>
      intro d hg n
      obtain ⟨doc, h1, h2⟩ := hg f (by simp)
      have hs : ∀ n, dget (dset d f doc) n = dget d n := by
        intro n
        by_cases hn : n = f
        · subst hn; simp [h1]
        · exact dget_dset_ne _ _ (Ne.symm hn)
      simp only [upgradeConfigs, h1, h2]
      rw [ih (dset d f doc) (fun g hgm => by rw [hs]; exact hg g (List.mem_cons_of_mem _ hgm)), hs]
  have key : ∀ (gs : List String) (d : List (String × Val)), (∀ f ∈ gs, ∃ doc, dget d f = some doc ∧ Good doc) →
      ∃ d', upgradeConfigs w ty false false gs d = (d', .ok ()) ∧
        (∀ n doc, dget d n = some doc → ∃ doc', dget d' n = some doc' ∧ hsLoad w ty (some doc') .none = hsLoad w ty (some doc) .none ∧
          (upgradeConfig w ty false false doc = (doc, .ok ()) → doc' = doc)) ∧
        ∀ f ∈ gs, ∃ doc', dget d' f = some doc' ∧ upgradeConfig w ty false false doc' = (doc', .ok ()) := by
    intro gs
    induction gs with
    | nil => intro d _; exact ⟨d, rfl, fun n doc h => ⟨doc, h, rfl, fun _ => rfl⟩, by simp⟩
    | cons f gs ih =>
      intro d hg
      obtain ⟨doc, h1, doc1, v, h2, h3, h4, h5⟩ := hg f (by simp)
      have hg1 : Good doc1 := ⟨doc1, v, h5, h4, h4, h5⟩
      obtain ⟨d', h6, h7, h8⟩ := ih (dset d f doc1) (by
        intro g hgm
        by_cases hgf : g = f
        · subst hgf; exact ⟨doc1, by simp, hg1⟩
        · rw [dget_dset_ne _ _ (Ne.symm hgf)]; exact hg g (List.mem_cons_of_mem _ hgm))
      refine ⟨d', by simp only [upgradeConfigs, h1, h2, h6], ?_, ?_⟩
      · intro n x hx
        by_cases hn : n = f
        · subst hn
          rw [h1] at hx
          cases hx
          obtain ⟨y, hy1, hy2, hy3⟩ := h7 n doc1 (by simp)
          refine ⟨y, hy1, by rw [hy2, h3, h4], fun hfx => ?_⟩
          rw [h2] at hfx
          simp only [Prod.mk.injEq, and_true] at hfx
          rw [hy3 h5, hfx]
        · exact h7 n x (by rw [dget_dset_ne _ _ (Ne.symm hn)]; exact hx)
      · intro g hgm
        rcases List.mem_cons.1 hgm with rfl | hgm
        · obtain ⟨y, hy1, hy2, hy3⟩ := h7 g doc1 (by simp)
          have := hy3 h5
          subst this
          exact ⟨y, hy1, h5⟩
        · exact h8 g hgm
  obtain ⟨d', h1, h2, h3⟩ := key fs dir hgood
  exact ⟨d', h1, fun n doc hn => let ⟨y, a, b, _⟩ := h2 n doc hn; ⟨y, a, b⟩, hfix fs d' h3⟩

namespace ExU
def dir : List (String × Val) := [("a.ron", doc), ("b.ron", .dict [("lr", .int 1)]), ("c.ron", doc)]
end ExU

/-- Of three files the second fails (it has no version): the first is rewritten, the third is not. Without it, the two others, one of
them named twice, meet the hypotheses of `C63_meaning_partial` (the conditions on the class are shown for C55). -/
example : upgradeConfigs ExU.w ExU.ty true false ["a.ron", "b.ron", "c.ron"] ExU.dir =
      ([("a.ron", ExU.doc'), ("b.ron", .dict [("lr", .int 1)]), ("c.ron", ExU.doc)], .error .valueError) ∧
    (∀ f ∈ ["a.ron", "c.ron", "a.ron"], ∃ doc r, dget ExU.dir f = some doc ∧ Plain doc ∧
      typedLoad (ExU.w.dcfg false true) ExU.w.ron .none false ExU.ty doc = .ok r ∧ r.schedules = []) ∧
    ∀ f ∈ ["a.ron", "c.ron"], aloneOutcome ExU.w ExU.ty true false ExU.dir f = .ok () := by
  refine ⟨rfl, ?_, ?_⟩
  · intro f hf
    refine ⟨ExU.doc, ⟨.inst "C" [("lr", .flt (.fin 3)), ("n", .none)], [], []⟩, ?_, by simp [ExU.doc, Plain, PlainD, PlainP, dkeys], rfl, rfl⟩
    simp only [List.mem_cons, List.not_mem_nil, or_false] at hf
    rcases hf with rfl | rfl | rfl <;> rfl
  · intro f hf
    simp only [List.mem_cons, List.not_mem_nil, or_false] at hf
    rcases hf with rfl | rfl <;> rfl

end HS
