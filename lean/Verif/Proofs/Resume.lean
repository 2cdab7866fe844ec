import Verif.Spec.Subtype
import Verif.Spec.Restore
import Verif.Proofs.Dict
import Verif.Proofs.Subtype
import Verif.Proofs.Apply
import Verif.Proofs.CompatMain

/-! Lemmas for the claims about a run that goes on with a changed config class: registries made from alike schedules are alike.  -/

namespace HS

mutual
/-- the same schedule, maybe of an int field before and of a float field now -/
inductive RLike : Reg → Reg → Prop
  | sched {t i j a} : (j = true → i = true) → RLike (.sched t i a) (.sched t j a)
  | node {es fs} : RLikeD es fs → RLike (.node es) (.node fs)
inductive RLikeD : RegD → RegD → Prop
  | nil : RLikeD [] []
  | cons {k a b es fs} : RLike a b → RLikeD es fs → RLikeD ((k, a) :: es) ((k, b) :: fs)
end

theorem RLikeD.get : ∀ {es fs : RegD}, RLikeD es fs → ∀ k, match dget es k, dget fs k with
    | some a, some b => RLike a b
    | .none, .none => True
    | _, _ => False
  | _, _, .nil, k => by simp [dget]
  | _, _, .cons (k := k') h1 h2, k => by
    simp only [dget]
    by_cases hk : k' = k
    · simpa [hk] using h1
    · simpa [hk] using RLikeD.get h2 k

theorem RLikeD.some {es fs : RegD} (h : RLikeD es fs) {k : String} {a : Reg} (ha : dget es k = some a) : ∃ b, dget fs k = some b ∧ RLike a b := by
  have := h.get k
  rw [ha] at this
  cases hb : dget fs k with
  | none => rw [hb] at this; exact this.elim
  | some b => rw [hb] at this; exact ⟨b, rfl, this⟩

theorem RLikeD.none {es fs : RegD} (h : RLikeD es fs) {k : String} (ha : dget es k = .none) : dget fs k = .none := by
  have := h.get k
  rw [ha] at this
  cases hb : dget fs k with
  | none => rfl
  | some b => rw [hb] at this; exact this.elim

theorem RLikeD.has {es fs : RegD} (h : RLikeD es fs) (k : String) : dhas fs k = dhas es k := by
  cases ha : dget es k with
  | none => rw [(dhas_false es k).2 ha, (dhas_false fs k).2 (h.none ha)]
  | some a =>
    obtain ⟨b, hb, -⟩ := h.some ha
    rw [(dhas_iff es k).2 ⟨a, ha⟩, (dhas_iff fs k).2 ⟨b, hb⟩]

theorem RLikeD.set : ∀ {es fs : RegD}, RLikeD es fs → ∀ (k : String) {a b : Reg}, RLike a b → RLikeD (dset es k a) (dset fs k b)
  | _, _, .nil, k, _, _, h => .cons h .nil
  | _, _, .cons (k := k') h1 h2, k, _, _, h => by
    simp only [dset]
    by_cases hk : k' = k
    · simp only [hk, if_true]; exact .cons h h2
    · simp only [hk, if_false]; exact .cons h1 (RLikeD.set h2 k h)

theorem regEnsure_like {top top' : RegD} (h : RLikeD top top') (cur : Option String) (s : String) {t : RegD}
    (he : regEnsure top cur s = .ok t) : ∃ t', regEnsure top' cur s = .ok t' ∧ RLikeD t t' := by
  cases cur with
  | none =>
    simp only [regEnsure, Except.ok.injEq] at he ⊢
    refine ⟨_, rfl, ?_⟩
    subst he
    rw [h.has s]
    split
    · exact h
    · exact h.set s (.node .nil)
  | some c =>
    simp only [regEnsure] at he ⊢
    cases hc : dget top c with
    | none => rw [hc] at he; exact (nomatch he)
    | some r =>
      rw [hc] at he
      obtain ⟨r', hc', hr⟩ := h.some hc
      rw [hc']
      cases hr with
      | sched _ => exact (nomatch he)
      | node hd =>
        simp only [Except.ok.injEq] at he ⊢
        refine ⟨_, rfl, ?_⟩
        subst he
        rw [hd.has s]
        split
        · exact h
        · exact h.set c (.node (hd.set s (.node .nil)))

theorem regWalk_like : ∀ (ss : List String) {top top' : RegD}, RLikeD top top' → ∀ (cur : Option String) {q : RegD × Option String},
    regWalk top cur ss = .ok q → ∃ t', regWalk top' cur ss = .ok (t', q.2) ∧ RLikeD q.1 t'
  | [], _, _, h, cur, q, hq => by
    simp only [regWalk, Except.ok.injEq] at hq ⊢
    subst hq
    exact ⟨_, rfl, h⟩
  | s :: ss, top, top', h, cur, q, hq => by
    simp only [regWalk, bind, Except.bind] at hq ⊢
    cases he : regEnsure top cur s with
    | error e => rw [he] at hq; exact (nomatch hq)
    | ok t =>
      rw [he] at hq
      obtain ⟨t', ht', hl⟩ := regEnsure_like h cur s he
      rw [ht']
      simp only [] at hq ⊢
      rw [hl.has s]
      split at hq
      · rename_i hh
        rw [if_pos hh]
        exact regWalk_like ss hl _ hq
      · exact (nomatch hq)

theorem regInsert_like {top top' : RegD} (h : RLikeD top top') (p t : String) {i j : Bool} (hij : j = true → i = true) {q : RegD}
    (hq : regInsert top p t i = .ok q) : ∃ q', regInsert top' p t j = .ok q' ∧ RLikeD q q' := by
  simp only [regInsert, bind, Except.bind, pure, Except.pure] at hq ⊢
  cases hw : regWalk top .none (pySplit '.' p).dropLast with
  | error e => rw [hw] at hq; exact (nomatch hq)
  | ok z =>
    rw [hw] at hq
    obtain ⟨z1, z2⟩ := z
    obtain ⟨t', ht', hl⟩ := regWalk_like _ h _ hw
    rw [ht']
    cases z2 with
    | none =>
      simp only [Except.ok.injEq] at hq ⊢
      subst hq
      exact ⟨_, rfl, hl.set _ (.sched hij)⟩
    | some c =>
      simp only at hq hl ⊢
      cases hc : dget z1 c with
      | none => rw [hc] at hq; exact (nomatch hq)
      | some r =>
        rw [hc] at hq
        obtain ⟨r', hc', hr⟩ := hl.some hc
        rw [hc']
        cases hr with
        | sched _ => exact (nomatch hq)
        | node hd =>
          simp only [Except.ok.injEq] at hq ⊢
          subst hq
          exact ⟨_, rfl, hl.set c (.node (hd.set _ (.sched hij)))⟩

theorem regAll_like : ∀ {es es' : List Ev}, EvsLike es es' → ∀ {top top' : RegD}, RLikeD top top' → ∀ {q : RegD}, regAll top es = .ok q →
    ∃ q', regAll top' es' = .ok q' ∧ RLikeD q q'
  | [], [], _, _, _, h, q, hq => by
    simp only [regAll, Except.ok.injEq] at hq ⊢
    subst hq
    exact ⟨_, rfl, h⟩
  | [], _ :: _, he, _, _, _, _, _ => he.elim
  | _ :: _, [], he, _, _, _, _, _ => he.elim
  | e :: es, e' :: es', he, top, top', h, q, hq => by
    obtain ⟨he1, he2⟩ := he
    have key : ∀ p t i j, (j = true → i = true) → regAll top (.sched p t i :: es) = .ok q →
        ∃ q', regAll top' (.sched p t j :: es') = .ok q' ∧ RLikeD q q' := by
      intro p t i j hij hq
      simp only [regAll, bind, Except.bind] at hq ⊢
      cases hi : regInsert top p t i with
      | error e => rw [hi] at hq; exact (nomatch hq)
      | ok z =>
        rw [hi] at hq
        obtain ⟨z', hz', hl⟩ := regInsert_like h p t hij hi
        rw [hz']
        exact regAll_like he2 hl hq
    cases he1 with
    | float => exact key _ _ _ _ (fun _ => rfl) hq
    | same =>
      cases e with
      | sched p t i => exact key p t i i id hq
      | lazy p c f k =>
        simp only [regAll] at hq ⊢
        exact regAll_like he2 h hq

theorem lazyInto_like : ∀ {es es' : List Ev}, EvsLike es es' → ∀ d, lazyInto d es' = lazyInto d es
  | [], [], _, _ => rfl
  | [], _ :: _, he, _ => he.elim
  | _ :: _, [], he, _ => he.elim
  | e :: es, e' :: es', he, d => by
    obtain ⟨he1, he2⟩ := he
    cases he1 with
    | float => simp only [lazyInto]; exact lazyInto_like he2 d
    | same => cases e <;> simp only [lazyInto] <;> exact lazyInto_like he2 _

mutual
theorem RLike.at {a b : Reg} (h : RLike a b) : ∀ segs, (∀ t i, Reg.at (some a) segs = some (t, i) → ∃ j, Reg.at (some b) segs = some (t, j) ∧
    (j = true → i = true)) ∧ (Reg.at (some a) segs = .none → Reg.at (some b) segs = .none) := by
  intro segs
  cases h with
  | sched hij =>
    cases segs with
    | nil => simp only [Reg.at]; refine ⟨?_, nofun⟩; rintro t i ⟨⟩; exact ⟨_, rfl, hij⟩
    | cons s ss => simp [Reg.at]
  | node hd =>
    cases segs with
    | nil => simp [Reg.at]
    | cons s ss => simp only [Reg.at]; exact RLikeD.at hd s ss
theorem RLikeD.at {es fs : RegD} (h : RLikeD es fs) : ∀ s segs, (∀ t i, Reg.at (dget es s) segs = some (t, i) → ∃ j, Reg.at (dget fs s) segs = some (t, j) ∧
    (j = true → i = true)) ∧ (Reg.at (dget es s) segs = .none → Reg.at (dget fs s) segs = .none) := by
  intro s segs
  cases h with
  | nil => cases segs <;> simp [dget, Reg.at]
  | cons h1 h2 =>
    rename_i k a b es fs
    simp only [dget]
    by_cases hk : k = s
    · simpa [hk] using RLike.at h1 segs
    · simpa [hk] using RLikeD.at h2 s segs
end

/-! ## applying alike registries to configs that agree on a document -/

/-- two dataclass instances agree on the fields set in a document -/
def KeptF (x : Val) (ys zs : List (String × Val)) : Prop :=
  ∀ k a, dget x.entries k = some a → k ≠ NAME_KEY → a.isWeak = false → ∃ v w, dget ys k = some v ∧ dget zs k = some w ∧ Kept a v w

theorem KeptF.kept {x : Val} {ys zs : List (String × Val)} (h : KeptF x ys zs) (n m : String) : Kept x (.inst n ys) (.inst m zs) := by
  refine .inst ?_ ?_
  · intro k a hk hn hw
    obtain ⟨v, w, h1, h2, -⟩ := h k a hk hn hw
    simp [dhas, h1, h2]
  · intro k a b c hk hn hw hb hc
    obtain ⟨v, w, h1, h2, h3⟩ := h k a hk hn hw
    rw [h1] at hb
    rw [h2] at hc
    cases hb
    cases hc
    exact h3

/-- what is kept of an instance is an instance -/
theorem kept_inst {x w : Val} {n : String} {ys : List (String × Val)} (hx : Raw x) (h : Kept x (.inst n ys) w) :
    ∃ m zs, w = .inst m zs ∧ KeptF x ys zs := by
  cases h with
  | doc => exact absurd (hx _ .refl) (by simp [Val.isRaw])
  | refl h => exact absurd rfl (h _ _)
  | same h => exact absurd rfl (h _ _)
  | inst h1 h2 =>
    refine ⟨_, _, rfl, ?_⟩
    intro k a hk hn hw
    obtain ⟨a1, a2⟩ := h1 k a hk hn hw
    obtain ⟨v, hv⟩ := (dhas_iff _ _).1 a1
    obtain ⟨w, hw'⟩ := (dhas_iff _ _).1 a2
    exact ⟨v, w, hv, hw', h2 k a v w hk hn hw hv hw'⟩

theorem KeptF.set {x : Val} {ys zs : List (String × Val)} (h : KeptF x ys zs) (k : String) {v w : Val}
    (hk : ∀ a, dget x.entries k = some a → Kept a v w) : KeptF x (dset ys k v) (dset zs k w) := by
  intro q a hq hn hw
  by_cases he : k = q
  · subst he
    exact ⟨v, w, by simp, by simp, hk a hq⟩
  · obtain ⟨v', w', h1, h2, h3⟩ := h q a hq hn hw
    exact ⟨v', w', by rw [dget_dset_ne _ _ he, h1], by rw [dget_dset_ne _ _ he, h2], h3⟩

theorem schedVal_like {sv : String → Except Err Flt} {t : String} {i j : Bool} (hij : j = true → i = true) {v : Val}
    (h : schedVal sv t i = .ok v) : ∃ w, schedVal sv t j = .ok w ∧ ∀ a, Kept a v w := by
  simp only [schedVal, bind, Except.bind, pure, Except.pure] at h ⊢
  cases hs : sv t with
  | error e => rw [hs] at h; exact (nomatch h)
  | ok f =>
    rw [hs] at h
    cases i <;> cases j <;> simp only [if_true, Bool.false_eq_true, if_false] at h ⊢
    · cases h
      exact ⟨_, rfl, fun a => .refl nofun⟩
    · exact absurd (hij rfl) (by simp)
    · cases hf : f.toInt with
      | error e => rw [hf] at h; exact (nomatch h)
      | ok n =>
        rw [hf] at h
        cases h
        exact ⟨_, rfl, fun a => .trunc hf⟩
    · cases hf : f.toInt with
      | error e => rw [hf] at h; exact (nomatch h)
      | ok n =>
        rw [hf] at h
        cases h
        exact ⟨_, rfl, fun a => .refl nofun⟩

/-- every dict in the registry is for a field set in the document and holds schedules -/
def Reaches (x : Val) (es : RegD) : Prop := ∀ k fs, (k, Reg.node fs) ∈ es → (∃ a, dget x.entries k = some a ∧ k ≠ NAME_KEY ∧ a.isWeak = false ∧ Raw a) ∧
  (∀ k' r, (k', r) ∈ fs → ∃ t i b, r = .sched t i b)

theorem apply_like (sv : String → Except Err Flt) : ∀ (N : Nat) (es fs : RegD), sizeOf es < N → RLikeD es fs → ∀ (x : Val) (n m : String) (ys zs : List (String × Val)) (c : Val),
    Reaches x es → KeptF x ys zs → applyRegD sv es (.inst n ys) = .ok c →
    ∃ ys' zs', c = .inst n ys' ∧ applyRegD sv fs (.inst m zs) = .ok (.inst m zs') ∧ KeptF x ys' zs' := by
  intro N
  induction N with
  | zero => intro es fs hN; exact absurd hN (Nat.not_lt_zero _)
  | succ N ih =>
    intro es fs hN hl x n m ys zs c hr hk h
    cases hl with
    | nil =>
      simp only [applyRegD, Except.ok.injEq] at h ⊢
      exact ⟨ys, zs, h.symm, rfl, hk⟩
    | cons h1 h2 =>
      rename_i k a b es fs
      simp only [List.cons.sizeOf_spec, Prod.mk.sizeOf_spec] at hN
      have hrest : Reaches x es := fun k' f' hm => hr k' f' (List.mem_cons_of_mem _ hm)
      simp only [applyRegD, applyRegE, bind, Except.bind] at h ⊢
      cases h1 with
      | sched hij =>
        rename_i t i j at'
        simp only [applyReg, bind, Except.bind] at h ⊢
        cases hs : schedVal sv t i with
        | error e => rw [hs] at h; exact (nomatch h)
        | ok v =>
          obtain ⟨w, hw, hkw⟩ := schedVal_like hij hs
          rw [hs] at h
          rw [hw]
          simp only [setAttr] at h ⊢
          exact ih es fs (by omega) h2 x n m _ _ c hrest (hk.set at' (fun a _ => hkw a)) h
      | node hd =>
        rename_i es' fs'
        obtain ⟨⟨a, ha, hn, hw, hraw⟩, hsch⟩ := hr k es' (by simp)
        obtain ⟨v, w, hv, hw', hkv⟩ := hk k a ha hn hw
        simp only [applyReg, getAttr, hv, hw', bind, Except.bind] at h ⊢
        have hinner : Reaches a es' := by
          intro k' f' hm
          obtain ⟨t, i, b, he⟩ := hsch k' _ hm
          exact (nomatch he)
        simp only [Reg.node.sizeOf_spec] at hN
        cases ha' : applyRegD sv es' v with
        | error e => rw [ha'] at h; exact (nomatch h)
        | ok v' =>
          rw [ha'] at h
          cases v with
          | inst n' ys' =>
            obtain ⟨m', zs', rfl, hkf⟩ := kept_inst hraw hkv
            obtain ⟨ys2, zs2, rfl, h4, h5⟩ := ih es' fs' (by omega) hd a n' m' ys' zs' v' hinner hkf ha'
            rw [h4]
            simp only [setAttr] at h ⊢
            refine ih es fs (by omega) h2 x n m _ _ c hrest (hk.set k ?_) h
            intro a2 ha2
            rw [ha] at ha2
            cases ha2
            exact h5.kept _ _
          | _ =>
            cases es' with
            | nil =>
              cases hd
              simp only [applyRegD, Except.ok.injEq] at ha' ⊢
              subst ha'
              simp only [setAttr] at h ⊢
              refine ih es fs (by omega) h2 x n m _ _ c hrest (hk.set k ?_) h
              intro a2 ha2
              rw [ha] at ha2
              cases ha2
              exact hkv
            | cons e es' =>
              obtain ⟨k', r⟩ := e
              obtain ⟨t, i, b, rfl⟩ := hsch k' r (by simp)
              simp only [applyRegD, applyRegE, applyReg, bind, Except.bind, setAttr] at ha'
              cases hs : schedVal sv t i <;> rw [hs] at ha' <;> exact (nomatch ha')

end HS
