import Verif.Spec.Help
import Verif.Proofs.Compat
import Verif.Proofs.Overrides
/-! # Lemmas about `find_fields` -/
namespace HS
variable {lower : Char → String} {q : String}

/-- the fields inside a field's type -/
def SubAt (ty : PyTy) (p : List String) (g : Fld) : Prop := ∃ n fs ver, ty = .data n fs ver ∧ DirectAt fs p g

/-- the field itself, or one inside its type -/
def OneAt (f : Fld) (p : List String) (g : Fld) : Prop := (p = [f.name] ∧ g = f) ∨ ∃ p', p = f.name :: p' ∧ SubAt f.ty p' g

theorem direct_iff (fs : List Fld) (p : List String) (g : Fld) : DirectAt fs p g ↔ ∃ f ∈ fs, OneAt f p g := by
  constructor
  · intro h
    cases h with
    | here h => exact ⟨g, h, .inl ⟨rfl, rfl⟩⟩
    | there h1 h2 h3 => exact ⟨_, h1, .inr ⟨_, rfl, _, _, _, h2, h3⟩⟩
  · rintro ⟨f, hf, ⟨rfl, rfl⟩ | ⟨p', rfl, n, fs', ver, h1, h2⟩⟩
    · exact .here hf
    · exact .there hf h1 h2

theorem oneAt_head {f g : Fld} {p : List String} (h : OneAt f p g) : ∃ p', p = f.name :: p' := by
  rcases h with ⟨rfl, _⟩ | ⟨p', rfl, _⟩
  · exact ⟨[], rfl⟩
  · exact ⟨p', rfl⟩

def DNty (ty : PyTy) : Prop := ∀ n fs ver, ty = .data n fs ver → DistinctNames fs

/-- what the search returns below `path` for the fields described by `At` -/
structure FoundOK (lower : Char → String) (q : String) (path : List String) (At : List String → Fld → Prop) (rs : List Found) : Prop where
  sound : ∀ r ∈ rs, ∃ p f t, r.fullPath = path ++ p ∧ At p f ∧ materialize f.ty = .ok t ∧ r.field = schemaFld f t ∧
    nameSimilarity lower f.name q = .ok r.sim
  complete : ∀ p f, At p f → ∃ r ∈ rs, r.fullPath = path ++ p

theorem helpT_other {S : STy} (h : ∀ n fs v, S ≠ .struct n fs v) (path : List String) : helpT lower q path S = .ok [] := by
  cases S with
  | struct n fs v => exact absurd rfl (h n fs v)
  | _ => rfl

theorem foundOK_nil {path : List String} {ty : PyTy} (h : ∀ n fs ver, ty ≠ .data n fs ver) :
    FoundOK lower q path (SubAt ty) [] :=
  ⟨fun r hr => (nomatch hr), fun p f ⟨n, fs, ver, h1, _⟩ => absurd h1 (h n fs ver)⟩

theorem mat_struct : ∀ {ty : PyTy} {n : String} {F : List (String × SFld)} {v : Option Int}, materialize ty = .ok (.struct n F v) →
    ∃ fs ver, ty = .data n fs ver
  | .data n' fs ver, n, F, v, h => by
    obtain ⟨F', _, h2⟩ := materialize_data h
    cases h2
    exact ⟨fs, ver, rfl⟩
  | .int, _, _, _, h | .str, _, _, _, h | .bool, _, _, _, h | .float, _, _, _, h | .noneT, _, _, _, h | .blob _, _, _, _, h
  | .enum _ _, _, _, _, h | .literal _, _, _, _, h => by simp [materialize] at h
  | .list a, _, _, _, h => by
    simp only [materialize, bind, Except.bind, pure, Except.pure] at h
    cases h1 : materialize a with
    | error e => rw [h1] at h; exact (nomatch h)
    | ok x => rw [h1] at h; exact (nomatch h)
  | .tuple a, _, _, _, h => by
    simp only [materialize, bind, Except.bind, pure, Except.pure] at h
    cases h1 : materializeL a with
    | error e => rw [h1] at h; exact (nomatch h)
    | ok x => rw [h1] at h; exact (nomatch h)
  | .dict a b, _, _, _, h => by
    simp only [materialize, bind, Except.bind, pure, Except.pure] at h
    cases h1 : materialize a with
    | error e => rw [h1] at h; exact (nomatch h)
    | ok x =>
      cases h2 : materialize b with
      | error e => rw [h1, h2] at h; exact (nomatch h)
      | ok y => rw [h1, h2] at h; exact (nomatch h)
  | .union as, _, _, _, h => by
    simp only [materialize, bind, Except.bind, pure, Except.pure] at h
    split at h
    · cases as with
      | nil => simp [materializeOpt] at h
      | cons t ts =>
        simp only [materializeOpt, bind, Except.bind, pure, Except.pure] at h
        cases h1 : materialize t with
        | error e => rw [h1] at h; exact (nomatch h)
        | ok x => rw [h1] at h; exact (nomatch h)
    · cases h1 : materializeL as with
      | error e => rw [h1] at h; exact (nomatch h)
      | ok x => rw [h1] at h; exact (nomatch h)

mutual
theorem helpT_ok : ∀ (ty : PyTy) (S : STy) (path : List String) (rs : List Found), materialize ty = .ok S →
    helpT lower q path S = .ok rs → FoundOK lower q path (SubAt ty) rs ∧ (DNty ty → (rs.map Found.fullPath).Nodup)
  | .data n fs ver, S, path, rs, hm, h => by
    obtain ⟨F, h1, rfl⟩ := materialize_data hm
    obtain ⟨h2, h3⟩ := helpF_ok fs F path rs h1 h
    refine ⟨⟨?_, ?_⟩, ?_⟩
    · intro r hr
      obtain ⟨p, f, t, h4, h5, h6⟩ := h2.sound r hr
      exact ⟨p, f, t, h4, ⟨n, fs, ver, rfl, h5⟩, h6⟩
    · rintro p f ⟨n', fs', ver', h4, h5⟩
      cases h4
      exact h2.complete p f h5
    · intro hd
      cases hd n fs ver rfl with
      | mk h4 h5 => exact h3 h4 (fun f hf n' fs' ver' he => h5 f n' fs' ver' hf he)
  | .int, S, path, rs, hm, h | .str, S, path, rs, hm, h | .bool, S, path, rs, hm, h | .float, S, path, rs, hm, h
  | .noneT, S, path, rs, hm, h | .blob _, S, path, rs, hm, h
  | .enum _ _, S, path, rs, hm, h | .literal _, S, path, rs, hm, h | .list _, S, path, rs, hm, h | .tuple _, S, path, rs, hm, h
  | .dict _ _, S, path, rs, hm, h | .union _, S, path, rs, hm, h => by
    have hne : ∀ n fs v, S ≠ .struct n fs v := by
      rintro n fs v rfl
      obtain ⟨_, _, h1⟩ := mat_struct hm
      exact (nomatch h1)
    rw [helpT_other hne] at h
    cases h
    exact ⟨foundOK_nil (fun _ _ _ h1 => nomatch h1), fun _ => List.nodup_nil⟩
theorem helpF_ok : ∀ (fs : List Fld) (F : List (String × SFld)) (path : List String) (rs : List Found), materializeF fs = .ok F →
    helpF lower q path F = .ok rs → FoundOK lower q path (DirectAt fs) rs ∧
      ((fs.map Fld.name).Nodup → (∀ f ∈ fs, DNty f.ty) → (rs.map Found.fullPath).Nodup)
  | [], F, path, rs, hm, h => by
    simp only [materializeF] at hm
    cases hm
    simp only [helpF] at h
    cases h
    refine ⟨⟨fun r hr => (nomatch hr), fun p f h1 => ?_⟩, fun _ _ => List.nodup_nil⟩
    obtain ⟨_, h2, _⟩ := (direct_iff _ _ _).1 h1
    exact (nomatch h2)
  | f :: fs, F, path, rs, hm, h => by
    obtain ⟨t, F', h1, h2, rfl⟩ := matF_cons hm
    simp only [helpF, helpP, bind, Except.bind, pure, Except.pure] at h
    cases h3 : helpS lower q path (schemaFld f t) with
    | error e => rw [h3] at h; exact (nomatch h)
    | ok r1 =>
      cases h4 : helpF lower q path F' with
      | error e => rw [h3, h4] at h; exact (nomatch h)
      | ok r2 =>
        rw [h3, h4] at h
        cases h
        obtain ⟨a1, a2⟩ := helpS_ok f t path r1 h1 h3
        obtain ⟨b1, b2⟩ := helpF_ok fs F' path r2 h2 h4
        refine ⟨⟨?_, ?_⟩, ?_⟩
        · intro r hr
          rcases List.mem_append.1 hr with hr | hr
          · obtain ⟨p, g, t', c1, c2, c3⟩ := a1.sound r hr
            exact ⟨p, g, t', c1, (direct_iff _ _ _).2 ⟨f, by simp, c2⟩, c3⟩
          · obtain ⟨p, g, t', c1, c2, c3⟩ := b1.sound r hr
            obtain ⟨f', d1, d2⟩ := (direct_iff _ _ _).1 c2
            exact ⟨p, g, t', c1, (direct_iff _ _ _).2 ⟨f', by simp [d1], d2⟩, c3⟩
        · intro p g hp
          obtain ⟨f', d1, d2⟩ := (direct_iff _ _ _).1 hp
          rcases List.mem_cons.1 d1 with rfl | d1
          · obtain ⟨r, e1, e2⟩ := a1.complete p g d2
            exact ⟨r, List.mem_append_left _ e1, e2⟩
          · obtain ⟨r, e1, e2⟩ := b1.complete p g ((direct_iff _ _ _).2 ⟨f', d1, d2⟩)
            exact ⟨r, List.mem_append_right _ e1, e2⟩
        · intro hn hd
          rw [List.map_cons, List.nodup_cons] at hn
          rw [List.map_append, List.nodup_append]
          refine ⟨a2 (hd f (by simp)), b2 hn.2 (fun g hg => hd g (by simp [hg])), ?_⟩
          intro x hx y hy hxy
          obtain ⟨r, hr, rfl⟩ := List.mem_map.1 hx
          obtain ⟨r', hr', rfl⟩ := List.mem_map.1 hy
          obtain ⟨p, g, _, c1, c2, _⟩ := a1.sound r hr
          obtain ⟨p', g', _, c1', c2', _⟩ := b1.sound r' hr'
          obtain ⟨f', d1, d2⟩ := (direct_iff _ _ _).1 c2'
          obtain ⟨u, hu⟩ := oneAt_head c2
          obtain ⟨u', hu'⟩ := oneAt_head d2
          rw [c1, c1', hu, hu'] at hxy
          have := List.append_cancel_left hxy
          rw [List.cons.injEq] at this
          exact hn.1 (by rw [this.1]; exact List.mem_map_of_mem d1)
theorem helpS_ok : ∀ (f : Fld) (t : STy) (path : List String) (rs : List Found), materialize f.ty = .ok t →
    helpS lower q path (schemaFld f t) = .ok rs → FoundOK lower q path (OneAt f) rs ∧ (DNty f.ty → (rs.map Found.fullPath).Nodup)
  | .mk n ty d, t, path, rs, hm, h => by
    simp only [schemaFld, helpS, bind, Except.bind, pure, Except.pure] at h
    rw [show (Fld.mk n ty d).name = n from rfl] at h
    cases h1 : nameSimilarity lower n q with
    | error e => rw [h1] at h; exact (nomatch h)
    | ok s =>
      rw [h1] at h
      cases h2 : helpT lower q (path ++ [n]) t with
      | error e => rw [h2] at h; exact (nomatch h)
      | ok rs' =>
        rw [h2] at h
        cases h
        obtain ⟨a1, a2⟩ := helpT_ok ty t (path ++ [n]) rs' hm h2
        have hsub : ∀ r ∈ rs', ∃ p', r.fullPath = path ++ (n :: p') ∧ p' ≠ [] := by
          intro r hr
          obtain ⟨p, g, t', c1, c2, c3⟩ := a1.sound r hr
          refine ⟨p, by rw [c1]; simp, ?_⟩
          obtain ⟨_, _, _, _, c4⟩ := c2
          cases c4 <;> simp
        refine ⟨⟨?_, ?_⟩, ?_⟩
        · intro r hr
          rcases List.mem_cons.1 hr with rfl | hr
          · exact ⟨[n], .mk n ty d, t, rfl, .inl ⟨rfl, rfl⟩, hm, rfl, h1⟩
          · obtain ⟨p, g, t', c1, c2, c3⟩ := a1.sound r hr
            exact ⟨n :: p, g, t', by rw [c1]; simp, .inr ⟨p, rfl, c2⟩, c3⟩
        · rintro p g (⟨rfl, rfl⟩ | ⟨p', rfl, c⟩)
          · exact ⟨_, List.mem_cons_self, rfl⟩
          · obtain ⟨r, e1, e2⟩ := a1.complete p' g c
            exact ⟨r, List.mem_cons_of_mem _ e1, by rw [e2]; show _ = path ++ (n :: p'); simp⟩
        · intro hd
          rw [List.map_cons, List.nodup_cons]
          refine ⟨?_, a2 hd⟩
          intro hx
          obtain ⟨r, hr, he⟩ := List.mem_map.1 hx
          obtain ⟨p', c1, c2⟩ := hsub r hr
          rw [c1] at he
          have : n :: p' = [n] := List.append_cancel_left (as := path) he
          rw [List.cons.injEq] at this
          exact c2 this.2
end

/-- a path through directly nested dataclasses is a path that an override accepts -/
theorem direct_find : ∀ {fs : List Fld} {p : List String} {g : Fld}, DirectAt fs p g → DistinctNames fs →
    ∀ {F : List (String × SFld)}, materializeF fs = .ok F → ∃ t, materialize g.ty = .ok t ∧ findField F p = some (schemaFld g t) := by
  intro fs p g h
  induction h with
  | @here fs f hf =>
    intro hd F hm
    cases hd with
    | mk hn _ =>
      have h1 : fs.find? (fun f' => f'.name == f.name) = some f := find_of_mem hn hf
      obtain ⟨_, _, t, h2, h3⟩ := (matF_find hm f.name).1 f h1
      exact ⟨t, h2, h3⟩
  | @there fs f g n fs' ver p hf hty hd' ih =>
    intro hd F hm
    cases hd with
    | mk hn hr =>
      have h1 : fs.find? (fun f' => f'.name == f.name) = some f := find_of_mem hn hf
      obtain ⟨_, _, t, h2, h3⟩ := (matF_find hm f.name).1 f h1
      rw [hty] at h2
      obtain ⟨F', h4, rfl⟩ := materialize_data h2
      obtain ⟨t', h5, h6⟩ := ih (hr f n fs' ver hf hty) h4
      refine ⟨t', h5, ?_⟩
      have hp : ∃ k ks, p = k :: ks := by cases hd' <;> exact ⟨_, _, rfl⟩
      obtain ⟨k, ks, rfl⟩ := hp
      show (match dget F f.name with | some f => _ | .none => _) = _
      rw [h3]
      exact h6

end HS
