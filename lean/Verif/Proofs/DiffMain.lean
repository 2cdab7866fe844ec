import Verif.Proofs.Diff
/-!
# `_find_changes` finds exactly the local differences of all twins
-/
namespace HS

theorem leafAt_head {k : String} {f g : SFld} {r : List String} (h : LeafAt k f r g) : ∃ r', r = k :: r' := by
  rcases h with h | ⟨r', h, _⟩
  · exact ⟨[], h.1⟩
  · exact ⟨r', h⟩

theorem node_head {n : String} {fs : List (String × SFld)} {v : Option Int} {r : List String} {x : SFld}
    (h : Node (.struct n fs v) r x) : ∃ k f r', r = k :: r' ∧ (k, f) ∈ fs ∧ ((r' = [] ∧ x = f) ∨ Node f.type r' x) := by
  cases h with
  | here hm => exact ⟨_, _, _, rfl, hm, .inl ⟨rfl, rfl⟩⟩
  | under hm hn => exact ⟨_, _, _, rfl, hm, .inr hn⟩

theorem isStruct_cases {t : STy} (h : t.isStruct = true) : ∃ n fs v, t = .struct n fs v := by
  cases t <;> first | exact ⟨_, _, _, rfl⟩ | exact (nomatch h)

/-- a difference between two nested structs is a difference between the outer ones -/
theorem local_lift {path : List String} {k : String} {o n O N : STy} {c : Change} (hs : o.isStruct = true) (hs' : n.isStruct = true)
    (hO : O.isStruct = true) (hN : N.isStruct = true)
    (h1 : ∀ r x, Node o r x → Node O (k :: r) x) (h1' : ∀ r x, Node n r x → Node N (k :: r) x)
    (h2 : ∀ r x, r ≠ [] → Node O (k :: r) x → Node o r x) (h2' : ∀ r x, r ≠ [] → Node N (k :: r) x → Node n r x)
    (h : Local (path ++ [k]) o n c) : Local path O N c := by
  cases h with
  | @added _ _ r f a b d =>
    rw [List.append_assoc, List.singleton_append]
    refine .added hO ⟨h1' _ _ b.1, b.2⟩ ?_
    intro g hg
    have hr : r ≠ [] := by rintro rfl; exact leaf_ne_nil b
    exact d g ⟨h2 _ _ hr hg.1, hg.2⟩
  | @removed _ _ r f a b d =>
    rw [List.append_assoc, List.singleton_append]
    refine .removed hN ⟨h1 _ _ b.1, b.2⟩ ?_
    intro g hg
    have hr : r ≠ [] := by rintro rfl; exact leaf_ne_nil b
    exact d g ⟨h2' _ _ hr hg.1, hg.2⟩
  | defaultRemoved a b d e f =>
    rw [List.append_assoc, List.singleton_append]
    exact .defaultRemoved (h1 _ _ a) (h1' _ _ b) d e f
  | defaultChanged a b d e f g =>
    rw [List.append_assoc, List.singleton_append]
    exact .defaultChanged (h1 _ _ a) (h1' _ _ b) d e f g
  | kind hk => exact absurd (by rw [kind_struct hs, kind_struct hs']) hk
  | _ => exact (nomatch hs)

section
variable {path : List String} {on nn : String} {ofs nfs : List (String × SFld)} {ov nv : Option Int}

theorem diff_up (hO : (ofs.map Prod.fst).Nodup) (hN : (nfs.map Prod.fst).Nodup) {k : String} {f g : SFld} (hf : (k, f) ∈ nfs)
    (hg : (k, g) ∈ ofs) (hs : f.type.isStruct = g.type.isStruct) {q : List String} {o n : STy} {c : Change}
    (ht : Twin g.type f.type q o n) (hl : Local (path ++ [k] ++ q) o n c) :
    ∃ q o n, Twin (.struct on ofs ov) (.struct nn nfs nv) q o n ∧ Local (path ++ q) o n c := by
  cases hst : f.type.isStruct with
  | false =>
    rw [hst] at hs
    refine ⟨[k] ++ q, o, n, .leaf ⟨.here hg, hs.symm⟩ ⟨.here hf, hst⟩ ht, ?_⟩
    rw [← List.append_assoc]
    exact hl
  | true =>
    rw [hst] at hs
    rcases twin_inv ht with ⟨rfl, rfl, rfl⟩ | ⟨a, b, h1, h2, _⟩ | ⟨a, b, h1, h2, _⟩ | ⟨p, f', g', q', rfl, h1, h2, h3⟩
    · refine ⟨[], _, _, .root, ?_⟩
      rw [List.append_nil] at hl ⊢
      refine local_lift hs.symm hst rfl rfl (fun r x h => .under hg h) (fun r x h => .under hf h) ?_ ?_ hl
      · intro r x hr h
        rcases node_at hO hg h with ⟨h, _⟩ | h
        · exact absurd h hr
        · exact h
      · intro r x hr h
        rcases node_at hN hf h with ⟨h, _⟩ | h
        · exact absurd h hr
        · exact h
    · rw [h2] at hst; exact (nomatch hst)
    · rw [h2] at hst; exact (nomatch hst)
    · refine ⟨(k :: p) ++ q', o, n, .leaf ⟨.under hg h1.1, h1.2⟩ ⟨.under hf h2.1, h2.2⟩ h3, ?_⟩
      rw [List.append_assoc, List.singleton_append] at hl
      exact hl

/-- what the comparison of a field present in both structs finds -/
def DiffIH (path : List String) (ofs nfs : List (String × SFld)) : Prop :=
  ∀ k f g, (k, f) ∈ nfs → (k, g) ∈ ofs → ∀ cs1, findChanges (path ++ [k]) f.type g.type = .ok cs1 →
    ∀ c, c ∈ cs1 ↔ ∃ q o n, Twin g.type f.type q o n ∧ Local (path ++ [k] ++ q) o n c

theorem diff_struct_mp (hO : (ofs.map Prod.fst).Nodup) (hN : (nfs.map Prod.fst).Nodup) (IH : DiffIH path ofs nfs)
    {cs : List Change} (h : findFields path ofs nfs = .ok cs) {c : Change} (hc : c ∈ cs ++ removedFields path nfs ofs) :
    ∃ q o n, Twin (.struct on ofs ov) (.struct nn nfs nv) q o n ∧ Local (path ++ q) o n c := by
  rcases List.mem_append.1 hc with hc | hc
  · obtain ⟨k, f, cs1, hm, h1, hc⟩ := (findFields_iff path ofs nfs cs h c).1 hc
    rcases field1_cases path ofs k f cs1 h1 with ⟨hd, rfl⟩ | ⟨g, hd, ⟨hs, hs', rfl⟩ | ⟨hs, hs', rfl⟩ | ⟨hs, cs2, h2, rfl⟩⟩
    · obtain ⟨r, g, hat, rfl⟩ := (allNewS_iff f k path c).1 hc
      obtain ⟨r', rfl⟩ := leafAt_head hat
      refine ⟨[], _, _, .root, ?_⟩
      rw [List.append_nil]
      refine .added rfl (leaf_struct.2 ⟨k, f, hm, hat⟩) ?_
      intro g' hl
      obtain ⟨k', f', hm', hat'⟩ := leaf_struct.1 hl
      obtain ⟨r'', he⟩ := leafAt_head hat'
      cases he
      exact dget_none_iff.1 hd f' hm'
    · have hg := dget_mem hd
      refine ⟨[], _, _, .root, ?_⟩
      rw [List.append_nil]
      rcases List.mem_cons.1 hc with rfl | hc
      · refine .removed rfl ⟨.here hg, hs'⟩ ?_
        intro g' hl
        rcases leafAt_of_mem hN hm hl with ⟨_, _, h3⟩ | ⟨r', h3, h4⟩
        · rw [hs] at h3; exact (nomatch h3)
        · cases h3; exact leaf_ne_nil h4
      · obtain ⟨r, g', hl, rfl⟩ := (allNew_iff f.type (path ++ [k]) c).1 hc
        rw [List.append_assoc, List.singleton_append]
        refine .added rfl ⟨.under hm hl.1, hl.2⟩ ?_
        intro g'' hl'
        rcases leafAt_of_mem hO hg hl' with ⟨h3, _, _⟩ | ⟨r', h3, h4⟩
        · cases h3; exact leaf_ne_nil hl
        · have := leaf_isStruct h4; rw [hs'] at this; exact (nomatch this)
    · have hg := dget_mem hd
      refine ⟨[], _, _, .root, ?_⟩
      rw [List.append_nil]
      rcases List.mem_cons.1 hc with rfl | hc
      · refine .added rfl ⟨.here hm, hs⟩ ?_
        intro g' hl
        rcases leafAt_of_mem hO hg hl with ⟨_, _, h3⟩ | ⟨r', h3, h4⟩
        · rw [hs'] at h3; exact (nomatch h3)
        · cases h3; exact leaf_ne_nil h4
      · obtain ⟨r, g', hl, rfl⟩ := (allGone_iff g.type (path ++ [k]) c).1 hc
        rw [List.append_assoc, List.singleton_append]
        refine .removed rfl ⟨.under hg hl.1, hl.2⟩ ?_
        intro g'' hl'
        rcases leafAt_of_mem hN hm hl' with ⟨h3, _, _⟩ | ⟨r', h3, h4⟩
        · cases h3; exact leaf_ne_nil hl
        · have := leaf_isStruct h4; rw [hs] at this; exact (nomatch this)
    · have hg := dget_mem hd
      rcases List.mem_append.1 hc with hc | hc
      · obtain ⟨q, o, n, ht, hl⟩ := (IH k f g hm hg cs2 h2 c).1 hc
        exact diff_up hO hN hm hg hs ht hl
      · refine ⟨[], _, _, .root, ?_⟩
        rw [List.append_nil]
        rcases (defaultChanges_iff (path ++ [k]) g f c).1 hc with ⟨h3, h4, rfl⟩ | ⟨h3, h4, h5, rfl⟩
        · exact .defaultRemoved (.here hg) (.here hm) hs.symm h3 h4
        · exact .defaultChanged (.here hg) (.here hm) hs.symm h3 h4 h5
  · obtain ⟨k, g, hm, hd, hc⟩ := (removedFields_iff path nfs ofs c).1 hc
    obtain ⟨r, g', hat, rfl⟩ := (allGoneS_iff g k path c).1 hc
    obtain ⟨r', rfl⟩ := leafAt_head hat
    refine ⟨[], _, _, .root, ?_⟩
    rw [List.append_nil]
    refine .removed rfl (leaf_struct.2 ⟨k, g, hm, hat⟩) ?_
    intro g' hl
    obtain ⟨k', f', hm', hat'⟩ := leaf_struct.1 hl
    obtain ⟨r'', he⟩ := leafAt_head hat'
    cases he
    exact dget_none_iff.1 (dhas_false_iff.1 hd) f' hm'

theorem diff_struct_mpr (hO : (ofs.map Prod.fst).Nodup) (IH : DiffIH path ofs nfs)
    {cs : List Change} (h : findFields path ofs nfs = .ok cs) {c : Change} {q : List String} {o n : STy}
    (ht : Twin (.struct on ofs ov) (.struct nn nfs nv) q o n) (hl : Local (path ++ q) o n c) :
    c ∈ cs ++ removedFields path nfs ofs := by
  have hok := (findFields_ok path ofs nfs).1 ⟨cs, h⟩
  have put : ∀ k f cs1, (k, f) ∈ nfs → findField1 path ofs k f = .ok cs1 → c ∈ cs1 → c ∈ cs ++ removedFields path nfs ofs :=
    fun k f cs1 h1 h2 h3 => List.mem_append_left _ ((findFields_iff path ofs nfs cs h c).2 ⟨k, f, cs1, h1, h2, h3⟩)
  rcases twin_inv ht with ⟨rfl, rfl, rfl⟩ | ⟨a, b, h1, h2, _⟩ | ⟨a, b, h1, h2, _⟩ | ⟨p, x, y, q', rfl, h1, h2, h3⟩
  · rw [List.append_nil] at hl
    cases hl with
    | @added _ _ r x a b d =>
      obtain ⟨k, f, hm, hat⟩ := leaf_struct.1 b
      obtain ⟨cs1, h1⟩ := hok k f hm
      refine put k f cs1 hm h1 ?_
      rcases field1_cases path ofs k f cs1 h1 with ⟨hd, rfl⟩ | ⟨g, hd, ⟨hs, hs', rfl⟩ | ⟨hs, hs', rfl⟩ | ⟨hs, cs2, h2, rfl⟩⟩
      · exact (allNewS_iff f k path _).2 ⟨r, x, hat, rfl⟩
      · rcases hat with ⟨_, _, h3⟩ | ⟨r', rfl, h3⟩
        · rw [hs] at h3; exact (nomatch h3)
        · exact List.mem_cons_of_mem _ ((allNew_iff f.type _ _).2 ⟨r', x, h3, by simp⟩)
      · rcases hat with ⟨rfl, rfl, _⟩ | ⟨r', rfl, h3⟩
        · simp
        · have := leaf_isStruct h3; rw [hs] at this; exact (nomatch this)
      · have hg := dget_mem hd
        rcases hat with ⟨rfl, rfl, h3⟩ | ⟨r', rfl, h3⟩
        · exact absurd ⟨.here hg, hs ▸ h3⟩ (d g)
        · have hst := leaf_isStruct h3
          apply List.mem_append_left
          refine (IH k f g hm hg cs2 h2 _).2 ⟨[], _, _, .root, ?_⟩
          rw [List.append_nil, show path ++ k :: r' = path ++ [k] ++ r' by simp]
          exact .added (hs ▸ hst) h3 (fun g' hg' => d g' ⟨.under hg hg'.1, hg'.2⟩)
    | @removed _ _ r x a b d =>
      obtain ⟨k, g, hm, hat⟩ := leaf_struct.1 b
      cases hdn : dget nfs k with
      | none =>
        apply List.mem_append_right
        exact (removedFields_iff path nfs ofs _).2 ⟨k, g, hm, dhas_false_iff.2 hdn, (allGoneS_iff g k path _).2 ⟨r, x, hat, rfl⟩⟩
      | some f =>
        have hf := dget_mem hdn
        obtain ⟨cs1, h1⟩ := hok k f hf
        refine put k f cs1 hf h1 ?_
        have hdg := dget_of_mem hO hm
        rcases field1_cases path ofs k f cs1 h1 with ⟨hd, rfl⟩ | ⟨g', hd, hh⟩
        · rw [hdg] at hd; exact (nomatch hd)
        · rw [hdg] at hd
          cases hd
          rcases hh with ⟨hs, hs', rfl⟩ | ⟨hs, hs', rfl⟩ | ⟨hs, cs2, h2, rfl⟩
          · rcases hat with ⟨rfl, rfl, _⟩ | ⟨r', rfl, h3⟩
            · simp
            · have := leaf_isStruct h3; rw [hs'] at this; exact (nomatch this)
          · rcases hat with ⟨_, _, h3⟩ | ⟨r', rfl, h3⟩
            · rw [hs'] at h3; exact (nomatch h3)
            · exact List.mem_cons_of_mem _ ((allGone_iff g.type _ _).2 ⟨r', x, h3, by simp⟩)
          · rcases hat with ⟨rfl, rfl, h3⟩ | ⟨r', rfl, h3⟩
            · exact absurd ⟨.here hf, hs.trans h3⟩ (d f)
            · have hst := leaf_isStruct h3
              apply List.mem_append_left
              refine (IH k f g hf hm cs2 h2 _).2 ⟨[], _, _, .root, ?_⟩
              rw [List.append_nil, show path ++ k :: r' = path ++ [k] ++ r' by simp]
              exact .removed (hs.trans hst) h3 (fun g' hg' => d g' ⟨.under hf hg'.1, hg'.2⟩)
    | @defaultRemoved _ _ r x y a b d e e' =>
      obtain ⟨k, g, r1, rfl, hg, ha⟩ := node_head a
      obtain ⟨k', f, r2, he, hf, hb⟩ := node_head b
      cases he
      obtain ⟨cs1, h1⟩ := hok k f hf
      refine put k f cs1 hf h1 ?_
      have hdg := dget_of_mem hO hg
      have hs : f.type.isStruct = g.type.isStruct := by
        rcases ha with ⟨rfl, rfl⟩ | ha
        · rcases hb with ⟨_, rfl⟩ | hb
          · exact d.symm
          · exact absurd hb node_ne_nil
        · rcases hb with ⟨rfl, rfl⟩ | hb
          · exact absurd ha node_ne_nil
          · rw [node_isStruct ha, node_isStruct hb]
      rcases field1_cases path ofs k f cs1 h1 with ⟨hd, rfl⟩ | ⟨g', hd, hh⟩
      · rw [hdg] at hd; exact (nomatch hd)
      · rw [hdg] at hd
        cases hd
        rcases hh with ⟨hs1, hs2, rfl⟩ | ⟨hs1, hs2, rfl⟩ | ⟨_, cs2, h2, rfl⟩
        · rw [hs1, hs2] at hs; exact (nomatch hs)
        · rw [hs1, hs2] at hs; exact (nomatch hs)
        · rcases ha with ⟨rfl, rfl⟩ | ha
          · rcases hb with ⟨_, rfl⟩ | hb
            · exact List.mem_append_right _ ((defaultChanges_iff _ _ _ _).2 (.inl ⟨e, e', rfl⟩))
            · exact absurd hb node_ne_nil
          · rcases hb with ⟨rfl, rfl⟩ | hb
            · exact absurd ha node_ne_nil
            · apply List.mem_append_left
              refine (IH k f g hf hg cs2 h2 _).2 ⟨[], _, _, .root, ?_⟩
              rw [List.append_nil, show path ++ k :: r1 = path ++ [k] ++ r1 by simp]
              exact .defaultRemoved ha hb d e e'
    | @defaultChanged _ _ r x y a b d e e' e'' =>
      obtain ⟨k, g, r1, rfl, hg, ha⟩ := node_head a
      obtain ⟨k', f, r2, he, hf, hb⟩ := node_head b
      cases he
      obtain ⟨cs1, h1⟩ := hok k f hf
      refine put k f cs1 hf h1 ?_
      have hdg := dget_of_mem hO hg
      have hs : f.type.isStruct = g.type.isStruct := by
        rcases ha with ⟨rfl, rfl⟩ | ha
        · rcases hb with ⟨_, rfl⟩ | hb
          · exact d.symm
          · exact absurd hb node_ne_nil
        · rcases hb with ⟨rfl, rfl⟩ | hb
          · exact absurd ha node_ne_nil
          · rw [node_isStruct ha, node_isStruct hb]
      rcases field1_cases path ofs k f cs1 h1 with ⟨hd, rfl⟩ | ⟨g', hd, hh⟩
      · rw [hdg] at hd; exact (nomatch hd)
      · rw [hdg] at hd
        cases hd
        rcases hh with ⟨hs1, hs2, rfl⟩ | ⟨hs1, hs2, rfl⟩ | ⟨_, cs2, h2, rfl⟩
        · rw [hs1, hs2] at hs; exact (nomatch hs)
        · rw [hs1, hs2] at hs; exact (nomatch hs)
        · rcases ha with ⟨rfl, rfl⟩ | ha
          · rcases hb with ⟨_, rfl⟩ | hb
            · exact List.mem_append_right _ ((defaultChanges_iff _ _ _ _).2 (.inr ⟨e, e', e'', rfl⟩))
            · exact absurd hb node_ne_nil
          · rcases hb with ⟨rfl, rfl⟩ | hb
            · exact absurd ha node_ne_nil
            · apply List.mem_append_left
              refine (IH k f g hf hg cs2 h2 _).2 ⟨[], _, _, .root, ?_⟩
              rw [List.append_nil, show path ++ k :: r1 = path ++ [k] ++ r1 by simp]
              exact .defaultChanged ha hb d e e' e''
    | kind hk => exact absurd rfl hk
  · exact (nomatch h1)
  · exact (nomatch h1)
  · obtain ⟨k, g, hg, ha⟩ := leaf_struct.1 h1
    obtain ⟨k', f, hf, hb⟩ := leaf_struct.1 h2
    obtain ⟨p', rfl⟩ := leafAt_head ha
    obtain ⟨p'', he⟩ := leafAt_head hb
    cases he
    obtain ⟨cs1, hf1⟩ := hok k f hf
    refine put k f cs1 hf hf1 ?_
    have hdg := dget_of_mem hO hg
    have hs : f.type.isStruct = g.type.isStruct := by
      rcases ha with ⟨h4, rfl, h5⟩ | ⟨r1, h4, h5⟩
      · cases h4
        rcases hb with ⟨_, rfl, h6⟩ | ⟨r2, h6, h7⟩
        · rw [h5, h6]
        · cases h6; exact absurd h7 leaf_ne_nil
      · cases h4
        rcases hb with ⟨h6, rfl, _⟩ | ⟨r2, h6, h7⟩
        · cases h6; exact absurd h5 leaf_ne_nil
        · rw [leaf_isStruct h5, leaf_isStruct h7]
    rcases field1_cases path ofs k f cs1 hf1 with ⟨hd, rfl⟩ | ⟨g', hd, hh⟩
    · rw [hdg] at hd; exact (nomatch hd)
    · rw [hdg] at hd
      cases hd
      rcases hh with ⟨hs1, hs2, rfl⟩ | ⟨hs1, hs2, rfl⟩ | ⟨_, cs2, hc2, rfl⟩
      · rw [hs1, hs2] at hs; exact (nomatch hs)
      · rw [hs1, hs2] at hs; exact (nomatch hs)
      · apply List.mem_append_left
        rcases ha with ⟨h4, rfl, h5⟩ | ⟨r1, h4, h5⟩
        · cases h4
          rcases hb with ⟨_, rfl, h6⟩ | ⟨r2, h6, h7⟩
          · refine (IH k _ _ hf hg cs2 hc2 _).2 ⟨q', o, n, h3, ?_⟩
            rw [List.append_assoc]
            exact hl
          · cases h6; exact absurd h7 leaf_ne_nil
        · cases h4
          rcases hb with ⟨h6, rfl, _⟩ | ⟨r2, h6, h7⟩
          · cases h6; exact absurd h5 leaf_ne_nil
          · cases h6
            refine (IH k f g hf hg cs2 hc2 _).2 ⟨p' ++ q', o, n, .leaf h5 h7 h3, ?_⟩
            rw [show path ++ [k] ++ (p' ++ q') = path ++ (k :: p' ++ q') by simp]
            exact hl

end

theorem sizeOf_field {fs : List (String × SFld)} {k : String} {f : SFld} (h : (k, f) ∈ fs) : sizeOf f.type < sizeOf fs := by
  have h1 := List.sizeOf_lt_of_mem h
  have h2 := sizeOf_sfld f
  simp only [Prod.mk.sizeOf_spec] at h1
  omega

theorem findChanges_iff (N : Nat) : ∀ (new old : STy) (path : List String) (cs : List Change), sizeOf new < N → WFS old → WFS new →
    findChanges path new old = .ok cs → ∀ c, c ∈ cs ↔ ∃ q o n, Twin old new q o n ∧ Local (path ++ q) o n c := by
  induction N with
  | zero => intro _ _ _ _ h; omega
  | succ N ih =>
    intro new old path cs hsz hwo hwn h c
    by_cases hk : old.kind = new.kind
    · cases new with
      | prim b =>
        cases old <;> simp only [STy.kind] at hk <;> try exact absurd hk (by decide)
        rename_i a
        simp only [findChanges] at h
        cases h
        refine diff_flat path (by simp [STy.kind]) (by simp [STy.kind]) (by simp [STy.kind]) _ ?_ c
        intro c
        rw [local_prim]
        by_cases hab : a = b
        · simp [hab]
        · simp [hab]
      | list b =>
        cases old <;> simp only [STy.kind] at hk <;> try exact absurd hk (by decide)
        rename_i a
        simp only [findChanges] at h
        cases hwo with | list hwo =>
        cases hwn with | list hwn =>
        simp only [STy.list.sizeOf_spec] at hsz
        rw [ih b a path cs (by omega) hwo hwn h c]
        constructor
        · rintro ⟨q, o, n, ht, hl⟩; exact ⟨q, o, n, .list ht, hl⟩
        · rintro ⟨q, o, n, ht, hl⟩
          rcases twin_inv ht with ⟨rfl, rfl, rfl⟩ | ⟨a', b', h1, h2, h3⟩ | ⟨a', b', h1, h2, h3⟩ | ⟨p, f, g, q', _, h1, h2, _⟩
          · exact absurd hl local_list
          · cases h1; cases h2; exact ⟨q, o, n, h3, hl⟩
          · exact (nomatch h1)
          · cases h1.1
      | option b =>
        cases old <;> simp only [STy.kind] at hk <;> try exact absurd hk (by decide)
        rename_i a
        simp only [findChanges] at h
        cases hwo with | option hwo =>
        cases hwn with | option hwn =>
        simp only [STy.option.sizeOf_spec] at hsz
        rw [ih b a path cs (by omega) hwo hwn h c]
        constructor
        · rintro ⟨q, o, n, ht, hl⟩; exact ⟨q, o, n, .option ht, hl⟩
        · rintro ⟨q, o, n, ht, hl⟩
          rcases twin_inv ht with ⟨rfl, rfl, rfl⟩ | ⟨a', b', h1, h2, h3⟩ | ⟨a', b', h1, h2, h3⟩ | ⟨p, f, g, q', _, h1, h2, _⟩
          · exact absurd hl local_option
          · exact (nomatch h1)
          · cases h1; cases h2; exact ⟨q, o, n, h3, hl⟩
          · cases h1.1
      | enum nn nvs =>
        cases old <;> simp only [STy.kind] at hk <;> try exact absurd hk (by decide)
        simp only [findChanges] at h
        cases h
        exact diff_flat path (by simp [STy.kind]) (by simp [STy.kind]) (by simp [STy.kind]) _ (fun c => local_enum) c
      | literal nvs =>
        cases old <;> simp only [STy.kind] at hk <;> try exact absurd hk (by decide)
        simp only [findChanges] at h
        cases h
        exact diff_flat path (by simp [STy.kind]) (by simp [STy.kind]) (by simp [STy.kind]) _ (fun c => local_literal) c
      | struct nn nfs nv =>
        cases old <;> simp only [STy.kind] at hk <;> try exact absurd hk (by decide)
        rename_i on ofs ov
        simp only [findChanges, bind, Except.bind, pure, Except.pure] at h
        cases h1 : findFields path ofs nfs with
        | error e => rw [h1] at h; exact (nomatch h)
        | ok cs0 =>
          rw [h1] at h
          cases h
          cases hwo with | struct hO hO' =>
          cases hwn with | struct hN hN' =>
          have IH : DiffIH path ofs nfs := by
            intro k f g hf hg cs1 hc c
            have := sizeOf_field hf
            simp only [STy.struct.sizeOf_spec] at hsz
            exact ih f.type g.type (path ++ [k]) cs1 (by omega) (hO' k g hg) (hN' k f hf) hc c
          constructor
          · exact diff_struct_mp hO hN IH h1
          · rintro ⟨q, o, n, ht, hl⟩
            exact diff_struct_mpr hO IH h1 ht hl
      | tuple _ | dict _ _ | union _ | nothing =>
        cases old <;> simp only [STy.kind] at hk <;> try exact absurd hk (by decide)
        simp only [findChanges] at h
        exact (nomatch h)
    · have : cs = [.typeChanged path old new] := by
        cases new <;> cases old <;> first
          | exact absurd rfl hk
          | (simp only [findChanges] at h; cases h; rfl)
      subst this
      exact diff_kind_ne path hk c

/-! ## when the comparison succeeds -/

theorem field1_ok (path : List String) (ofs : List (String × SFld)) (k : String) (f : SFld) :
    (∃ cs, findField1 path ofs k f = .ok cs) ↔ ∀ g, dget ofs k = some g → f.type.isStruct = g.type.isStruct →
      ∃ cs, findChanges (path ++ [k]) f.type g.type = .ok cs := by
  constructor
  · rintro ⟨cs, h⟩ g hg hs
    rcases field1_cases path ofs k f cs h with ⟨hd, _⟩ | ⟨g', hd, hh⟩
    · rw [hg] at hd; exact (nomatch hd)
    · rw [hg] at hd
      cases hd
      rcases hh with ⟨h1, h2, _⟩ | ⟨h1, h2, _⟩ | ⟨_, cs1, h1, _⟩
      · rw [h1, h2] at hs; exact (nomatch hs)
      · rw [h1, h2] at hs; exact (nomatch hs)
      · exact ⟨cs1, h1⟩
  · intro h
    obtain ⟨nm, t, d, hd, doc⟩ := f
    rw [findField1]
    cases hg : dget ofs k with
    | none => exact ⟨_, rfl⟩
    | some g =>
      simp only
      split
      · exact ⟨_, rfl⟩
      · split
        · exact ⟨_, rfl⟩
        · rename_i h1 h2
          obtain ⟨cs, h3⟩ := h g hg (by
            simp only [SFld.type] at *
            cases hx : t.isStruct <;> cases hy : g.type.isStruct <;> simp_all [SFld.type])
          simp only [SFld.type] at h3
          have h3' : findChanges (path ++ [k]) t g.type = .ok cs := h3
          rw [h3']
          exact ⟨_, rfl⟩

theorem findChanges_ok (N : Nat) : ∀ (new old : STy) (path : List String), sizeOf new < N → WFS old → WFS new →
    ((∃ cs, findChanges path new old = .ok cs) ↔ ∀ q o n, Twin old new q o n → ¬ Unsupported o n) := by
  induction N with
  | zero => intro _ _ _ h; omega
  | succ N ih =>
    intro new old path hsz hwo hwn
    by_cases hk : old.kind = new.kind
    · cases new with
      | prim b | enum _ b | literal b =>
        cases old <;> simp only [STy.kind] at hk <;> try exact absurd hk (by decide)
        simp only [findChanges]
        refine ⟨fun _ q o n ht hu => ?_, fun _ => ⟨_, rfl⟩⟩
        rcases twin_inv ht with ⟨rfl, rfl, rfl⟩ | ⟨a', b', h1, h2, h3⟩ | ⟨a', b', h1, h2, h3⟩ | ⟨p, f, g, q', _, h1, h2, _⟩
        · simp [Unsupported, STy.kind] at hu
        · exact (nomatch h1)
        · exact (nomatch h1)
        · cases h1.1
      | list b =>
        cases old <;> simp only [STy.kind] at hk <;> try exact absurd hk (by decide)
        rename_i a
        simp only [findChanges]
        cases hwo with | list hwo =>
        cases hwn with | list hwn =>
        simp only [STy.list.sizeOf_spec] at hsz
        rw [ih b a path (by omega) hwo hwn]
        constructor
        · intro h q o n ht hu
          rcases twin_inv ht with ⟨rfl, rfl, rfl⟩ | ⟨a', b', h1, h2, h3⟩ | ⟨a', b', h1, h2, h3⟩ | ⟨p, f, g, q', _, h1, h2, _⟩
          · simp [Unsupported, STy.kind] at hu
          · cases h1; cases h2; exact h q o n h3 hu
          · exact (nomatch h1)
          · cases h1.1
        · exact fun h q o n ht => h q o n (.list ht)
      | option b =>
        cases old <;> simp only [STy.kind] at hk <;> try exact absurd hk (by decide)
        rename_i a
        simp only [findChanges]
        cases hwo with | option hwo =>
        cases hwn with | option hwn =>
        simp only [STy.option.sizeOf_spec] at hsz
        rw [ih b a path (by omega) hwo hwn]
        constructor
        · intro h q o n ht hu
          rcases twin_inv ht with ⟨rfl, rfl, rfl⟩ | ⟨a', b', h1, h2, h3⟩ | ⟨a', b', h1, h2, h3⟩ | ⟨p, f, g, q', _, h1, h2, _⟩
          · simp [Unsupported, STy.kind] at hu
          · exact (nomatch h1)
          · cases h1; cases h2; exact h q o n h3 hu
          · cases h1.1
        · exact fun h q o n ht => h q o n (.option ht)
      | struct nn nfs nv =>
        cases old <;> simp only [STy.kind] at hk <;> try exact absurd hk (by decide)
        rename_i on ofs ov
        cases hwo with | struct hO hO' =>
        cases hwn with | struct hN hN' =>
        simp only [STy.struct.sizeOf_spec] at hsz
        have hsplit : (∃ cs, findChanges path (.struct nn nfs nv) (.struct on ofs ov) = .ok cs) ↔
            ∃ cs, findFields path ofs nfs = .ok cs := by
          simp only [findChanges, bind, Except.bind, pure, Except.pure]
          cases findFields path ofs nfs with
          | error e => simp
          | ok cs => simp
        rw [hsplit, findFields_ok]
        constructor
        · intro h q o n ht hu
          rcases twin_inv ht with ⟨rfl, rfl, rfl⟩ | ⟨a', b', h1, h2, h3⟩ | ⟨a', b', h1, h2, h3⟩ | ⟨p, x, y, q', rfl, h1, h2, h3⟩
          · simp [Unsupported, STy.kind] at hu
          · exact (nomatch h1)
          · exact (nomatch h1)
          · obtain ⟨k, g, hg, ha⟩ := leaf_struct.1 h1
            obtain ⟨k', f, hf, hb⟩ := leaf_struct.1 h2
            obtain ⟨p', rfl⟩ := leafAt_head ha
            obtain ⟨p'', he⟩ := leafAt_head hb
            cases he
            have hok := (field1_ok path ofs k f).1 (h k f hf) g (dget_of_mem hO hg)
            have := sizeOf_field hf
            have hih := ih f.type g.type (path ++ [k]) (by omega) (hO' k g hg) (hN' k f hf)
            rcases ha with ⟨h4, rfl, h5⟩ | ⟨r1, h4, h5⟩
            · cases h4
              rcases hb with ⟨_, rfl, h6⟩ | ⟨r2, h6, h7⟩
              · exact hih.1 (hok (by rw [h5, h6])) _ _ _ h3 hu
              · cases h6; exact absurd h7 leaf_ne_nil
            · cases h4
              rcases hb with ⟨h6, rfl, _⟩ | ⟨r2, h6, h7⟩
              · cases h6; exact absurd h5 leaf_ne_nil
              · cases h6
                exact hih.1 (hok (by rw [leaf_isStruct h5, leaf_isStruct h7])) _ _ _ (.leaf h5 h7 h3) hu
        · intro h k f hf
          rw [field1_ok]
          intro g hd hs
          have hg := dget_mem hd
          have := sizeOf_field hf
          rw [ih f.type g.type (path ++ [k]) (by omega) (hO' k g hg) (hN' k f hf)]
          intro q o n ht hu
          cases hst : f.type.isStruct with
          | false =>
            rw [hst] at hs
            exact h _ o n (.leaf ⟨.here hg, hs.symm⟩ ⟨.here hf, hst⟩ ht) hu
          | true =>
            rw [hst] at hs
            rcases twin_inv ht with ⟨rfl, rfl, rfl⟩ | ⟨a, b, h1, h2, _⟩ | ⟨a, b, h1, h2, _⟩ | ⟨p, f', g', q', rfl, h1, h2, h3⟩
            · have := kind_struct hs.symm
              unfold Unsupported at hu
              omega
            · rw [h2] at hst; exact (nomatch hst)
            · rw [h2] at hst; exact (nomatch hst)
            · exact h _ o n (.leaf ⟨.under hg h1.1, h1.2⟩ ⟨.under hf h2.1, h2.2⟩ h3) hu
      | tuple _ | dict _ _ | union _ | nothing =>
        cases old <;> simp only [STy.kind] at hk <;> try exact absurd hk (by decide)
        simp only [findChanges]
        refine ⟨fun h => ?_, fun h => absurd ?_ (h [] _ _ .root)⟩
        · obtain ⟨cs, h⟩ := h; exact (nomatch h)
        · simp [Unsupported, STy.kind]
    · refine ⟨fun _ q o n ht hu => ?_, fun _ => ?_⟩
      · obtain ⟨rfl, rfl, rfl⟩ := twin_kind_ne hk ht
        exact hk hu.1
      · refine ⟨[.typeChanged path old new], ?_⟩
        cases new <;> cases old <;> first
          | exact absurd rfl hk
          | simp only [findChanges]

end HS
