import Verif.Props.Registered
/-!
# The value a load gives to a scheduled field
-/
namespace HS

mutual
/-- every field for which the document holds a schedule gets the value of that schedule at 0 -/
theorem load_at0 (c : DCfg) : ∀ (t : PyTy) (n : Nat) (ig : Bool) (path : String) (doc v : Val) (es : List Ev),
    IdsOK t → Shallow c.allowMissing t n doc → fromDict c t ig path doc = .ok (v, es) →
    ∀ segs s b, SchedIn c.allowMissing t doc segs s b → ∃ x, SchedIs c.ext.schedAt0 s b x ∧ valAt v segs = some x
  | .int, n, ig, path, doc, v, es, _, _, h => by
    intro segs s b hi
    cases hi with
    | int hs =>
      obtain ⟨f, i, h1, h2, rfl, -⟩ := load_int_sched hs h
      exact ⟨.int i, ⟨f, h1, .inr ⟨rfl, i, h2, rfl⟩⟩, rfl⟩
  | .float, n, ig, path, doc, v, es, _, _, h => by
    intro segs s b hi
    cases hi with
    | float hs =>
      obtain ⟨f, h1, rfl, -⟩ := load_float_sched hs h
      exact ⟨.flt f, ⟨f, h1, .inl ⟨rfl, rfl⟩⟩, rfl⟩
  | .union as, n, ig, path, doc, v, es, hid, hsh, h => by
    intro segs s b hi
    simp only [IdsOK] at hid
    simp only [Shallow] at hsh
    rcases hsh with ⟨hopt, hsh⟩ | ⟨hopt, hsh⟩
    · simp only [fromDict, hopt, if_true] at h
      split at h
      · rename_i hnone
        have : doc = .none := by cases doc <;> simp [Val.isNone] at hnone ⊢
        subst this
        exact absurd hi SchedIn.not_none
      · exact load_at0H c as n ig path doc v es hid hsh h segs s b hi
    · cases hi with
      | opt ho _ => rw [hopt] at ho; exact (nomatch ho)
  | .data nm fs ver, n, ig, path, doc, v, es, hid, hsh, h => by
    intro segs s b hi
    simp only [IdsOK] at hid
    simp only [Shallow] at hsh
    obtain ⟨doc', kw, kvs, h1, h2, h3, rfl⟩ := fromDict_data_inv h (fun w hw => (hsh w hw).1)
    obtain ⟨-, hn, hfs⟩ := hsh doc' h1
    cases hi with
    | @field _ _ _ _ doc2 x k t d segs _ _ q1 q2 q3 q4 q5 =>
      rw [h1] at q1
      cases q1
      have hfd := fdField_mem c k (fieldPath path k) x fs _ hid.1 q4 rfl
      obtain ⟨w, es', g1, g2⟩ := itemsLoop_dget h2 (dget_of_mem hn q2) (hid.2.1 _ q4).1.1 q3 (by rw [hfd]; rfl)
      rw [hfd] at g2
      simp only [Option.some.injEq] at g2
      obtain ⟨y, g3, g4⟩ := fillFields_value h3 hid.1 _ q4
      simp only [fieldValue, Fld.name, g1, Except.ok.injEq] at g4
      subst g4
      obtain ⟨z, p1, p2⟩ := load_at0F c fs n path (docEntries doc') k x t d w es' hid.2.2 hfs q4 q2 q3 g2 segs s b q5
      exact ⟨z, p1, by simp only [Fld.name] at g3; simp only [valAt, g3, p2]⟩
  | .str, _, _, _, _, _, _, _, _, _ => fun _ _ _ hi => nomatch hi
  | .bool, _, _, _, _, _, _, _, _, _ => fun _ _ _ hi => nomatch hi
  | .noneT, _, _, _, _, _, _, _, _, _ => fun _ _ _ hi => nomatch hi
  | .list _, _, _, _, _, _, _, _, _, _ => fun _ _ _ hi => nomatch hi
  | .tuple _, _, _, _, _, _, _, _, _, _ => fun _ _ _ hi => nomatch hi
  | .dict _ _, _, _, _, _, _, _, _, _, _ => fun _ _ _ hi => nomatch hi
  | .enum _ _, _, _, _, _, _, _, _, _, _ => fun _ _ _ hi => nomatch hi
  | .literal _, _, _, _, _, _, _, _, _, _ => fun _ _ _ hi => nomatch hi
  | .blob _, _, _, _, _, _, _, _, _, _ => fun _ _ _ hi => nomatch hi
theorem load_at0H (c : DCfg) : ∀ (as : List PyTy) (n : Nat) (ig : Bool) (path : String) (doc v : Val) (es : List Ev),
    IdsOKHead as → ShallowHead c.allowMissing as n doc → fdHead c as ig path doc = .ok (v, es) →
    ∀ segs s b, SchedIn c.allowMissing (.union as) doc segs s b → ∃ x, SchedIs c.ext.schedAt0 s b x ∧ valAt v segs = some x
  | [], _, _, _, _, _, _, _, _, h => by simp [fdHead] at h
  | t :: ts, n, ig, path, doc, v, es, hid, hsh, h => by
    intro segs s b hi
    simp only [IdsOKHead] at hid
    simp only [ShallowHead] at hsh
    simp only [fdHead] at h
    cases hi with
    | opt _ hi => exact load_at0 c t n ig path doc v es hid hsh h segs s b hi
theorem load_at0F (c : DCfg) : ∀ (fs : List Fld) (n : Nat) (path : String) (kvs : List (String × Val)) (k : String) (x : Val)
    (t : PyTy) (dd : Option Val) (w : Val) (es : List Ev), IdsOKf fs → ShallowFs c.allowMissing fs n kvs →
    Fld.mk k t dd ∈ fs → (k, x) ∈ kvs → x.isWeak = false → fromDict c t false (fieldPath path k) x = .ok (w, es) →
    ∀ segs s b, SchedIn c.allowMissing t x segs s b → ∃ y, SchedIs c.ext.schedAt0 s b y ∧ valAt w segs = some y
  | [], _, _, _, _, _, _, _, _, _, _, _, hf, _, _, _ => by simp at hf
  | f :: fs, n, path, kvs, k, x, t, dd, w, es, hid, hsh, hf, hm, hw, h => by
    simp only [IdsOKf] at hid
    simp only [ShallowFs] at hsh
    rcases List.mem_cons.1 hf with heq | hf
    · exact load_at0F1 c f n path kvs k x t dd w es hid.1 hsh.1 heq hm hw h
    · exact load_at0F c fs n path kvs k x t dd w es hid.2 hsh.2 hf hm hw h
theorem load_at0F1 (c : DCfg) : ∀ (f : Fld) (n : Nat) (path : String) (kvs : List (String × Val)) (k : String) (x : Val)
    (t : PyTy) (dd : Option Val) (w : Val) (es : List Ev), IdsOK1 f → ShallowF c.allowMissing f n kvs →
    Fld.mk k t dd = f → (k, x) ∈ kvs → x.isWeak = false → fromDict c t false (fieldPath path k) x = .ok (w, es) →
    ∀ segs s b, SchedIn c.allowMissing t x segs s b → ∃ y, SchedIs c.ext.schedAt0 s b y ∧ valAt w segs = some y
  | .mk k0 t0 d0, n, path, kvs, k, x, t, dd, w, es, hid, hsh, heq, hm, hw, h => by
    obtain ⟨rfl, rfl, rfl⟩ := Fld.mk.inj heq
    simp only [IdsOK1] at hid
    simp only [ShallowF] at hsh
    rcases hsh x hm hw with ⟨rfl, hns⟩ | ⟨m, rfl, hsh'⟩
    · exact fun segs s b hi => absurd hns hi.not_noSched
    · exact load_at0 c _ m false _ x w es hid hsh' h
end

end HS
