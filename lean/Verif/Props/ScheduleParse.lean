import Verif.Model.Schedule
import Verif.Proofs.Split
/-!
# C35: what a schedule text means
-/
namespace HS

section
variable {K : Type} {num : List Char → Option K}

/-- tokens of a schedule: a point `y@x` given by its two numerals, or the name of an interpolation -/
inductive Tok where
  | pt (ty tx : List Char)
  | join (i : Interp)

/-- the spelling of a token -/
def Tok.text : Tok → List Char
  | .pt ty tx => ty ++ '@' :: tx
  | .join .lin => ['l', 'i', 'n']
  | .join .cos => ['c', 'o', 's']
  | .join .step => ['s', 't', 'e', 'p']

/-- the numerals are accepted by `float` and contain neither `@` nor a space -/
def Tok.Ok (num : List Char → Option K) : Tok → Prop
  | .pt ty tx => (num ty).isSome ∧ (num tx).isSome ∧ '@' ∉ ty ∧ '@' ∉ tx ∧ ' ' ∉ ty ∧ ' ' ∉ tx
  | .join _ => True

def Tok.isPt : Tok → Bool
  | .pt _ _ => true
  | .join _ => false

@[simp] theorem Tok.isPt_pt (a b : List Char) : (Tok.pt a b).isPt = true := rfl
@[simp] theorem Tok.isPt_join (i : Interp) : (Tok.join i).isPt = false := rfl

@[simp] theorem filter_pt (a b : List Char) (ts : List Tok) : (Tok.pt a b :: ts).filter Tok.isPt = Tok.pt a b :: ts.filter Tok.isPt := rfl

/-- the interpolation named last in a list of tokens, `lin` if there is none -/
def lastJoin : List Tok → Interp
  | [] => .lin
  | ts => (ts.reverse.findSome? (fun t => match t with | .join i => some i | _ => .none)).getD .lin

/-- `"x: " tok " " tok …` -/
def schedText (xname : List Char) (toks : List Tok) : List Char := joinC ' ' ((xname ++ [':']) :: toks.map Tok.text)

/-! ## the loop on tokens -/

/-- interpolation after some tokens, starting with `ip` -/
def joinFrom (ip : Interp) : List Tok → Interp
  | [] => ip
  | .join i :: ts => joinFrom i ts
  | .pt _ _ :: ts => joinFrom ip ts

theorem joinFrom_eq (ip : Interp) (ts : List Tok) :
    joinFrom ip ts = (ts.reverse.findSome? (fun t => match t with | .join i => some i | _ => .none)).getD ip := by
  induction ts generalizing ip with
  | nil => rfl
  | cons t ts ih =>
    cases t with
    | join i =>
      simp only [joinFrom, ih, List.reverse_cons, List.findSome?_append]
      cases List.findSome? _ ts.reverse <;> simp
    | pt a b =>
      simp only [joinFrom, ih, List.reverse_cons, List.findSome?_append]
      cases List.findSome? _ ts.reverse <;> simp

theorem lastJoin_eq (ts : List Tok) : lastJoin ts = joinFrom .lin ts := by
  rw [joinFrom_eq]; cases ts <;> rfl

theorem joinFrom_append (ip : Interp) (a b : List Tok) : joinFrom ip (a ++ b) = joinFrom (joinFrom ip a) b := by
  induction a generalizing ip with
  | nil => rfl
  | cons t a ih => cases t <;> simp [joinFrom, ih]

theorem interpOf_text (i : Interp) : interpOf (Tok.join i).text = .ok i := by cases i <;> rfl

theorem interpOf_ok {p : List Char} {i : Interp} (h : interpOf p = .ok i) : p = (Tok.join i).text := by
  simp only [interpOf] at h
  split at h
  · cases h; simpa [Tok.text]
  · split at h
    · cases h; simpa [Tok.text]
    · split at h
      · cases h; simpa [Tok.text]
      · cases h

theorem join_no_at (i : Interp) : '@' ∉ (Tok.join i).text := by cases i <;> decide

theorem schedLoop_join (i ip : Interp) (last : Option (K × K)) (parts : List (List Char)) :
    schedLoop num ip last ((Tok.join i).text :: parts) = schedLoop num i last parts := by
  simp only [schedLoop, if_neg (join_no_at i), interpOf_text, bind, Except.bind]

theorem schedLoop_pt {ty tx : List Char} {x y : K} (hy : num ty = some y) (hx : num tx = some x) (h1 : '@' ∉ ty) (h2 : '@' ∉ tx)
    (ip : Interp) (last : Option (K × K)) (parts : List (List Char)) :
    schedLoop num ip last ((Tok.pt ty tx).text :: parts) =
      match schedLoop num ip (some (x, y)) parts with
      | .ok rest => .ok (match last with | some (lx, ly) => ⟨lx, x, ly, y, ip⟩ :: rest | .none => rest)
      | .error e => .error e := by
  have hm : '@' ∈ (Tok.pt ty tx).text := by simp [Tok.text]
  have hs : splitC '@' (Tok.pt ty tx).text = [ty, tx] := by simp [Tok.text, splitC_word_append _ h1, splitC_word h2]
  simp only [schedLoop, if_pos hm, hs, hy, hx, bind, Except.bind]
  cases schedLoop num ip (some (x, y)) parts with
  | error e => rfl
  | ok rest => cases last <;> rfl

/-- the segments built from tokens, after a last point -/
def schedSegs (num : List Char → Option K) : Interp → Option (K × K) → List Tok → List (Seg K)
  | _, _, [] => []
  | _, last, .join i :: ts => schedSegs num i last ts
  | ip, last, .pt ty tx :: ts =>
    match num ty, num tx, last with
    | some y, some x, some (lx, ly) => ⟨lx, x, ly, y, ip⟩ :: schedSegs num ip (some (x, y)) ts
    | some y, some x, .none => schedSegs num ip (some (x, y)) ts
    | _, _, _ => []

theorem schedLoop_toks : ∀ (ts : List Tok) (ip : Interp) (last : Option (K × K)), (∀ t ∈ ts, t.Ok num) →
    schedLoop num ip last (ts.map Tok.text) = .ok (schedSegs num ip last ts) := by
  intro ts
  induction ts with
  | nil => intro ip last _; rfl
  | cons t ts ih =>
    intro ip last h
    have ht := h t (by simp)
    have hts := fun t' ht' => h t' (List.mem_cons_of_mem _ ht')
    cases t with
    | join i =>
      simp only [List.map_cons, schedLoop_join, schedSegs]
      exact ih i last hts
    | pt ty tx =>
      obtain ⟨hy, hx, h1, h2, _, _⟩ := ht
      obtain ⟨y, hy⟩ := Option.isSome_iff_exists.1 hy
      obtain ⟨x, hx⟩ := Option.isSome_iff_exists.1 hx
      simp only [List.map_cons, schedLoop_pt hy hx h1 h2, ih ip (some (x, y)) hts, schedSegs, hy, hx]
      cases last with
      | none => rfl
      | some l => rfl

theorem schedLoop_ok : ∀ (parts : List (List Char)) (ip : Interp) (last : Option (K × K)) (r : List (Seg K)),
    (∀ p ∈ parts, ' ' ∉ p) → schedLoop num ip last parts = .ok r → ∃ ts : List Tok, parts = ts.map Tok.text ∧ ∀ t ∈ ts, t.Ok num := by
  intro parts
  induction parts with
  | nil => intro ip last r _ _; exact ⟨[], rfl, by simp⟩
  | cons p parts ih =>
    intro ip last r hsp h
    have hsp' := fun q hq => hsp q (List.mem_cons_of_mem _ hq)
    have hp := hsp p (by simp)
    simp only [schedLoop, bind, Except.bind, pure, Except.pure] at h
    split at h
    · rename_i hat
      split at h
      · rename_i ty tx hs
        split at h
        · rename_i y x hy hx
          split at h
          · cases h
          · rename_i rest hrest
            obtain ⟨ts, rfl, hok⟩ := ih _ _ _ hsp' hrest
            obtain ⟨_, hno, hj⟩ := splitC_spec '@' p
            rw [hs] at hno hj
            simp only [joinC, List.flatMap_cons, List.flatMap_nil, List.append_nil] at hj
            subst hj
            refine ⟨.pt ty tx :: ts, rfl, ?_⟩
            intro t ht
            rcases List.mem_cons.1 ht with rfl | ht
            · simp only [List.mem_append, List.mem_cons, not_or] at hp
              exact ⟨by simp [hy], by simp [hx], hno ty (by simp), hno tx (by simp), hp.1, hp.2.2⟩
            · exact hok t ht
        · cases h
      · cases h
    · split at h
      · cases h
      · rename_i i hi
        obtain ⟨ts, rfl, hok⟩ := ih _ _ _ hsp' h
        have := interpOf_ok hi
        subst this
        refine ⟨.join i :: ts, rfl, ?_⟩
        intro t ht
        rcases List.mem_cons.1 ht with rfl | ht
        · trivial
        · exact hok t ht

theorem parse_words (w0 : List Char) (ts : List Tok) (h0 : ' ' ∉ w0) (hts : ∀ t ∈ ts, t.Ok num) :
    parseSched num (joinC ' ' (w0 :: ts.map Tok.text)) = .ok ⟨schedSegs num .lin .none ts, w0.dropLast⟩ := by
  have hsp : ∀ w ∈ w0 :: ts.map Tok.text, ' ' ∉ w := by
    intro w hw
    rcases List.mem_cons.1 hw with rfl | hw
    · exact h0
    · obtain ⟨t, ht, rfl⟩ := List.mem_map.1 hw
      cases t with
      | join i => cases i <;> decide
      | pt a b =>
        obtain ⟨_, _, _, _, h5, h6⟩ := hts _ ht
        simp [Tok.text, h5, h6]
  simp only [parseSched, splitC_joinC (by simp) hsp, schedLoop_toks ts _ _ hts, bind, Except.bind, pure, Except.pure]

theorem length_segsOf : ∀ (ts : List Tok) (ip : Interp) (last : Option (K × K)), (∀ t ∈ ts, t.Ok num) →
    (schedSegs num ip last ts).length = (ts.filter Tok.isPt).length - (if last.isSome then 0 else 1) := by
  intro ts
  induction ts with
  | nil => intro ip last _; simp [schedSegs]
  | cons t ts ih =>
    intro ip last h
    have hts := fun t' ht' => h t' (List.mem_cons_of_mem _ ht')
    cases t with
    | join i => simp [schedSegs, ih _ _ hts]
    | pt ty tx =>
      obtain ⟨hy, hx, _⟩ := h (.pt ty tx) (by simp)
      obtain ⟨y, hy⟩ := Option.isSome_iff_exists.1 hy
      obtain ⟨x, hx⟩ := Option.isSome_iff_exists.1 hx
      cases last with
      | none => simp [schedSegs, hy, hx, ih _ _ hts]
      | some l => obtain ⟨a, b⟩ := l; simp [schedSegs, hy, hx, ih _ _ hts]

theorem segsOf_joins {js : List Tok} (hj : ∀ t ∈ js, t.isPt = false) (rest : List Tok) : ∀ (ip : Interp) (last : Option (K × K)),
    schedSegs num ip last (js ++ rest) = schedSegs num (joinFrom ip js) last rest := by
  induction js with
  | nil => intro ip last; rfl
  | cons t js ih =>
    intro ip last
    cases t with
    | pt a b => exact absurd (hj (.pt a b) (by simp)) (by simp)
    | join i => simp only [List.cons_append, schedSegs, joinFrom]; exact ih (fun t ht => hj t (by simp [ht])) i last

theorem segsOf_get {ty tx ty' tx' : List Char} {x y x' y' : K} (hy : num ty = some y) (hx : num tx = some x) (hy' : num ty' = some y')
    (hx' : num tx' = some x') {js : List Tok} (hj : ∀ t ∈ js, t.isPt = false) (post : List Tok) :
    ∀ (pre : List Tok) (ip : Interp) (last : Option (K × K)), (∀ t ∈ pre, t.Ok num) →
    (schedSegs num ip last (pre ++ .pt ty tx :: (js ++ .pt ty' tx' :: post)))[(pre.filter Tok.isPt).length + (if last.isSome then 1 else 0)]? =
      some ⟨x, x', y, y', joinFrom ip (pre ++ js)⟩ := by
  intro pre
  induction pre with
  | nil =>
    intro ip last _
    cases last with
    | none => simp [schedSegs, hy, hx, segsOf_joins hj, hy', hx']
    | some l => obtain ⟨a, b⟩ := l; simp [schedSegs, hy, hx, segsOf_joins hj, hy', hx']
  | cons t pre ih =>
    intro ip last h
    have hts := fun t' ht' => h t' (List.mem_cons_of_mem _ ht')
    cases t with
    | join i =>
      have := ih i last hts
      simpa [schedSegs, joinFrom] using this
    | pt a b =>
      obtain ⟨ha, hb, _⟩ := h (.pt a b) (by simp)
      obtain ⟨ya, ha⟩ := Option.isSome_iff_exists.1 ha
      obtain ⟨xb, hb⟩ := Option.isSome_iff_exists.1 hb
      have := ih ip (some (xb, ya)) hts
      cases last with
      | none => simpa [schedSegs, ha, hb, joinFrom] using this
      | some l => obtain ⟨c, d⟩ := l; simpa [schedSegs, ha, hb, joinFrom] using this

/-! ## C35 -/

/-- C35: the text of a name and any tokens is parsed to one segment less than there are points; for any two consecutive points the
segment at the position of the first one runs from it to the second, with the interpolation named last before the second. -/
theorem C35_parse (xname : List Char) (hsp : ' ' ∉ xname) (toks : List Tok) (hok : ∀ t ∈ toks, t.Ok num) :
    ∃ f, parseSched num (schedText xname toks) = .ok f ∧ f.xname = xname ∧
      f.segs.length = (toks.filter Tok.isPt).length - 1 ∧
      ∀ pre js post ty tx ty' tx' x y x' y', toks = pre ++ .pt ty tx :: (js ++ .pt ty' tx' :: post) → (∀ t ∈ js, t.isPt = false) →
        num ty = some y → num tx = some x → num ty' = some y' → num tx' = some x' →
        f.segs[(pre.filter Tok.isPt).length]? = some ⟨x, x', y, y', lastJoin (pre ++ js)⟩ := by
  refine ⟨_, parse_words _ toks (by simp [hsp]) hok, by simp, by simpa using length_segsOf toks .lin .none hok, ?_⟩
  intro pre js post ty tx ty' tx' x y x' y' e hj hy hx hy' hx'
  subst e
  have := segsOf_get hy hx hy' hx' hj post pre .lin .none (fun t ht => hok t (by simp [ht]))
  simpa [lastJoin_eq] using this

/-- C35: everything else is rejected: a text that parses consists of a first word and tokens. (The first word can be anything: its last
character is dropped without being checked.) -/
theorem C35_rejects {text : List Char} {f : Sched K} (h : parseSched num text = .ok f) :
    ∃ (w0 : List Char) (toks : List Tok), text = joinC ' ' (w0 :: toks.map Tok.text) ∧ (∀ t ∈ toks, t.Ok num) ∧ f.xname = w0.dropLast := by
  simp only [parseSched] at h
  obtain ⟨h1, h2, h3⟩ := splitC_spec ' ' text
  split at h
  · cases h
  · rename_i p0 parts hs
    simp only [bind, Except.bind, pure, Except.pure] at h
    split at h
    · cases h
    · rename_i r hr
      cases h
      rw [hs] at h2 h3
      obtain ⟨ts, rfl, hok⟩ := schedLoop_ok parts _ _ _ (fun p hp => h2 p (by simp [hp])) hr
      exact ⟨p0, ts, h3.symm, hok, rfl⟩

end

/-! ### an example: `step: 0.3@0 lin 0.15@150 0.1@200 cos 0.01@250` with decimal integers as numerals -/

namespace SchedEx
/-- one-digit numerals -/
def num1 : List Char → Option ℚ
  | ['0'] => some 0 | ['1'] => some 1 | ['2'] => some 2 | ['3'] => some 3 | ['4'] => some 4 | ['9'] => some 9
  | _ => .none

def toks : List Tok := [.pt ['3'] ['0'], .join .lin, .pt ['2'] ['1'], .pt ['9'] ['2'], .join .cos, .join .step, .pt ['1'] ['4']]

theorem toks_ok : ∀ t ∈ toks, t.Ok num1 := by
  intro t ht
  simp only [toks, List.mem_cons, List.mem_nil_iff, or_false] at ht
  rcases ht with rfl | rfl | rfl | rfl | rfl | rfl | rfl <;> simp [Tok.Ok, num1]

example : schedText ['x'] toks = "x: 3@0 lin 2@1 9@2 cos step 1@4".toList := by simp [schedText, toks, joinC, Tok.text]

example : parseSched num1 (schedText ['x'] toks) =
    .ok ⟨[⟨0, 1, 3, 2, .lin⟩, ⟨1, 2, 2, 9, .lin⟩, ⟨2, 4, 9, 1, .step⟩], ['x']⟩ := rfl

/-- an unknown interpolation, a point with two `@` -/
example : parseSched num1 "x: 3@0 exp 2@1".toList = .error .keyError ∧ parseSched num1 "x: 3@0 2@1@2".toList = .error .valueError ∧
    parseSched num1 "x: 3@0  2@1".toList = .error .keyError := by
  refine ⟨?_, ?_, ?_⟩ <;> simp <;> rfl

/-- the colon is not checked: the last letter of the name is dropped -/
theorem C35_colon_unchecked : (parseSched num1 "step 3@0 2@1".toList).map Sched.xname = .ok ['s', 't', 'e'] := by simp; rfl
end SchedEx

end HS
