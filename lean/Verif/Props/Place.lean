import Verif.Proofs.Place
/-!
# C68: the place of a value in a document does not matter for what it loads to
-/
namespace HS

/-- **C68**. For every type and value, loading gives the same object, or fails with the same error, wherever in a document the value
stands (`fpath`). Only what is recorded on the side (schedules, blob files) depends on the place. -/
theorem C68_place (c : DCfg) (t : PyTy) (ig : Bool) (p1 p2 : String) (x : Val) :
    (∀ y, (∃ es, fromDict c t ig p1 x = .ok (y, es)) ↔ ∃ es, fromDict c t ig p2 x = .ok (y, es)) ∧
    (∀ e, fromDict c t ig p1 x = .error e ↔ fromDict c t ig p2 x = .error e) := by
  have h := fromDict_valOf c t ig p1 p2 x
  constructor
  · intro y
    constructor
    · rintro ⟨es, h1⟩
      rw [h1] at h
      exact valOf_ok h.symm
    · rintro ⟨es, h1⟩
      rw [h1] at h
      exact valOf_ok h
  · intro e
    cases h1 : fromDict c t ig p1 x <;> cases h2 : fromDict c t ig p2 x <;> rw [h1, h2] at h <;>
      simp only [valOf, Except.map, Except.ok.injEq, Except.error.injEq, reduceCtorEq] at h ⊢
    rw [h]

/-- The recorded places do differ: a blob is looked up under the place of its marker. -/
example (c : DCfg) (h : c.file = true) : fromDict c (.list (.blob "Net")) false "a" (.list [.str "<blob:msgpack>"]) =
      .ok (.list [.none], [.lazy "a[0]" "Net" (blobFile "a[0]") false]) ∧
    fromDict c (.list (.blob "Net")) false "b" (.list [.str "<blob:msgpack>"]) =
      .ok (.list [.none], [.lazy "b[0]" "Net" (blobFile "b[0]") false]) := by
  constructor <;> simp only [fromDict, mapIdx, h, if_true, lazyHook, bind, Except.bind, pure, Except.pure] <;> rfl

end HS
