import Verif.Proofs.Heap
/-!
# C89: what a config file loads as does not depend on what was loaded before
-/
namespace HS

/-- C89: if `upgrade_rules` creates the rules when it is called, the loads of a process do not influence each other: each document is upgraded
to what the model with trees says, whatever was loaded before and whether it could be loaded. -/
theorem C89_created (vi : VerInfo) (am : Bool) : ∀ (docs : List Val) (h : Heap),
    runLoads vi.createdByCall am vi docs h = docs.map (versionHook am vi)
  | [], _ => rfl
  | doc :: docs, h => by
    simp only [runLoads, List.map_cons]
    rw [load_ok (loopOK_created vi h), C89_created vi am docs]

/-- C89: the same holds if the rules are created once, for example when the module is imported, as long as no default in them is a dict. -/
theorem C89_plain (vi : VerInfo) (hp : PlainRules vi) (am : Bool) (h0 : Heap) : ∀ (docs : List Val) (h : Heap),
    runLoads (storedRules (makeTable vi.rules h0).1) am vi docs h = docs.map (versionHook am vi)
  | [], _ => rfl
  | doc :: docs, h => by
    simp only [runLoads, List.map_cons]
    rw [load_ok (loopOK_plain vi hp h0 h), C89_plain vi hp am h0 docs]

/-- C89: with any rules that are created once, the first load of a process is right. -/
theorem C89_first (vi : VerInfo) (am : Bool) (h : Heap) (doc : Val) :
    (loadH (storedRules (makeTable vi.rules h).1) am vi doc (makeTable vi.rules h).2).1 = versionHook am vi doc :=
  load_ok (loopOK_table vi h) am doc

namespace ExHeap
/-- adds one to an int -/
def inc : Val → Except Err Val
  | .int i => .ok (.int (i + 1))
  | _ => .error .typeError

/-- version 1 adds the section `opt`, version 2 counts `lr` from one -/
def vi : VerInfo := ⟨2, [(0, [.addDefault ["opt"] (.dict [("lr", .int 1)])]), (1, [.mapValue ["opt", "lr"] inc none])]⟩

/-- a config file of version 0 that leaves everything out -/
def old : Val := .dict [("version", .int 0), ("n", .int 7)]

/-- a config file of version 0 that cannot be upgraded -/
def bad : Val := .dict [("version", .int 0), ("opt", .dict [("lr", .str "x")])]

/-- nothing was created yet -/
def start : Heap := ⟨fun _ => [], 0⟩

/-- what was loaded for `opt.lr` -/
def lr : Except Err Val → Option Int
  | .ok (.dict d) => match dget d "opt" with
    | some (.dict o) => match dget o "lr" with
      | some (.int i) => some i
      | _ => none
    | _ => none
  | _ => none

theorem created : (runLoads vi.createdByCall false vi [old, bad, old] start).map lr = [some 2, none, some 2] := by
  rw [C89_created]; decide +kernel

example : (runLoads vi.createdByCall false vi [old, bad, old] start).map lr = [some 2, none, some 2] := by decide +kernel
end ExHeap

/-- C89 is false if a rule that is created once has a dict as its default: a later rule changes that dict, so that the second load of the same
file gives another value. -/
theorem C89_stored_false : ∃ (vi : VerInfo) (doc : Val),
    (runLoads (storedRules (makeTable vi.rules ExHeap.start).1) false vi [doc, doc] (makeTable vi.rules ExHeap.start).2).map ExHeap.lr =
      [some 2, some 3] ∧ ExHeap.lr (versionHook false vi doc) = some 2 :=
  ⟨ExHeap.vi, ExHeap.old, by decide +kernel, by decide +kernel⟩

/-- C89 is false for a document that is an object of the caller (as in `from_dict(Config, d)`): loading it takes its version away, so it cannot be
loaded a second time. -/
theorem C89_same_dict_false : ∃ (vi : VerInfo) (doc : Val),
    (match allocV doc ExHeap.start with
      | (v, h) => match hookH vi.createdByCall false vi h v with
        | (h', e1) => (e1, (hookH vi.createdByCall false vi h' v).2)) = (none, some .valueError) :=
  ⟨ExHeap.vi, ExHeap.old, by decide +kernel⟩

namespace ExHeap
/-- defaults that are no dicts -/
def flat : VerInfo := ⟨2, [(0, [.addDefault ["lr"] (.int 1)]), (1, [.mapValue ["lr"] inc none])]⟩

theorem flat_plain : PlainRules flat := by
  intro e he r hr
  simp only [flat, List.mem_cons, List.not_mem_nil, or_false] at he
  rcases he with rfl | rfl <;> simp only [List.mem_singleton] at hr <;> subst hr <;> rfl

example := C89_plain flat flat_plain false start [old, bad, old] start
example : (match runLoads (storedRules (makeTable flat.rules start).1) false flat [old, old] start with
    | [.ok (.dict a), .ok (.dict b)] => (match dget a "lr", dget b "lr" with | some (.int i), some (.int j) => some (i, j) | _, _ => none)
    | _ => none) = some (2, 2) := by decide +kernel
example : lr (loadH (storedRules (makeTable vi.rules start).1) false vi old (makeTable vi.rules start).2).1 = some 2 := by
  rw [C89_first]; decide +kernel
end ExHeap
end HS
