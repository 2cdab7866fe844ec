import Verif.Model.Serde
/-!
# Upgrade rules that change dicts in place: rewrite_rule.py and versioned.py, with object identity

Model/Rewrite.lean treats documents as trees and returns new ones. In Python a document is built from dict objects that the rules change in
place, and the value that `AddDefault` or `ChangeDefault` puts into a document is the very object that was given to the rule. Here dicts
are objects in a memory. Simplifications: only dicts are objects (rules do not change lists, nor dicts in lists); what a `map_fn` returns
is newly created; rules are created only for the version that is applied (the others would be garbage).
-/
namespace HS

/-- a value of Python: a dict object, or a value that rules do not change -/
inductive HVal where
  | leaf (v : Val)
  | ref (a : Nat)

/-- the dict objects that exist; `next` is the address of the next one -/
structure Heap where
  mem : Nat → List (String × HVal)
  next : Nat

/-- an object changes in place -/
def Heap.upd (h : Heap) (a : Nat) (d : List (String × HVal)) : Heap := ⟨fun b => if b = a then d else h.mem b, h.next⟩

/-- a new dict object -/
def Heap.alloc (h : Heap) (d : List (String × HVal)) : Heap := ⟨fun b => if b = h.next then d else h.mem b, h.next + 1⟩

mutual
/-- evaluating an expression for a value, or parsing it (serde.py:59-110): every dict in it is a new object -/
def allocV : Val → Heap → HVal × Heap
  | .dict kvs, h => match allocD kvs h with
    | (d, h') => (.ref h'.next, h'.alloc d)
  | v, h => (.leaf v, h)
termination_by structural x => x
def allocD : List (String × Val) → Heap → List (String × HVal) × Heap
  | [], h => ([], h)
  | p :: kvs, h => match allocP p h with
    | (x, h') => match allocD kvs h' with
      | (d, h'') => (x :: d, h'')
termination_by structural x => x
def allocP : String × Val → Heap → (String × HVal) × Heap
  | (k, v), h => match allocV v h with
    | (x, h') => ((k, x), h')
termination_by structural x => x
end

/-- the contents of a value, down to the given depth -/
def readH (m : Nat → List (String × HVal)) : Nat → HVal → Val
  | _, .leaf v => v
  | 0, .ref _ => .none
  | n + 1, .ref a => .dict ((m a).map fun p => (p.1, readH m n p.2))

/-- `k in v` -/
def pyInH (h : Heap) (k : String) : HVal → Except Err Bool
  | .ref a => .ok (dhas (h.mem a) k)
  | .leaf v => pyIn k v

/-- `v[k]` -/
def pyGetItemH (h : Heap) (k : String) : HVal → Except Err HVal
  | .ref a => match dget (h.mem a) k with | some v => .ok v | .none => .error .keyError
  | .leaf v => (pyGetItem k v).map .leaf

/-- `v[k] = w` -/
def pySetItemH (h : Heap) (k : String) (w : HVal) : HVal → Except Err Heap
  | .ref a => .ok (h.upd a (dset (h.mem a) k w))
  | .leaf _ => .error .typeError

/-- `v is None` -/
def HVal.isNone : HVal → Bool
  | .leaf v => v.isNone
  | .ref _ => false

/-- `_remove` (rewrite_rule.py:189-201) -/
def removeH (h : Heap) : HVal → List String → Except Err (Heap × Option HVal)
  | _, [] => .error .assertionError
  | .ref a, [k] => match dget (h.mem a) k with
    | some v => .ok (h.upd a (ddel (h.mem a) k), some v)
    | .none => .ok (h, .none)
  | .leaf _, [_] => .ok (h, .none)
  | sd, k :: k' :: ks => do
    if !(← pyInH h k sd) then return (h, .none)
    let child ← pyGetItemH h k sd
    if child.isNone then return (h, .none)
    removeH h child (k' :: ks)

/-- `_get` (rewrite_rule.py:204-212) -/
def getH (h : Heap) : HVal → List String → Except Err (Option HVal)
  | _, [] => .error .assertionError
  | sd, [k] => do
    if !(← pyInH h k sd) then return .none
    return some (← pyGetItemH h k sd)
  | sd, k :: k' :: ks => do
    if !(← pyInH h k sd) then return .none
    getH h (← pyGetItemH h k sd) (k' :: ks)

/-- the entries of the dict that is created for a missing ancestor (rewrite_rule.py:224-227) -/
def freshEntries (createNew : Bool) : List (String × HVal) := if createNew then [] else [(WEAK_REF, .leaf (.bool true))]

/-- `_insert` (rewrite_rule.py:215-233). An exception is raised only before anything was changed. -/
def insertH (value : HVal) (createNew : Bool) : Heap → HVal → List String → Except Err Heap
  | _, _, [] => .error .assertionError
  | h, sd, [k] => pySetItemH h k value sd
  | h, sd, k :: k' :: ks => do
    let h := match sd with
      | .ref a => if dhas (h.mem a) k then h else (h.alloc (freshEntries createNew)).upd a (dset (h.mem a) k (.ref h.next))
      | .leaf _ => h
    let child ← pyGetItemH h k sd
    match child with
    | .ref c =>
      let h := if createNew && dhas (h.mem c) WEAK_REF then h.upd c (ddel (h.mem c) WEAK_REF) else h
      insertH value createNew h (.ref c) (k' :: ks)
    | .leaf _ => return h

/-- rule objects (rewrite_rule.py:21-186): the defaults are objects -/
inductive HRule where
  | rename (old new : List String)
  | delete (field : List String)
  | mapValue (field : List String) (fn : Val → Except Err Val)
  | changeDefault (field : List String) (old : HVal)
  | addDefault (field : List String) (dflt : HVal)
  | checkValue (field : List String) (allowed : List Val)
  | rejectValues (field : List String) (disallowed : List Val)

/-- the value that a rule may put into a document -/
def Rule.const : Rule → Val
  | .changeDefault _ old _ => old
  | .addDefault _ d => d
  | _ => .none

/-- the rule object, with the given object for its default -/
def Rule.toH (c : HVal) : Rule → HRule
  | .rename old new => .rename old new
  | .delete p => .delete p
  | .mapValue p f _ => .mapValue p f
  | .changeDefault p _ _ => .changeDefault p c
  | .addDefault p _ => .addDefault p c
  | .checkValue p a => .checkValue p a
  | .rejectValues p d => .rejectValues p d

/-- evaluating the expression for a rule, such as `AddDefault(("opt",), {"lr": 1})` -/
def Rule.make (r : Rule) (h : Heap) : HRule × Heap :=
  match allocV r.const h with
  | (c, h') => (r.toH c, h')

/-- the end of a rule: the memory, and the exception if there is one -/
def doneH (h : Heap) : Except Err Heap → Heap × Option Err
  | .ok h' => (h', .none)
  | .error e => (h, some e)

/-- `v in S` -/
def inSetH : HVal → List Val → Except Err Bool
  | .leaf v, s => inSet v s
  | .ref _, _ => .error .typeError

/-- `isinstance(v, dict) and WEAK_REF in v` -/
def isWeakH (h : Heap) : HVal → Bool
  | .ref a => dhas (h.mem a) WEAK_REF
  | .leaf _ => false

/-- `RewriteRule.apply` (rewrite_rule.py:26-31, 43-45, 57-63, 92-98, 112-117, 138-144, 161-167) on a document, in place -/
def HRule.apply (sd : HVal) (h : Heap) : HRule → Heap × Option Err
  | .rename old new => match removeH h sd old with
    | .error e => (h, some e)
    | .ok (h', some v) => doneH h' (insertH v true h' sd new)
    | .ok (h', .none) => (h', .none)
  | .delete p => match removeH h sd p with
    | .error e => (h, some e)
    | .ok (h', _) => (h', .none)
  | .mapValue p f => match removeH h sd p with
    | .error e => (h, some e)
    | .ok (h', some v) => match f (readH h'.mem h'.next v) with
      | .error e => (h', some e)
      | .ok w => match allocV w h' with
        | (c, h'') => doneH h'' (insertH c true h'' sd p)
    | .ok (h', .none) => (h', .none)
  | .changeDefault p old => match removeH h sd p with
    | .error e => (h, some e)
    | .ok (h', some v) => if isWeakH h' v then doneH h' (insertH old false h' sd p) else doneH h' (insertH v true h' sd p)
    | .ok (h', .none) => doneH h' (insertH old false h' sd p)
  | .addDefault p d => match removeH h sd p with
    | .error e => (h, some e)
    | .ok (h', some v) => doneH h' (insertH v false h' sd p)
    | .ok (h', .none) => doneH h' (insertH d false h' sd p)
  | .checkValue p allowed => match getH h sd p with
    | .error e => (h, some e)
    | .ok (some v) => match inSetH v allowed with
      | .error e => (h, some e)
      | .ok true => (h, .none)
      | .ok false => (h, some .valueError)
    | .ok .none => (h, .none)
  | .rejectValues p disallowed => match removeH h sd p with
    | .error e => (h, some e)
    | .ok (h', some v) => match inSetH v disallowed with
      | .error e => (h', some e)
      | .ok true => (h', some .valueError)
      | .ok false => (h', .none)
    | .ok (h', .none) => (h', .none)

/-- the rules of one version, in order (versioned.py:43-44) -/
def applyRulesH (sd : HVal) : Heap → List HRule → Heap × Option Err
  | h, [] => (h, .none)
  | h, r :: rs => match r.apply sd h with
    | (h', .none) => applyRulesH sd h' rs
    | (h', some e) => (h', some e)

/-- where `clz.upgrade_rules().get(i, [])` comes from: the rule objects, which may be created by the call -/
abbrev RuleSrc := Int → Heap → List HRule × Heap

/-- rules are created one after the other -/
def makeRules : List Rule → Heap → List HRule × Heap
  | [], h => ([], h)
  | r :: rs, h => match r.make h with
    | (x, h') => match makeRules rs h' with
      | (xs, h'') => (x :: xs, h'')

/-- `upgrade_rules` creates the rules when it is called, as in the examples of the project (versioned.py:28-34) -/
def VerInfo.createdByCall (vi : VerInfo) : RuleSrc := fun i h => makeRules (vi.rulesAt i) h

/-- a table of rules that is created once -/
def makeTable : List (Int × List Rule) → Heap → List (Int × List HRule) × Heap
  | [], h => ([], h)
  | (i, rs) :: t, h => match makeRules rs h with
    | (xs, h') => match makeTable t h' with
      | (ys, h'') => ((i, xs) :: ys, h'')

/-- `upgrade_rules` returns a table that was created before, for example when the module was imported -/
def storedRules (t : List (Int × List HRule)) : RuleSrc := fun i h =>
  (match t.find? (fun e => e.1 == i) with
    | some e => e.2
    | .none => [], h)

/-- the loop over versions (versioned.py:42-44) -/
def upgradeLoopH (src : RuleSrc) (sd : HVal) : Heap → List Int → Heap × Option Err
  | h, [] => (h, .none)
  | h, i :: is => match src i h with
    | (rs, h') => match applyRulesH sd h' rs with
      | (h'', .none) => upgradeLoopH src sd h'' is
      | (h'', some e) => (h'', some e)

/-- `VersionedDeserializer.deserialize` (versioned.py:58-80) on a document that is a dict, in place. A document that is no dict is not changed
by rules. -/
def hookH (src : RuleSrc) (allowMissing : Bool) (vi : VerInfo) (h : Heap) : HVal → Heap × Option Err
  | .ref a =>
    let h' := h.upd a (ddel (h.mem a) "version")
    match dget (h.mem a) "version" with
    | .none | some (.leaf .none) => (h', if allowMissing then .none else some .valueError)
    | some ver =>
      if vi.rules.all (fun e => e.1 < vi.version) then
        match (match ver with | .leaf v => v.asRangeInt | .ref _ => .error .typeError) with
        | .ok n => upgradeLoopH src (.ref a) h' (rangeI n vi.version)
        | .error e => (h', some e)
      else (h', some .assertionError)
  | .leaf v => match versionHook allowMissing vi v with
    | .ok _ => (h, .none)
    | .error e => (h, some e)

/-- one load: a document is parsed and upgraded; the result is what the fields are then read from (serde.py:113-180) -/
def loadH (src : RuleSrc) (allowMissing : Bool) (vi : VerInfo) (doc : Val) (h : Heap) : Except Err Val × Heap :=
  match allocV doc h with
  | (v, h') => match hookH src allowMissing vi h' v with
    | (h'', .none) => (.ok (readH h''.mem h''.next v), h'')
    | (h'', some e) => (.error e, h'')

/-- the loads that a process makes, one after the other; it goes on after a load that failed -/
def runLoads (src : RuleSrc) (allowMissing : Bool) (vi : VerInfo) : List Val → Heap → List (Except Err Val)
  | [], _ => []
  | doc :: docs, h => match loadH src allowMissing vi doc h with
    | (r, h') => r :: runLoads src allowMissing vi docs h'

end HS
