import Verif.Model.Subtype
import Verif.Model.Names
import Verif.Model.SchemaRewrite
/-!
# `hyperstate/schema/schema_change.py`, `hyperstate/schema/schema_checker.py`: `SchemaChecker`

The printed messages are in `Model/Report.lean`. Sets of Literal values are lists. Values of Literals are hashable.
-/
namespace HS

/-- `Severity` (schema_change.py:22-25) -/
inductive Severity where
  | info | warn | error
deriving DecidableEq, Repr

/-- `Severity.value` -/
def Severity.value : Severity → Nat
  | .info => 1 | .warn => 2 | .error => 3

/-- `__gt__`, `__ge__` (schema_change.py:27-31) -/
def Severity.gt (a b : Severity) : Bool := decide (a.value > b.value)
def Severity.ge (a b : Severity) : Bool := decide (a.value ≥ b.value)

/-- the subclasses of `SchemaChange` (schema_change.py:76-262) -/
inductive Change where
  | fieldAdded (field : List String) (type : STy) (dflt : Val) (hasDefault : Bool)
  | fieldRemoved (field : List String) (type : STy) (dflt : Val) (hasDefault : Bool)
  | fieldRenamed (field newName : List String)
  | defaultChanged (field : List String) (old new : Val)
  | defaultRemoved (field : List String) (old : Val)
  | typeChanged (field : List String) (old new : STy)
  | variantValueChanged (field : List String) (enumName variant : String) (old new : Val)
  | variantRemoved (field : List String) (enumName variant : String) (value : Val)
  | variantAdded (field : List String) (enumName variant : String) (value : Val)
  | variantRenamed (field : List String) (enumName old new : String)
  | literalAdded (field : List String) (values : List Val)
  | literalRemoved (field : List String) (values : List Val)

/-- `proposed_fix` of each class -/
def Change.fix : Change → Option Rule
  -- schema_change.py:87-94
  | .fieldAdded p t _ h =>
    if h then .none
    else match t with
      | .option _ => some (.addDefault p .none)
      | .list _ => some (.addDefault p (.list []))
      | _ => .none
  -- schema_change.py:109-110
  | .fieldRemoved p _ _ _ => some (.delete p)
  -- schema_change.py:120-121
  | .fieldRenamed p q => some (.rename p q)
  -- schema_change.py:132-133
  | .defaultChanged p old new => some (.changeDefault p old new)
  -- schema_change.py:143-144
  | .defaultRemoved p old => some (.addDefault p old)
  -- schema_change.py:160-175; the case `self.old == "float" and self.new == "int"` compares a Primitive with a str and is
  -- never taken
  | .typeChanged p old new =>
    if (match new with | .list inner => styEq inner old | _ => false) then
      some (.mapValue p (fun x => .ok (.list [x])) (some "lambda x: [x]"))
    else match new with
      | .literal vs => some (.checkValue p vs)
      | _ => .none
  -- schema_change.py:188-193
  | .variantValueChanged p _ _ old new => some (.mapValue p (fun x => .ok (if pyEq x old then new else x)) .none)
  | .variantRemoved _ _ _ _ => .none
  | .variantAdded _ _ _ _ => .none
  | .variantRenamed _ _ _ _ => .none
  | .literalAdded _ _ => .none
  -- schema_change.py:259-260
  | .literalRemoved p vs => some (.rejectValues p vs)

/-- `SchemaChange.severity` (schema_change.py:49-53) -/
def Change.baseSeverity (c : Change) : Severity := if c.fix.isSome then .warn else .error

/-- `severity` of each class -/
def Change.severity (c : Change) : Severity :=
  match c with
  -- schema_change.py:82-85
  | .fieldAdded _ _ _ h => if h then .info else c.baseSeverity
  -- schema_change.py:152-155
  | .typeChanged _ old new => if isSubtype old new then .info else c.baseSeverity
  -- schema_change.py:212-213, 225-226, 236-237, 250-251
  | .variantAdded _ _ _ _ => .info
  | .variantRenamed _ _ _ _ => .info
  | .literalAdded _ _ => .info
  | .literalRemoved _ _ => .warn
  | _ => c.baseSeverity

/-- `isinstance(type, t.Struct)` -/
def STy.isStruct : STy → Bool
  | .struct _ _ _ => true
  | _ => false

mutual
/-- `_all_new` (schema_checker.py:306-318) -/
def allNew (path : List String) : STy → List Change
  | .struct _ fs _ => allNewF path fs
  | _ => []
termination_by structural x => x
def allNewF (path : List String) : List (String × SFld) → List Change
  | [] => []
  | f :: fs => allNewP path f ++ allNewF path fs
termination_by structural x => x
def allNewP (path : List String) : String × SFld → List Change
  | (k, f) => allNewS path k f
termination_by structural x => x
def allNewS (path : List String) (k : String) : SFld → List Change
  | .mk _ t d h _ => if t.isStruct then allNew (path ++ [k]) t else [.fieldAdded (path ++ [k]) t d h]
termination_by structural x => x
end

mutual
/-- `_all_gone` (schema_checker.py:320-332) -/
def allGone (path : List String) : STy → List Change
  | .struct _ fs _ => allGoneF path fs
  | _ => []
termination_by structural x => x
def allGoneF (path : List String) : List (String × SFld) → List Change
  | [] => []
  | f :: fs => allGoneP path f ++ allGoneF path fs
termination_by structural x => x
def allGoneP (path : List String) : String × SFld → List Change
  | (k, f) => allGoneS path k f
termination_by structural x => x
def allGoneS (path : List String) (k : String) : SFld → List Change
  | .mk _ t d h _ => if t.isStruct then allGone (path ++ [k]) t else [.fieldRemoved (path ++ [k]) t d h]
termination_by structural x => x
end

/-- the part on defaults (schema_checker.py:149-164) -/
def defaultChanges (path : List String) (old new : SFld) : List Change :=
  if old.hasDefault != new.hasDefault then
    (if !new.hasDefault then [.defaultRemoved path old.dflt] else [])
  else if old.hasDefault && !(pyEq old.dflt new.dflt) then [.defaultChanged path old.dflt new.dflt]
  else []

/-- removed fields (schema_checker.py:166-180) -/
def removedFields (path : List String) (news : List (String × SFld)) : List (String × SFld) → List Change
  | [] => []
  | (k, f) :: fs => (if dhas news k then [] else allGoneS path k f) ++ removedFields path news fs

/-- variants of an enum (schema_checker.py:186-211) -/
def enumChanges (path : List String) (name : String) (old new : List (String × Val)) : List Change :=
  (new.flatMap fun kv => match dget old kv.1 with
    | .none => [.variantAdded path name kv.1 kv.2]
    | some v => if pyEq v kv.2 then [] else [.variantValueChanged path name kv.1 v kv.2]) ++
  (old.flatMap fun kv => if dhas new kv.1 then [] else [.variantRemoved path name kv.1 kv.2])

/-- values of a Literal (schema_checker.py:214-225) -/
def literalChanges (path : List String) (old new : List Val) : List Change :=
  let added := new.filter (fun v => !(pyMem v old))
  let removed := old.filter (fun v => !(pyMem v new))
  (if added.isEmpty then [] else [.literalAdded path added]) ++
  (if removed.isEmpty then [] else [.literalRemoved path removed])

mutual
/-- `_find_changes` (schema_checker.py:94-227), by cases on `new`; the changes appended in order -/
def findChanges (path : List String) : STy → STy → Except Err (List Change)
  | .prim n, old => match old with
    | .prim o => .ok (if o == n then [] else [.typeChanged path (.prim o) (.prim n)])
    | _ => .ok [.typeChanged path old (.prim n)]
  | .list n, old => match old with
    | .list o => findChanges path n o
    | _ => .ok [.typeChanged path old (.list n)]
  | .struct nn nfs nv, old => match old with
    | .struct _ ofs _ => do
      let cs ← findFields path ofs nfs
      return cs ++ removedFields path nfs ofs
    | _ => .ok [.typeChanged path old (.struct nn nfs nv)]
  | .option n, old => match old with
    | .option o => findChanges path n o
    | _ => .ok [.typeChanged path old (.option n)]
  | .enum nn nvs, old => match old with
    | .enum _ ovs => .ok (enumChanges path nn ovs nvs)
    | _ => .ok [.typeChanged path old (.enum nn nvs)]
  | .literal nvs, old => match old with
    | .literal ovs => .ok (literalChanges path ovs nvs)
    | _ => .ok [.typeChanged path old (.literal nvs)]
  -- unsupported when both have the same class (schema_checker.py:226-227)
  | .tuple ns, old => match old with
    | .tuple _ => .error .valueError
    | _ => .ok [.typeChanged path old (.tuple ns)]
  | .dict k v, old => match old with
    | .dict _ _ => .error .valueError
    | _ => .ok [.typeChanged path old (.dict k v)]
  | .union ns, old => match old with
    | .union _ => .error .valueError
    | _ => .ok [.typeChanged path old (.union ns)]
  | .nothing, old => match old with
    | .nothing => .error .valueError
    | _ => .ok [.typeChanged path old .nothing]
termination_by structural x => x
/-- the loop over the fields of the new struct (schema_checker.py:105-164) -/
def findFields (path : List String) (olds : List (String × SFld)) : List (String × SFld) → Except Err (List Change)
  | [] => .ok []
  | f :: fs => do
    let cs ← findFieldP path olds f
    let cs' ← findFields path olds fs
    return cs ++ cs'
termination_by structural x => x
def findFieldP (path : List String) (olds : List (String × SFld)) : String × SFld → Except Err (List Change)
  | (k, f) => findField1 path olds k f
termination_by structural x => x
def findField1 (path : List String) (olds : List (String × SFld)) (k : String) : SFld → Except Err (List Change)
  | .mk nm t d h doc => match dget olds k with
    | .none => .ok (allNewS path k (.mk nm t d h doc))
    | some old =>
      if t.isStruct && !old.type.isStruct then
        .ok (.fieldRemoved (path ++ [k]) old.type old.dflt old.hasDefault :: allNew (path ++ [k]) t)
      else if old.type.isStruct && !t.isStruct then
        .ok (.fieldAdded (path ++ [k]) t d h :: allGone (path ++ [k]) old.type)
      else do
        let cs ← findChanges (path ++ [k]) t old.type
        return cs ++ defaultChanges (path ++ [k]) old (.mk nm t d h doc)
termination_by structural x => x
end

/-! ## rename matching -/

/-- arguments of `_find_renames` (schema_checker.py:229-235) -/
structure RenameCfg (α : Type) where
  isAdded : α → Bool
  isRemoved : α → Bool
  /-- `similarity(added, removed)` -/
  sim : α → α → Option Rat
  /-- `new_renamed(added, removed)` -/
  renamed : α → α → α

/-- local variables of `_find_renames`, `self.changes`. Every change carries a number that stands for the object identity;
`list.remove` removes that object. (It removes the first object that is the same or `==`; two changes are `==` only if they are
the same change of the same field.) -/
structure RenameSt (α : Type) where
  changes : List (Nat × α)
  removeds : List (Nat × α)
  addeds : List (Nat × α)
  next : Nat

/-- one comparison of the inner loop (schema_checker.py:247-251) -/
def betterMatch {α : Type} (c : RenameCfg α) (best : Rat × Option ((Nat × α) × (Nat × α))) (r a : Nat × α) :
    Rat × Option ((Nat × α) × (Nat × α)) :=
  match c.sim a.2 r.2 with
  | some s => if best.1 < s then (s, some (r, a)) else best
  | .none => best

/-- the two loops (schema_checker.py:243-251) -/
def bestMatch {α : Type} (c : RenameCfg α) (threshold : Rat) (removeds addeds : List (Nat × α)) :
    Rat × Option ((Nat × α) × (Nat × α)) :=
  removeds.foldl (fun best r => addeds.foldl (fun best a => betterMatch c best r a) best) (threshold, .none)

def removeId {α : Type} (n : Nat) (xs : List (Nat × α)) : List (Nat × α) := xs.eraseP (fun x => x.1 == n)

/-- body of `while True` (schema_checker.py:243-261); `none` is `break`. `threshold` is 0.1 (schema_checker.py:236). -/
def renameStep {α : Type} (c : RenameCfg α) (s : RenameSt α) : Option (RenameSt α) :=
  match (bestMatch c (1 / 10) s.removeds s.addeds).2 with
  | .none => .none
  | some (r, a) => some
      { changes := removeId a.1 (removeId r.1 s.changes) ++ [(s.next, c.renamed a.2 r.2)]
        removeds := removeId r.1 s.removeds
        addeds := removeId a.1 s.addeds
        next := s.next + 1 }

theorem foldl_mem {α β : Type} (P : β → Prop) (f : β → α → β) : ∀ (xs : List α) (b : β), P b →
    (∀ b, ∀ x ∈ xs, P b → P (f b x)) → P (xs.foldl f b) := by
  intro xs
  induction xs with
  | nil => intro b hb _; exact hb
  | cons x xs ih =>
    intro b hb h
    exact ih (f b x) (h b x (by simp) hb) (fun b y hy => h b y (List.mem_cons_of_mem _ hy))

/-- a match consists of elements of the two lists -/
theorem bestMatch_mem {α : Type} (c : RenameCfg α) (t : Rat) (rs as : List (Nat × α)) (r a : Nat × α)
    (h : (bestMatch c t rs as).2 = some (r, a)) : r ∈ rs ∧ a ∈ as := by
  have : ∀ p, (bestMatch c t rs as).2 = some p → p.1 ∈ rs ∧ p.2 ∈ as := by
    unfold bestMatch
    refine foldl_mem (fun b : Rat × Option ((Nat × α) × (Nat × α)) => ∀ p, b.2 = some p → p.1 ∈ rs ∧ p.2 ∈ as) _ rs _ ?_ ?_
    · intro p hp; exact (nomatch hp)
    intro b r' hr' hb
    refine foldl_mem (fun b : Rat × Option ((Nat × α) × (Nat × α)) => ∀ p, b.2 = some p → p.1 ∈ rs ∧ p.2 ∈ as) _ as _ hb ?_
    intro b a' ha' hb p hp
    unfold betterMatch at hp
    split at hp
    · split at hp
      · cases hp; exact ⟨hr', ha'⟩
      · exact hb p hp
    · exact hb p hp
  exact this (r, a) h

theorem renameStep_decreases {α : Type} (c : RenameCfg α) (s s' : RenameSt α) (h : renameStep c s = some s') :
    s'.removeds.length < s.removeds.length := by
  unfold renameStep at h
  split at h
  · exact (nomatch h)
  · rename_i r a hm
    cases h
    have hr := (bestMatch_mem c _ _ _ r a hm).1
    simp only [removeId]
    have := List.length_eraseP_of_mem (p := fun x => x.1 == r.1) hr (by simp)
    have := List.length_pos_of_mem hr
    omega

/-- the `while` loop -/
def renameLoop {α : Type} (c : RenameCfg α) (s : RenameSt α) : RenameSt α :=
  match _h : renameStep c s with
  | .none => s
  | some s' => renameLoop c s'
termination_by s.removeds.length
decreasing_by exact renameStep_decreases c s s' _h

/-- number the changes -/
def numbered {α : Type} (xs : List α) : List (Nat × α) := xs.zipIdx.map (fun p => (p.2, p.1))

/-- local variables at the start (schema_checker.py:237-242) -/
def renameInit {α : Type} (c : RenameCfg α) (xs : List α) : RenameSt α :=
  { changes := numbered xs
    removeds := (numbered xs).filter (fun x => c.isRemoved x.2)
    addeds := (numbered xs).filter (fun x => c.isAdded x.2)
    next := xs.length }

/-- `_find_renames` (schema_checker.py:229-261) -/
def findRenames {α : Type} (c : RenameCfg α) (xs : List α) : List α := (renameLoop c (renameInit c xs)).changes.map Prod.snd

/-- `_find_field_renames` (schema_checker.py:263-278). `name_similarity` does not raise (C31). -/
def fieldRenameCfg (lower : Char → String) : RenameCfg Change where
  isAdded | .fieldAdded _ _ _ _ => true | _ => false
  isRemoved | .fieldRemoved _ _ _ _ => true | _ => false
  sim
    | .fieldAdded ap at' ad ah, .fieldRemoved rp rt rd rh =>
      if isSubtype rt at' && rh == ah && pyEq rd ad then (nameSimilarity lower (rp.getLastD "") (ap.getLastD "")).toOption
      else .none
    | _, _ => .none
  renamed
    | .fieldAdded ap _ _ _, .fieldRemoved rp _ _ _ => .fieldRenamed rp ap
    | a, _ => a

/-- `_find_enum_variant_renames` (schema_checker.py:280-304) -/
def enumRenameCfg (lower : Char → String) : RenameCfg Change where
  isAdded | .variantAdded _ _ _ _ => true | _ => false
  isRemoved | .variantRemoved _ _ _ _ => true | _ => false
  sim
    | .variantAdded _ _ av _, .variantRemoved _ _ rv _ => (nameSimilarity lower rv av).toOption
    | _, _ => .none
  renamed
    | .variantAdded ap an av aval, .variantRemoved rp _ rv rval =>
      if pyEq rval aval then .variantRenamed ap an rv av else .variantValueChanged rp an rv rval aval
    | a, _ => a

/-! ## the checker -/

/-- `self.changes` after `__init__` (schema_checker.py:49-53), given the (upgraded) old and the new schema -/
def checkSchemas (lower : Char → String) (old new : STy) : Except Err (List Change) := do
  let cs ← findChanges [] new old
  return findRenames (enumRenameCfg lower) (findRenames (fieldRenameCfg lower) cs)

/-- `severity` (schema_checker.py:59-64) -/
def severityOf (cs : List Change) : Severity :=
  cs.foldl (fun m c => if c.severity.gt m then c.severity else m) .info

/-- the class's schema and upgrade rules (schema_checker.py:42-45); `assert isinstance(new, t.Struct)` -/
def classSchema (ty : PyTy) : Except Err (STy × Option VerInfo) := do
  match ← materialize ty with
  | .struct n fs v => match ty with
    | .data _ _ ver => return (.struct n fs v, ver)
    | _ => throw .attributeError
  | _ => throw .assertionError

/-- `SchemaChecker(old, config_clz)` (schema_checker.py:36-57): the changes. A class that is not Versioned has no
`_apply_schema_upgrades`. -/
def checker (lower : Char → String) (old : STy) (ty : PyTy) : Except Err (List Change) := do
  let (new, ver) ← classSchema ty
  match ver with
  | some vi => checkSchemas lower (← vi.applySchemaUpgrades old) new
  | .none => throw .attributeError

/-- `proposed_fixes` (schema_checker.py:54-57) -/
def proposedFixes (cs : List Change) : List Rule := cs.filterMap Change.fix

/-- `_upgrade_schema` (schema_checker.py:383-391) for a file containing the schema `old`: the schema written to the file;
`none` when a report is printed instead -/
def upgradeSchema (lower : Char → String) (old : STy) (ty : PyTy) : Except Err (Option STy) := do
  let cs ← checker lower old ty
  if (severityOf cs).ge .warn then return .none
  else return some (← materialize ty)

end HS
