import Verif.Spec.Typing
import Verif.Model.Load
/-!
# A concrete config class, used to show that the hypotheses of the theorems can be met
-/
namespace HS.Ex

def netTy : PyTy := .data "Net" [.mk "n" .int (some (.int 4)), .mk "act" (.literal [.str "relu", .str "tanh"]) none] none
def aTy : PyTy := .data "A" [.mk "x" .int none] none
def bTy : PyTy := .data "B" [.mk "y" .float (some (.flt (.fin 0)))] none
def optTy : PyTy := .enum "Opt" [("adam", .str "adam"), ("sgd", .str "sgd")]
def cfgVer : VerInfo := ⟨2, [(1, [.rename ["learning_rate"] ["lr"]])]⟩

def cfgTy : PyTy := .data "Config" [
  .mk "lr" .float none,
  .mk "net" netTy none,
  .mk "layers" (.list (.tuple [.int, .str])) (some (.list [])),
  .mk "extra" (.dict .str .float) (some (.dict [])),
  .mk "opt" optTy (some (.enm "Opt" "sgd" (.str "sgd"))),
  .mk "sub" (.optional netTy) (some .none),
  .mk "alt" (.union [aTy, bTy]) none] (some cfgVer)

def netVal : Val := .inst "Net" [("n", .int 7), ("act", .str "tanh")]

def cfgVal : Val := .inst "Config" [
  ("lr", .flt (.fin (1/2))),
  ("net", netVal),
  ("layers", .list [.tup [.int 3, .str "a"], .tup [.int (-1), .str "@"]]),
  ("extra", .dict [("k", .flt .nan)]),
  ("opt", .enm "Opt" "adam" (.str "adam")),
  ("sub", .none),
  ("alt", .inst "B" [("y", .flt (.inf true))])]

def env (n : String) : ClsInfo :=
  if n = "Net" then ⟨none, [("n", some (.int 4)), ("act", none)]⟩
  else if n = "A" then ⟨none, [("x", none)]⟩
  else if n = "B" then ⟨none, [("y", some (.flt (.fin 0)))]⟩
  else if n = "Config" then ⟨some 2, [("lr", none), ("net", none), ("layers", some (.list [])),
    ("extra", some (.dict [])), ("opt", some (.enm "Opt" "sgd" (.str "sgd"))), ("sub", some .none), ("alt", none)]⟩
  else ⟨none, []⟩

def ext : Ext := { parseFloat := fun _ => none, schedAt0 := fun _ => .error .valueError, typeArgOk := fun _ => true }
def world : World := { ext := ext, ron := fun _ => .error .valueError, env := env }

theorem cfgTy_ok : TyOK world.ext cfgTy := by
  simp only [cfgTy, TyOK, FldsOK, FldOK, netTy, aTy, bTy, optTy, PyTy.optional, TyOKs, NameOK, VerOK, cfgVer]
  refine ⟨by decide, by intro f hf; simp only [List.mem_cons, List.not_mem_nil, or_false] at hf
                        rcases hf with rfl | rfl | rfl | rfl | rfl | rfl | rfl <;> decide, ?_, ?_, ?_⟩
  · intro _ f hf; simp only [List.mem_cons, List.not_mem_nil, or_false] at hf
    rcases hf with rfl | rfl | rfl | rfl | rfl | rfl | rfl <;> decide
  · intro vi h e he; cases h; simp at he; subst he; decide
  · simp [world, ext, LitOK, Fld.name, NAME_KEY, WEAK_REF, isOptionalArgs, PyTy.isNoneT, isData, PyTy.pyName,
      List.isPrefixOf]

theorem cfgEnv_ok : EnvOK world.env cfgTy := by
  simp [cfgTy, EnvOK, EnvOKf, EnvOKf1, EnvOKs, netTy, aTy, bTy, optTy, PyTy.optional, world, env, cfgVer, Fld.name, Fld.dflt]

theorem netVal_ok : HasType false netTy netVal := by
  simp only [netTy, netVal, HasType, HasFields, HasField]
  exact ⟨_, rfl, _, _, rfl, ⟨rfl, .inl ⟨_, rfl⟩⟩, _, _, rfl, ⟨rfl, .inl (by simp)⟩, rfl⟩

theorem cfgVal_ok : HasType false cfgTy cfgVal := by
  have hnet := netVal_ok
  simp only [cfgTy, cfgVal, HasType, HasFields, HasField, HasTypeAny, HasTypes, optTy, aTy, bTy, PyTy.optional] at *
  refine ⟨_, rfl, _, _, rfl, ⟨rfl, _, rfl⟩, _, _, rfl, ⟨rfl, hnet⟩, _, _, rfl, ⟨rfl, _, rfl, ?_⟩,
    _, _, rfl, ⟨rfl, _, rfl, ?_, ?_⟩, _, _, rfl, ⟨rfl, _, _, ?_, rfl⟩, _, _, rfl, ⟨rfl, .inr (.inl rfl)⟩,
    _, _, rfl, ⟨rfl, .inr (.inl ⟨_, rfl, _, _, rfl, ⟨rfl, _, rfl⟩, rfl⟩)⟩, rfl⟩
  · intro x hx
    simp only [List.mem_cons, List.not_mem_nil, or_false] at hx
    rcases hx with rfl | rfl
    · exact ⟨_, rfl, .inr ⟨_, _, rfl, .inl ⟨_, rfl⟩, .inr ⟨_, _, rfl, ⟨_, rfl⟩, rfl⟩⟩⟩
    · exact ⟨_, rfl, .inr ⟨_, _, rfl, .inl ⟨_, rfl⟩, .inr ⟨_, _, rfl, ⟨_, rfl⟩, rfl⟩⟩⟩
  · intro _; simp [dkeys, WEAK_REF]
  · intro kv hkv
    simp only [List.mem_cons, List.not_mem_nil, or_false] at hkv
    subst hkv; exact ⟨_, rfl⟩
  · simp

end HS.Ex
