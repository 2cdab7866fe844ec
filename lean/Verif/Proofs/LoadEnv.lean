import Verif.Model.Load
/-! What is loaded does not depend on the versions and defaults of the classes in scope. -/

namespace HS

theorem packAttrs_env (e e' : String → ClsInfo) (cls : String) (as : List (String × Val)) :
    packAttrs { plainCfg with env := e } cls as = packAttrs { plainCfg with env := e' } cls as := rfl

theorem serHooks_env (e e' : String → ClsInfo) (file : String) (v : Val) :
    serHooks { plainCfg with env := e } file v = serHooks { plainCfg with env := e' } file v := rfl

mutual
theorem asdict_env (e e' : String → ClsInfo) (file : String) : ∀ v, asdict { plainCfg with env := e } file v = asdict { plainCfg with env := e' } file v
  | .inst cls kvs => by
    simp only [asdict]
    rw [serHooks_env e e', asdictD_env e e' file kvs]
    simp only [packAttrs_env e e']
  | .dict kvs => by
    simp only [asdict]
    rw [serHooks_env e e', asdictD_env e e' file kvs]
  | .list xs => by
    simp only [asdict]
    rw [serHooks_env e e', asdictL_env e e' file 0 xs]
  | .tup xs => by
    simp only [asdict]
    rw [serHooks_env e e', asdictL_env e e' file 0 xs]
  | .ntup n kvs => by
    simp only [asdict]
    rw [serHooks_env e e', asdictV_env e e' file 0 kvs]
  | .none => rfl
  | .bool _ => rfl
  | .int _ => rfl
  | .flt _ => rfl
  | .str _ => rfl
  | .enm _ _ _ => rfl
  | .ser _ _ => rfl
theorem asdictD_env (e e' : String → ClsInfo) (file : String) : ∀ kvs, asdictD { plainCfg with env := e } file kvs = asdictD { plainCfg with env := e' } file kvs
  | [] => rfl
  | (k, v) :: kvs => by
    simp only [asdictD, asdictP]
    rw [asdict_env e e' _ v, asdictD_env e e' file kvs]
theorem asdictL_env (e e' : String → ClsInfo) (file : String) : ∀ i xs, asdictL { plainCfg with env := e } file i xs = asdictL { plainCfg with env := e' } file i xs
  | _, [] => rfl
  | i, v :: xs => by
    simp only [asdictL]
    rw [asdict_env e e' _ v, asdictL_env e e' file (i + 1) xs]
theorem asdictV_env (e e' : String → ClsInfo) (file : String) : ∀ i kvs, asdictV { plainCfg with env := e } file i kvs = asdictV { plainCfg with env := e' } file i kvs
  | _, [] => rfl
  | i, (k, v) :: kvs => by
    simp only [asdictV, asdictE]
    rw [asdict_env e e' _ v, asdictV_env e e' file (i + 1) kvs]
end

theorem asRawDict_env (c : DCfg) (e : String → ClsInfo) (v : Val) : asRawDict { c with env := e } v = asRawDict c v := by
  cases v <;> first | rfl | (simp only [asRawDict]; rw [asdict_env e c.env])

mutual
/-- what is loaded does not depend on the versions and defaults of the classes in scope (only what is written does) -/
theorem fromDict_env (c : DCfg) (e : String → ClsInfo) : ∀ (t : PyTy), ∀ (ig : Bool) (path : String) (v : Val),
    fromDict { c with env := e } t ig path v = fromDict c t ig path v
  | .int, ig, path, v => by simp only [fromDict]
  | .float, ig, path, v => by simp only [fromDict]
  | .str, ig, path, v => by simp only [fromDict]
  | .bool, ig, path, v => by simp only [fromDict]
  | .noneT, ig, path, v => by simp only [fromDict]
  | .list t, ig, path, v => by
    have ih := fromDict_env c e t
    simp only [fromDict, ih]
  | .tuple ts, ig, path, v => by
    have ih := fdNth_env c e ts
    simp only [fromDict, ih]
  | .dict _ t, ig, path, v => by
    have ih := fromDict_env c e t
    simp only [fromDict, ih]
  | .union ts, ig, path, v => by
    have ih1 := fdHead_env c e ts
    have ih2 := fdNamed_env c e ts
    simp only [fromDict, ih1, ih2]
  | .data n fs ver, ig, path, v => by
    have ih := fdField_env c e fs
    simp only [fromDict, ih, asRawDict_env c e]
  | .enum _ _, ig, path, v => by simp only [fromDict]
  | .literal _, ig, path, v => by simp only [fromDict]
  | .blob _, ig, path, v => by simp only [fromDict]
termination_by structural x => x
theorem fdHead_env (c : DCfg) (e : String → ClsInfo) : ∀ (ts : List PyTy), ∀ (ig : Bool) (path : String) (v : Val),
    fdHead { c with env := e } ts ig path v = fdHead c ts ig path v
  | [], ig, path, v => by simp only [fdHead]
  | t :: ts, ig, path, v => by
    have ih := fromDict_env c e t
    simp only [fdHead, ih]
termination_by structural x => x
theorem fdNth_env (c : DCfg) (e : String → ClsInfo) : ∀ (ts : List PyTy), ∀ (i : Nat) (path : String) (v : Val),
    fdNth { c with env := e } ts i path v = fdNth c ts i path v
  | [], i, path, v => by simp only [fdNth]
  | t :: ts, i, path, v => by
    have ih := fromDict_env c e t
    have ih2 := fdNth_env c e ts
    cases i <;> simp only [fdNth, ih, ih2]
termination_by structural x => x
theorem fdNamed_env (c : DCfg) (e : String → ClsInfo) : ∀ (ts : List PyTy), ∀ (n : Val) (ig : Bool) (path : String) (v : Val),
    fdNamed { c with env := e } ts n ig path v = fdNamed c ts n ig path v
  | [], n, ig, path, v => by simp only [fdNamed]
  | t :: ts, n, ig, path, v => by
    have ih := fromDict_env c e t
    have ih2 := fdNamed_env c e ts
    simp only [fdNamed, ih, ih2]
termination_by structural x => x
theorem fdField_env (c : DCfg) (e : String → ClsInfo) : ∀ (fs : List Fld), ∀ (k path : String) (v : Val),
    fdField { c with env := e } fs k path v = fdField c fs k path v
  | [], k, path, v => by simp only [fdField]
  | f :: fs, k, path, v => by
    have ih := fdFld_env c e f
    have ih2 := fdField_env c e fs
    simp only [fdField, ih, ih2]
termination_by structural x => x
theorem fdFld_env (c : DCfg) (e : String → ClsInfo) : ∀ (f : Fld), ∀ (k path : String) (v : Val),
    fdFld { c with env := e } f k path v = fdFld c f k path v
  | .mk n t d, k, path, v => by
    have ih := fromDict_env c e t
    simp only [fdFld, ih]
termination_by structural x => x
end

end HS
