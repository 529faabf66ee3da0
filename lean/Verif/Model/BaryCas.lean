import Verif.Model.Bary
import Verif.Model.CasFuncs

/-! # Compiled end functions
chords/pseudospectral.py 1062-1082 (`get_bary_extreme_f_cas`), 1127-1147 (`end_p_fun_cas`), 1166-1186 (`start_p_fun_cas`).

The numeric function of `get_bary_extreme_f` is called with symbols, and the expression that it returns is compiled. The results that `store_results` and
`lru_cache` keep are those of C37-C40. -/

namespace Chords.BaryCas
open Names CasFuncs Bary Points

variable [PyChars]

inductive EErr
  /-- An error of `get_bary_extreme_f`. -/
  | points (e : Err)
  | cas (e : CErr)
  /-- `coefs[0]` of no symbols. -/
  | index

/-- `symbols(f"c0:{N}")`, pseudospectral.py 1069, 1134 and 1173. -/
def coefNames (N : ℕ) : List Name := (List.range N).map fun i => 'c' :: Nat.toDigits 10 i

/-- `coefs[ii]` for symbols. -/
def coefAt (xs : List Name) (ii : ℕ) : Except EErr Expr :=
  match xs[ii]? with
  | some n => .ok (.atom (.sym n))
  | none => .error .index

/-- `extpoint`, pseudospectral.py 1053-1057, called with symbols: `numsup` starts with zero and grows by a term for each symbol. -/
noncomputable def extpointExpr (N : ℕ) (xs : List Name) (sup : ℕ → ℝ) (inf : ℝ) : Except EErr Expr := do
  let numsup ← (List.range N).foldlM (fun acc ii => do
    let c ← coefAt xs ii
    return Expr.add acc (.mul c (.num (sup ii)))) (Expr.num 0)
  return .mul numsup (.num inf⁻¹)

def liftE {A : Type} : Except Err A → Except EErr A
  | .ok a => .ok a
  | .error e => .error (.points e)

def liftC {A : Type} : Except CErr A → Except EErr A
  | .ok a => .ok a
  | .error e => .error (.cas e)

/-- `get_bary_extreme_f(scheme, N, mode, point, order)(x_sympy)`, pseudospectral.py 970-1059: the branches of `Bary.baryExtreme`, with the function already
applied to symbols. -/
noncomputable def extremeExpr (scheme : String) (N : ℕ) (mode point : String) (order : ℕ) (xs : List Name) : Except EErr Expr :=
  let general : Except EErr Expr := do
    let p : ℝ := if point = "end" then 1 else -1
    let v_arr ← liftE (if mode = "u" then (List.range N).mapM (fun ii => vCoefColl N ii scheme order)
      else (List.range N).mapM (fun ii => vCoef N ii scheme order))
    let t_arr ← liftE (if mode = "u" then collPoints N scheme order else nodePoints N scheme)
    extpointExpr N xs (fun i => arr v_arr i / (p - arr t_arr i)) (∑ i ∈ Finset.range N, arr v_arr i / (p - arr t_arr i))
  if point = "start" then
    if mode = "u" then
      if scheme ∈ lobatoLike ++ radauLike ++ ["D2"] then coefAt xs 0 else general
    else if mode = "x" then
      if scheme ∈ gaussInv then general else coefAt xs 0
    else .error (.points .valueError)
  else if point = "end" then
    if mode = "u" then
      if scheme ∈ lobatoLike ++ radauInv ++ ["D2"] then coefAt xs (xs.length - 1) else general
    else if mode = "x" then
      if scheme ∈ gaussLike then general else coefAt xs (xs.length - 1)
    else .error (.points .valueError)
  else .error (.points .valueError)

/-- `get_bary_extreme_f_cas`, pseudospectral.py 1062-1082. -/
noncomputable def extremeCas (scheme : String) (N : ℕ) (mode : String := "u") (point : String := "start") (order : ℕ := 2) : Except EErr CasFun := do
  let xs := coefNames N
  let e ← extremeExpr scheme N mode point order xs
  let f ← liftC (sympy2casadi e xs)
  return ⟨[N], fun args => [f (arg args 0)]⟩

/-- `end_p_fun_cas`, pseudospectral.py 1127-1147. -/
noncomputable def endPFunCas (N : ℕ) (scheme : String := "LG") : Except EErr CasFun := do
  let xs := coefNames N
  let e ← extremeExpr scheme N "x" "end" 2 xs
  let f ← liftC (sympy2casadi e xs)
  return ⟨[N], fun args => [f (arg args 0)]⟩

/-- `start_p_fun_cas`, pseudospectral.py 1166-1186. -/
noncomputable def startPFunCas (N : ℕ) (scheme : String := "LG_inv") : Except EErr CasFun := do
  let xs := coefNames N
  let e ← extremeExpr scheme N "x" "start" 2 xs
  let f ← liftC (sympy2casadi e xs)
  return ⟨[N], fun args => [f (arg args 0)]⟩

end Chords.BaryCas
