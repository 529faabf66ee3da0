import Verif.Model.Points
import Mathlib.Algebra.BigOperators.Group.Finset.Basic
import Mathlib.Algebra.BigOperators.Group.List.Basic
import Mathlib.Order.ConditionallyCompleteLattice.Basic

/-! # Barycentric interpolation and differentiation matrices
chords/pseudospectral.py 524-1059, chords/util.py 491-514.

A one-dimensional numpy array of `n` numbers is a function `ℕ → ℝ` together with `n`; only indices below `n` are
read. A list becomes such a function with `arr`. Real numbers replace floats. -/

namespace Chords.Bary
open Finset Chords.Points Chords.Spec Polynomial

/-- `numpy.array(l)` for a list of numbers. -/
def arr (l : List ℝ) : ℕ → ℝ := fun i => l.getD i 0

/-- `npmax(t) - npmin(t)`, pseudospectral.py 590. -/
noncomputable def span (n : ℕ) (t : ℕ → ℝ) : ℝ := sSup (t '' {i | i < n}) - sInf (t '' {i | i < n})

/-- `_v_sum`, pseudospectral.py 571-599. With one point numpy divides by zero but uses none of the results, so the
coefficient is 1, as here. -/
noncomputable def vSum (n : ℕ) (t : ℕ → ℝ) (i : ℕ) : ℝ :=
  let h := span n t
  let t' := fun j => t j * (4 / h)
  (n : ℝ) / ∏ j ∈ (range n).erase i, (t' i - t' j)

/-- `bary_poly`, pseudospectral.py 790-848, evaluated at one number. The dictionary built from the nodes keeps the last
value of a repeated node. -/
noncomputable def baryPoly (n : ℕ) (t y : ℕ → ℝ) (x : ℝ) : ℝ :=
  open Classical in
  match (List.range n).reverse.find? (fun i => decide (t i = x)) with
  | some i => y i
  | none => (∑ i ∈ range n, vSum n t i * y i / (x - t i)) / ∑ i ∈ range n, vSum n t i / (x - t i)

/-- `bary_poly_2d`, pseudospectral.py 851-875, evaluated at one number: one polynomial for each column. -/
noncomputable def baryPoly2d (n : ℕ) (t : ℕ → ℝ) (y : ℕ → ℕ → ℝ) (x : ℝ) : ℕ → ℝ :=
  fun col => baryPoly n t (fun i => y i col) x

/-- `v_coef`, pseudospectral.py 602-648. -/
noncomputable def vCoef (N i : ℕ) (scheme : String) (order : ℕ := 2) : Except Err ℝ :=
  if 2 < order then .error .valueError
  else do
    let taus ← nodePoints N scheme
    return vSum taus.length (arr taus) i

/-- `v_coef_coll`, pseudospectral.py 651-690. -/
noncomputable def vCoefColl (N i : ℕ) (scheme : String) (order : ℕ := 2) : Except Err ℝ := do
  let taus ← collPoints N scheme order
  return vSum taus.length (arr taus) i

/-- The body of `matrix_D_bary`, pseudospectral.py 731-742, for given points and coefficients. The entries outside the
diagonal are filled in first, while the diagonal is still zero. -/
noncomputable def dMat (n : ℕ) (t v : ℕ → ℝ) (i j : ℕ) : ℝ :=
  let M0 := fun (i j : ℕ) => if j = i then 0 else (v j / v i) / (t i - t j)
  if i = j then -∑ k ∈ range n, M0 i k else M0 i j

/-- `matrix_D_bary`, pseudospectral.py 693-743. -/
noncomputable def matrixDBary (N : ℕ) (scheme : String) : Except Err (ℕ → ℕ → ℝ) := do
  let taus ← nodePoints N scheme
  return dMat N (arr taus) (fun i => vSum taus.length (arr taus) i)

/-- `M @ y` for a square matrix and a column. -/
def matVec (n : ℕ) (M : ℕ → ℕ → ℝ) (y : ℕ → ℝ) : ℕ → ℝ := fun i => ∑ j ∈ range n, M i j * y j

/-- `numpy.linalg.matrix_power(M, k)`. -/
def matPow (n : ℕ) (M : ℕ → ℕ → ℝ) : ℕ → ℕ → ℕ → ℝ
  | 0 => fun i j => if i = j then 1 else 0
  | k + 1 => fun i j => ∑ l ∈ range n, M i l * matPow n M k l j

/-- `get_bary_extreme_f`, pseudospectral.py 970-1059. The returned function takes an array of `N` numbers (`coefs[-1]` is
entry `N - 1`); with `N = 0` the Python function would raise when called, so theorems ask for `N ≥ 1`. -/
noncomputable def baryExtreme (scheme : String) (N : ℕ) (mode point : String) (order : ℕ := 2) :
    Except Err ((ℕ → ℝ) → ℝ) :=
  let general : Except Err ((ℕ → ℝ) → ℝ) := do
    let p : ℝ := if point = "end" then 1 else -1
    let v_arr ← if mode = "u" then (List.range N).mapM (fun ii => vCoefColl N ii scheme order)
      else (List.range N).mapM (fun ii => vCoef N ii scheme order)
    let t_arr ← if mode = "u" then collPoints N scheme order else nodePoints N scheme
    let sup := fun i => arr v_arr i / (p - arr t_arr i)
    let inf := ∑ i ∈ range N, arr v_arr i / (p - arr t_arr i)
    return fun coefs => (∑ ii ∈ range N, coefs ii * sup ii) / inf
  if point = "start" then
    if mode = "u" then
      if scheme ∈ lobatoLike ++ radauLike ++ ["D2"] then .ok fun coefs => coefs 0 else general
    else if mode = "x" then
      if scheme ∈ gaussInv then general else .ok fun coefs => coefs 0
    else .error .valueError
  else if point = "end" then
    if mode = "u" then
      if scheme ∈ lobatoLike ++ radauInv ++ ["D2"] then .ok fun coefs => coefs (N - 1) else general
    else if mode = "x" then
      if scheme ∈ gaussLike then general else .ok fun coefs => coefs (N - 1)
    else .error .valueError
  else .error .valueError

/-- The control at the start offered by a node based problem, `_Pseudospectral.opti_setup`, opti.py 761-770. The data
are the controls at `coll_points(n_coll, scheme, precission)` (opti.py 678), that is with the default order. -/
noncomputable def startControl (scheme : String) (n_coll order : ℕ) : Except Err ((ℕ → ℝ) → ℝ) :=
  if scheme ∈ radauLike ++ lobatoLike ++ ["D2"] then .ok fun u => u 0
  else baryExtreme scheme n_coll "u" "start" order

/-- The control at the end, opti.py 772-781. -/
noncomputable def endControl (scheme : String) (n_coll order : ℕ) : Except Err ((ℕ → ℝ) → ℝ) :=
  if scheme ∈ radauInv ++ lobatoLike ++ ["D2"] then .ok fun u => u (n_coll - 1)
  else baryExtreme scheme n_coll "u" "end" order

/-- `lag_pol`, pseudospectral.py 523-535: the product over all labels different from the current one. -/
noncomputable def lagPol (labels : List ℝ) (j : ℕ) : ℝ[X] :=
  let current := arr labels j
  open Classical in
  ((labels.filter fun m => decide (m ≠ current)).map fun m => (X - C m) * C (current - m)⁻¹).prod

/-- `lagrangePolynomial`, pseudospectral.py 538-565. -/
noncomputable def lagrangePolynomial (xs ys : List ℝ) : ℝ[X] :=
  ∑ j ∈ range ys.length, C (arr ys j) * lagPol xs j

end Chords.Bary
