import Mathlib.Data.Real.Basic
import Mathlib.Algebra.BigOperators.Group.Finset.Basic
import Mathlib.Algebra.BigOperators.Pi
import Mathlib.Order.Interval.Finset.Nat
import Verif.Spec.PyStr

/-! # Running costs of equispaced problems, chords/opti.py 371-384 and 1980-2118

An optimisation array with `n` rows and `m` columns is a function `ℕ → Fin m → ℝ` together with the
number `n` of rows; entries at row `n` and beyond are never read.
Casadi symbols are replaced by their values. -/

namespace Chords.Costs
open Finset Chords.Spec

variable {m : ℕ}

/-- `cas.sum1(arr[a:b, :])`: sum of the rows `a, ..., b-1`, a row vector. -/
def sum1 (arr : ℕ → Fin m → ℝ) (a b : ℕ) : Fin m → ℝ := fun j => ∑ i ∈ Ico a b, arr i j

/-- `cas.sum2` of a row vector. -/
def sum2 (r : Fin m → ℝ) : ℝ := ∑ j, r j

/-- `arr**2`, elementwise. -/
def sqArr (arr : ℕ → Fin m → ℝ) : ℕ → Fin m → ℝ := fun i j => arr i j ^ 2

/-- `_Equispaced.quad_cost`, opti.py 1980-2020. `T` is `t_end - t_start`, `N` the number of intervals of
the problem, `n` the number of rows of `arr`, `arr_c` comes with its number of rows. The slice
`arr[1:-1, :]` is rows `1, ..., n-2`. -/
noncomputable def quadCost (T : ℝ) (N : ℕ) (n : ℕ) (arr : ℕ → Fin m → ℝ)
    (arr_c : Option (ℕ × (ℕ → Fin m → ℝ))) (squared : Bool) : ℝ :=
  let arr := if squared then sqArr arr else arr
  match arr_c with
  | none => T * sum2 (fun j => (sum1 arr 0 n j + sum1 arr 1 (n - 1) j) / N)
  | some (nc, c) =>
    let c := if squared then sqArr c else c
    T * sum2 (fun j => (4 * sum1 c 0 nc j + sum1 arr 0 n j + sum1 arr 1 (n - 1) j) / (6 * N))

/-- The stored control arrays of an equispaced problem: `u` (`N+1` rows), `u_c` (`N` rows), `u_j` (`N`
rows, only in "hsj_parab_mod"). -/
structure Controls (m : ℕ) where
  u : ℕ → Fin m → ℝ
  u_c : ℕ → Fin m → ℝ
  u_j : ℕ → Fin m → ℝ

/-- `_Equispaced.u_sq_cost`, opti.py 2055-2118, the cost. `"parab" in scheme` and `"j" in scheme` are
string containments. The `RuntimeError` branch (opti not set up) belongs to the call-order model. -/
noncomputable def uSqCost (scheme : String) (T : ℝ) (N : ℕ) (a : Controls m) : ℝ :=
  let U_sq := sqArr a.u
  let n := N + 1
  if pyIn "parab" scheme then
    let U_c := if scheme = "hsj_parab_mod" then a.u_j else a.u_c
    let U_c_sq := sqArr U_c
    if pyIn "j" scheme && (scheme ≠ "hsj_parab_mod") then
      T * sum2 (fun j =>
        (25 * sum1 U_c_sq 0 N j + 3 * sum1 U_sq 0 (n - 1) j + 8 * sum1 U_sq 1 n j) / (36 * N))
    else
      T * sum2 (fun j => (4 * sum1 U_c_sq 0 N j + sum1 U_sq 0 n j + sum1 U_sq 1 (n - 1) j) / (6 * N))
  else
    T * sum2 (fun j => (sum1 U_sq 0 n j + sum1 U_sq 1 (n - 1) j) / (2 * N))

/-- `_Equispaced.u_sq_cost`, opti.py 2087-2094: the constraint that it adds to the problem. In the source
`U_c` is the stored "u_j" and `U_j` the stored "u_c". -/
def uSqConstraint (scheme : String) (N : ℕ) (a : Controls m) : Prop :=
  if pyIn "parab" scheme && (scheme == "hsj_parab_mod") then
    ∀ i < N, ∀ j, a.u_c i j = (24 * a.u_j i j - 2 * a.u (i + 1) j + 3 * a.u i j) / 25
  else True

/-- `exact_cuadratic_squared_integration`, opti.py 371-384, row `i`, column `j` of the result. -/
noncomputable def exactSq (x x_c : ℕ → Fin m → ℝ) (h : ℝ) : ℕ → Fin m → ℝ := fun i j =>
  let a := x i j
  let b := x_c i j
  let c := x (i + 1) j
  h * (2 * a ^ 2 + 2 * a * b - a * c + 8 * b ^ 2 + 2 * b * c + 2 * c ^ 2) / 15

/-- Shape rule of casadi elementwise operations on non-empty matrices: equal shapes, or one is 1 by 1. -/
def broadcastOk (s s' : ℕ × ℕ) : Bool := s == s' || s == (1, 1) || s' == (1, 1)

/-- `_Equispaced.sq_cost`, opti.py 2022-2053. `arr` has `n` rows; without `arr_c` the default is taken from
slices along the second axis (`arr[:, :-1] + arr[:, 1:]`), of shape `n` by `m - 1`; when the shapes of
the operands `a` (`n - 1` by `m`) and `b` do not match casadi raises, here `none`. Empty operands are
not modelled, theorems assume `2 ≤ m` in that branch. A matching default cannot be read in the
row/column layout, so it is given by `defaultC`. -/
noncomputable def sqCost (T : ℝ) (N : ℕ) (n : ℕ) (arr : ℕ → Fin m → ℝ)
    (arr_c : Option (ℕ × (ℕ → Fin m → ℝ))) (defaultC : ℕ → Fin m → ℝ) : Option ℝ :=
  let h := T / N
  match arr_c with
  | some (nc, c) =>
    if broadcastOk (n - 1, m) (nc, m) then
      some (sum2 (sum1 (exactSq arr c h) 0 (n - 1)))
    else none
  | none =>
    if broadcastOk (n - 1, m) (n, m - 1) then
      some (sum2 (sum1 (exactSq arr defaultC h) 0 (n - 1)))
    else none

end Chords.Costs
