import Verif.Model.Bary
import Verif.Spec.Leggauss
import Verif.Spec.Antideriv

/-! # Gauss integration, antiderivatives and quadrature weights
chords/util.py 395-566. Real numbers replace floats. `leggauss` is numpy's (Spec/Leggauss.lean). The result caches are
modelled separately (Model/Cache.lean). -/

namespace Chords.Gauss
open Finset Chords.Points Chords.Spec Chords.Bary

/-- `t0 + scale * (points + 1.0) / 2.0`, util.py 405-406: the Gauss points moved to `[t0, t1]`. -/
noncomputable def gaussPoint (N : ℕ) (t0 t1 : ℝ) (i : ℕ) : ℝ :=
  let scale := t1 - t0
  t0 + scale * ((arr (leggaussPoints N) i + 1) / 2)

/-- `gauss_integral`, util.py 401-410. For `N = 0` `leggauss` raises; theorems ask for `N ≥ 1`. -/
noncomputable def gaussIntegral (f : ℝ → ℝ) (N : ℕ) (t0 t1 : ℝ) : ℝ :=
  let scale := t1 - t0
  scale * (∑ ii ∈ range N, arr (leggaussWeights N) ii * f (gaussPoint N t0 t1 ii)) / 2

/-- `gauss_integral_2d`, util.py 413-422: column by column. -/
noncomputable def gaussIntegral2d (f : ℝ → ℕ → ℝ) (N : ℕ) (t0 t1 : ℝ) : ℕ → ℝ :=
  let scale := t1 - t0
  fun col => scale * (∑ ii ∈ range N, arr (leggaussWeights N) ii * f (gaussPoint N t0 t1 ii) col) / 2

/-- `math.ceil(n / 2)`. -/
def ceilHalf (n : ℕ) : ℕ := (n + 1) / 2

/-- `gauss_rep_integral`, util.py 425-430, with `f2d=False`. For `n_integ = 0` `factorial(-1)` raises; theorems ask for
`n_integ ≥ 1`. -/
noncomputable def gaussRepIntegral (f : ℝ → ℝ) (t0 t1 : ℝ) (n_pol : ℕ) (n_integ : ℕ := 1) : ℝ :=
  let n_pol_cauchy := n_pol + n_integ - 1
  let n_gauss := ceilHalf (n_pol_cauchy + 1)
  let cauchy_f := fun t => (t1 - t) ^ (n_integ - 1) * f t
  1 / (Nat.factorial (n_integ - 1) : ℝ) * gaussIntegral cauchy_f n_gauss t0 t1

/-- `[t0] + points`, util.py 436-449: `t0` followed by the `n_pol + 1` Gauss points of `[t0, t1]`. -/
noncomputable def integPoints (n_pol : ℕ) (t0 t1 : ℝ) : ℕ → ℝ
  | 0 => t0
  | i + 1 => gaussPoint (n_pol + 1) t0 t1 i

/-- `poly_integral`, util.py 433-451. -/
noncomputable def polyIntegral (f : ℝ → ℝ) (n_pol : ℕ) (t0 t1 : ℝ) (y0 : ℝ := 0) : ℝ → ℝ :=
  let N_gauss := ceilHalf (n_pol + 1)
  let y : ℕ → ℝ := fun i => match i with
    | 0 => y0
    | i + 1 => y0 + gaussIntegral f N_gauss t0 (gaussPoint (n_pol + 1) t0 t1 i)
  baryPoly (n_pol + 2) (integPoints n_pol t0 t1) y

/-- A numeric value: `dim = none` for a number (shape `()`), `some n` for an array of shape `(n,)`. -/
structure VArr where
  dim : Option ℕ
  val : ℕ → ℝ

/-- A numeric function of one number, whose values have shape `()` or `(n,)`. -/
structure VFun where
  dim : Option ℕ
  val : ℝ → ℕ → ℝ

/-- `poly_integral_2d`, util.py 454-488. Results of more than one dimension (`NotImplementedError`) do not occur here.
In the branch for one column a `y0` with several entries makes `bary_poly` fail with a `ValueError` of numpy. -/
noncomputable def polyIntegral2d (f : VFun) (n_pol : ℕ) (t0 t1 : ℝ) (y0 : VArr := ⟨none, fun _ => 0⟩) :
    Except Err VFun :=
  if f.dim = none ∨ f.dim = some 1 then
    if y0.dim = none ∨ y0.dim = some 1 then
      .ok ⟨none, fun x _ => polyIntegral (fun t => f.val t 0) n_pol t0 t1 (y0.val 0) x⟩
    else .error .valueError
  else
    let go := fun (y0 : ℕ → ℝ) =>
      let N_gauss := ceilHalf (n_pol + 1)
      let mat : ℕ → ℕ → ℝ := fun i => match i with
        | 0 => fun _ => 0
        | i + 1 => gaussIntegral2d f.val N_gauss t0 (gaussPoint (n_pol + 1) t0 t1 i)
      VFun.mk f.dim (baryPoly2d (n_pol + 2) (integPoints n_pol t0 t1) fun i c => y0 c + mat i c)
    if y0.dim = f.dim then .ok (go y0.val)
    else if y0.dim = none ∨ y0.dim = some 1 then .ok (go fun _ => y0.val 0)
    else .error .valueError

/-- `numpy.eye(N)`. -/
def eye (i j : ℕ) : ℝ := if i = j then 1 else 0

/-- `Lag_pol_2d`, util.py 491-494. -/
noncomputable def lagPol2d (N : ℕ) (scheme : String) (order : ℕ := 2) : Except Err VFun := do
  let tau_arr ← collPoints N scheme order
  return ⟨some N, baryPoly2d N (arr tau_arr) eye⟩

/-- `Lag_pol_2d_x`, util.py 497-514. -/
noncomputable def lagPol2dX (N : ℕ) (scheme : String) : Except Err VFun := do
  let tau_arr ←
    if scheme ∈ gaussLike then (do
      let p ← nodePoints (N - 1) scheme
      return p ++ [1])
    else if scheme ∈ gaussInv then (do
      let p ← nodePoints (N - 1) scheme
      return [-1] ++ p)
    else nodePoints N scheme
  return ⟨some N, baryPoly2d N (arr tau_arr) eye⟩

/-- `Lag_integ_2d`, util.py 517-524. -/
noncomputable def lagInteg2d (N : ℕ) (scheme : String) : ℕ → (order : ℕ) → Except Err VFun
  | 0, order => lagPol2d N scheme order
  | k + 1, order => do
    let deriv_poly ← lagInteg2d N scheme k order
    let poly_deg := N + (k + 1) - 2
    polyIntegral2d deriv_poly poly_deg (-1) 1

/-- `get_weights`, util.py 527-566. -/
noncomputable def getWeights (N : ℕ) (scheme : String) (order : ℕ := 2) (mode : String := "u") : Except Err (ℕ → ℝ) :=
  let finish := fun (pol : VFun) => gaussIntegral2d pol.val (ceilHalf (N + 1)) (-1) 1
  if mode = "u" then
    if scheme = "LG" then .ok (arr (leggaussWeights N))
    else do
      let pol ← lagPol2d N scheme order
      return finish pol
  else if mode = "x" then do
    let pol ← lagPol2dX N scheme
    return finish pol
  else .error .valueError

end Chords.Gauss
