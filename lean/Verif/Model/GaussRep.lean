import Verif.Model.Gauss

/-! # Repeated integrals of functions with several components
`gauss_rep_integral` of chords/util.py 425-430 with `f2d=True`. -/

namespace Chords.GaussRep
open Finset Chords.Points Chords.Spec Chords.Bary Chords.Gauss

/-- An array with two dimensions. -/
structure Mat where
  rows : ℕ
  cols : ℕ
  val : ℕ → ℕ → ℝ

/-- `a * b` for an array `a` of `n` numbers and an array `b` with two dimensions: numpy matches `a` with the columns of `b`. The sizes have to be equal, or one of
them one. -/
def mulRow (n : ℕ) (a : ℕ → ℝ) (b : Mat) : Except Err Mat :=
  if n = b.cols then .ok ⟨b.rows, b.cols, fun i k => a k * b.val i k⟩
  else if n = 1 then .ok ⟨b.rows, b.cols, fun i k => a 0 * b.val i k⟩
  else if b.cols = 1 then .ok ⟨b.rows, n, fun i k => a k * b.val i 0⟩
  else .error .valueError

/-- `f(points)` for a function made by `combinefunctions` (numpy.py 43-48) of `m` functions of numbers: one row for each point. For one point `bary_poly`
(pseudospectral.py 838-846) gives numbers and the array is one row, which numpy uses in the same way. -/
def evalRows (f : ℝ → ℕ → ℝ) (m n : ℕ) (pts : ℕ → ℝ) : Mat := ⟨n, m, fun i k => f (pts i) k⟩

/-- `gauss_rep_integral(f, t0, t1, n_pol, n_integ, f2d=True)`, util.py 425-430 with 413-422, for a function with `m` components and `n_integ ≥ 1`: the entries of the array. -/
noncomputable def gaussRepIntegral2d (f : ℝ → ℕ → ℝ) (m : ℕ) (t0 t1 : ℝ) (n_pol : ℕ) (n_integ : ℕ := 1) : Except Err (List ℝ) := do
  let n_pol_cauchy := n_pol + n_integ - 1
  let n_gauss := ceilHalf (n_pol_cauchy + 1)
  let scale := t1 - t0
  let points := gaussPoint n_gauss t0 t1
  let f_vals ← mulRow n_gauss (fun j => (t1 - points j) ^ (n_integ - 1)) (evalRows f m n_gauss points)
  return (List.range f_vals.cols).map fun k =>
    1 / (Nat.factorial (n_integ - 1) : ℝ) * (scale * (∑ i ∈ range f_vals.rows, arr (leggaussWeights n_gauss) i * f_vals.val i k) / 2)

end Chords.GaussRep
