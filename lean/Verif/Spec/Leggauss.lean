import Verif.Spec.OrthoPoly
import Mathlib.Algebra.BigOperators.Group.List.Basic

/-! # `numpy.polynomial.legendre.leggauss`
The points are the roots of the Legendre polynomial (numpy: eigenvalues of the companion matrix and one Newton step).
The weights are computed the way numpy does: `1 / (P_{N-1}(x) P_N'(x))`, scaled so that they sum to 2. numpy's other
scalings by the largest absolute values cancel, and its symmetrisations do nothing in exact arithmetic; they are left
out. For `N = 0` numpy raises `ValueError`, so theorems ask for `N ≥ 1`. -/

namespace Chords.Spec
open Polynomial

/-- The points returned by `leggauss(N)`. -/
noncomputable def leggaussPoints (N : ℕ) : List ℝ := realRoots (legendre N)

/-- The weights before the last scaling. -/
noncomputable def leggaussRaw (N : ℕ) : List ℝ :=
  (leggaussPoints N).map fun x => 1 / ((legendre (N - 1)).eval x * (derivative (legendre N)).eval x)

/-- The weights returned by `leggauss(N)`. -/
noncomputable def leggaussWeights (N : ℕ) : List ℝ :=
  (leggaussRaw N).map fun w => w * (2 / (leggaussRaw N).sum)

end Chords.Spec
