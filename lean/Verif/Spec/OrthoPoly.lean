import Mathlib.Algebra.Polynomial.Roots
import Mathlib.Algebra.Polynomial.Derivative
import Mathlib.Data.Multiset.Sort
import Mathlib.Data.Real.Basic

/-! # The polynomials and root lists sympy supplies
What `sympy.legendre_poly`, `sympy.jacobi_poly` and `Poly.real_roots` compute, over the reals (sympy works over
the rationals and isolates the roots exactly; `evalf` rounding is not modelled). -/

namespace Chords.Spec
open Polynomial

/-- `legendre_poly(n)`: the recurrence sympy uses, `i P_i = (2i-1) x P_{i-1} - (i-1) P_{i-2}`. -/
noncomputable def legendre : ℕ → ℝ[X]
  | 0 => 1
  | 1 => X
  | n + 2 => C ((2 * (n : ℝ) + 3) / (n + 2)) * X * legendre (n + 1) - C (((n : ℝ) + 1) / (n + 2)) * legendre n

/-- `jacobi_poly(n, a, b)`: the recurrence sympy uses (`dup_jacobi`), with `i = n + 2`. -/
noncomputable def jacobi (a b : ℝ) : ℕ → ℝ[X]
  | 0 => 1
  | 1 => C ((a + b) / 2 + 1) * X + C ((a - b) / 2)
  | n + 2 =>
    let i : ℝ := n + 2
    let den := i * (a + b + i) * (a + b + 2 * i - 2)
    let f0 := (a + b + 2 * i - 1) * (a * a - b * b) / (2 * den)
    let f1 := (a + b + 2 * i - 1) * (a + b + 2 * i - 2) * (a + b + 2 * i) / (2 * den)
    let f2 := (a + i - 1) * (b + i - 1) * (a + b + 2 * i) / den
    C f0 * jacobi a b (n + 1) + C f1 * X * jacobi a b (n + 1) - C f2 * jacobi a b n

/-- `Poly.real_roots()`: all real roots with multiplicity, in increasing order. -/
noncomputable def realRoots (p : ℝ[X]) : List ℝ := p.roots.sort (· ≤ ·)

end Chords.Spec
