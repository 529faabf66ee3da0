import Verif.Model.Names
import Mathlib.LinearAlgebra.Matrix.NonsingularInverse
import Mathlib.Data.Matrix.Mul

/-! # From Lagrange equations to right hand sides
chords/symbolic.py 309-373. -/

namespace Chords.LagrRhs
open Chords.Names Matrix

/-- An expanded expression after `diff_to_symb_expr`: a sum of products of a number and symbols. Functions of coordinates
and velocities are in the numbers, that is, in their values. -/
abbrev Poly := List (ℝ × List Name)

/-- The value of a term. -/
noncomputable def termVal (σ : Name → ℝ) (t : ℝ × List Name) : ℝ := t.1 * (t.2.map σ).prod

/-- The value of an expression. -/
noncomputable def val (σ : Name → ℝ) (p : Poly) : ℝ := (p.map (termVal σ)).sum

/-- `expr.expand().collect(a).coeff(a)`, symbolic.py 343: what multiplies the first power of `a`. -/
def coeff (a : Name) (p : Poly) : Poly := (p.filter fun t => t.2.count a = 1).map fun t => (t.1, t.2.erase a)

/-- `coeff_mat`, symbolic.py 345 and 362, at values of the symbols. -/
noncomputable def coeffMat {n : ℕ} (eqs : Fin n → Poly) (σ : Name → ℝ) : Matrix (Fin n) (Fin n) ℝ :=
  Matrix.of fun i j => val σ (coeff (indexed 'a' j) (eqs i))

/-- `c_mat`, symbolic.py 346 and 357-361, at values of the symbols. -/
noncomputable def cMat {n : ℕ} (eqs : Fin n → Poly) (σ : Name → ℝ) : Fin n → ℝ :=
  fun i => val σ (eqs i) - ∑ j : Fin n, σ (indexed 'a' j) * val σ (coeff (indexed 'a' j) (eqs i))

/-- `lagr_to_RHS`, symbolic.py 309-373: `none` for the exception of the inverse. The code decides whether the matrix is invertible from its symbols, the
model from its values. -/
noncomputable def lagrToRHS {n : ℕ} (eqs : Fin n → Poly) (σ : Name → ℝ) : Option (Fin n → ℝ) :=
  open Classical in
  if IsUnit (coeffMat eqs σ).det then
    some ((coeffMat eqs σ)⁻¹ *ᵥ ((fun i : Fin n => σ (indexed 'u' i)) - cMat eqs σ))
  else none

end Chords.LagrRhs
