import Mathlib.Data.Matrix.Mul
import Mathlib.Analysis.Calculus.Deriv.Basic

/-! # The matrices of the equations of motion
chords/symbolic.py 159-214 (`lagrange`, `get_lagr_eqs`) and 757-838 (`LagrangesMethod`).

Symbolic expressions of positions and velocities are functions of them. `diff(e, q[k])` is the derivative of the function in
that argument, and `diff(t)` is the derivative along a motion `q(t)` with velocities `q'(t)`. `simplify` does not change values and is left
out. What comes from SymPy's `LagrangesMethod` without forces: `_term1 = d/dt ∂L/∂q'`, `_term2 = ∂L/∂q` and the mass matrix `_m_d`, which
is the jacobian of `_term1 - _term2` in `q''`, that is `∂²L/∂q'∂q'`. -/

namespace Chords.Coriolis
open Matrix

variable {n : ℕ}

/-- `diff(f, q[k])`. -/
noncomputable def pd (f : (Fin n → ℝ) → ℝ) (q : Fin n → ℝ) (k : Fin n) : ℝ :=
  deriv (fun s => f (Function.update q k s)) (q k)

/-- `_C_from_M`, symbolic.py 757-776. -/
noncomputable def cFromM (M : (Fin n → ℝ) → Matrix (Fin n) (Fin n) ℝ) (q qdot : Fin n → ℝ) : Matrix (Fin n) (Fin n) ℝ :=
  Matrix.of fun i j => ∑ k, qdot k *
    (pd (fun q => M q i j) q k + pd (fun q => M q i k) q j - pd (fun q => M q k j) q i) / 2

/-- `_m_d`. -/
noncomputable def massMatrix (L : (Fin n → ℝ) → (Fin n → ℝ) → ℝ) (q v : Fin n → ℝ) : Matrix (Fin n) (Fin n) ℝ :=
  Matrix.of fun i j => pd (fun v => pd (fun v => L q v) v i) v j

/-- `_term1`, and `lag1` of `lagrange`, symbolic.py 176: along the motion. -/
noncomputable def term1 (L : (Fin n → ℝ) → (Fin n → ℝ) → ℝ) (q v : ℝ → Fin n → ℝ) (t : ℝ) : Fin n → ℝ :=
  fun i => deriv (fun s => pd (fun w => L (q s) w) (v s) i) t

/-- `_term2`, and `lag2` of `lagrange`, symbolic.py 177. -/
noncomputable def term2 (L : (Fin n → ℝ) → (Fin n → ℝ) → ℝ) (q v : ℝ → Fin n → ℝ) (t : ℝ) : Fin n → ℝ :=
  fun i => pd (fun w => L w (v t)) (q t) i

/-- `get_lagr_eqs`, symbolic.py 182-214: `T` and `U` are the kinetic and potential energies. -/
noncomputable def lagrEqs (T : (Fin n → ℝ) → (Fin n → ℝ) → ℝ) (U : (Fin n → ℝ) → ℝ) (q v : ℝ → Fin n → ℝ) (t : ℝ) :
    Fin n → ℝ :=
  let L := fun q v => T q v - U q
  fun i => term1 L q v t i - term2 L q v t i

/-- `C_matrix`, symbolic.py 786, 788 and 791-805. -/
noncomputable def cMatrix (L : (Fin n → ℝ) → (Fin n → ℝ) → ℝ) (q v : Fin n → ℝ) : Matrix (Fin n) (Fin n) ℝ :=
  cFromM (fun p => massMatrix L p v) q v

/-- `G_matrix`, symbolic.py 787, 789 and 807-821; `a` are the accelerations. -/
noncomputable def gMatrix (L : (Fin n → ℝ) → (Fin n → ℝ) → ℝ) (q v : ℝ → Fin n → ℝ) (a : Fin n → ℝ) (t : ℝ) : Fin n → ℝ :=
  term1 L q v t - term2 L q v t - massMatrix L (q t) (v t) *ᵥ a - cMatrix L (q t) (v t) *ᵥ v t

end Chords.Coriolis
