import Mathlib.Data.Real.Basic

/-! # Time scaling, chords/pseudospectral.py 400-521 -/

namespace Chords.TimeScale

/-- `tau_to_t_points`, pseudospectral.py 400-428, on one number (arrays are elementwise; the container
type conversions at the end do not change numbers). -/
noncomputable def tauToT (τ t0 tf : ℝ) : ℝ := t0 + (tf - t0) * (τ + 1) / 2

/-- `t_to_tau_points`, pseudospectral.py 431-459, on one number. For `tf = t0` numpy divides by zero
(inf/nan); Lean's division gives 0, so theorems assume `tf ≠ t0`. -/
noncomputable def tToTau (t t0 tf : ℝ) : ℝ := -1 + 2 * (t - t0) / (tf - t0)

/-- `tau_to_t_function`, pseudospectral.py 462-521: function of tau turned into a function of t. -/
noncomputable def tauToTFun {A : Type*} (f : ℝ → A) (t0 tf : ℝ) : ℝ → A :=
  fun t => f (2 * (t - t0) / (tf - t0) - 1)

end Chords.TimeScale
