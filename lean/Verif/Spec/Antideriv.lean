import Mathlib.MeasureTheory.Integral.IntervalIntegral.Basic

/-! # Repeated integrals -/

namespace Chords.Spec

/-- The `k`-fold integral of `f` from `a`: `k = 0` is `f`, and every step integrates from `a` once more. -/
noncomputable def iterInt (a : ℝ) : ℕ → (ℝ → ℝ) → ℝ → ℝ
  | 0, f => f
  | k + 1, f => fun x => ∫ t in a..x, iterInt a k f t

end Chords.Spec
