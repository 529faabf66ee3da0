import Mathlib.MeasureTheory.Integral.IntervalIntegral.Basic

/-! # Specification of composite quadrature

Independent of the model. -/

namespace Chords.Spec

/-- `f` is, on each of the `N` intervals of length `h` starting at 0, a polynomial of degree at most 3. -/
def PiecewiseCubic (N : ℕ) (h : ℝ) (f : ℝ → ℝ) : Prop :=
  ∀ i < N, ∃ a b c d : ℝ, ∀ t ∈ Set.uIcc (i * h) ((i + 1 : ℕ) * h), f t = a + b * t + c * t ^ 2 + d * t ^ 3

/-- Same with degree at most 2. -/
def PiecewiseQuadratic (N : ℕ) (h : ℝ) (f : ℝ → ℝ) : Prop :=
  ∀ i < N, ∃ a b c : ℝ, ∀ t ∈ Set.uIcc (i * h) ((i + 1 : ℕ) * h), f t = a + b * t + c * t ^ 2

/-- Same with degree at most 1. -/
def PiecewiseLinear (N : ℕ) (h : ℝ) (f : ℝ → ℝ) : Prop :=
  ∀ i < N, ∃ a b : ℝ, ∀ t ∈ Set.uIcc (i * h) ((i + 1 : ℕ) * h), f t = a + b * t

end Chords.Spec
