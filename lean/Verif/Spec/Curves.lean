import Mathlib.Analysis.Calculus.Deriv.Basic

/-!
# Specification of interpolating curves

Independent of the model: a "motion" is a sequence of curves `c 0, c 1, ...`, each the time
derivative of the previous one.
-/

namespace Chords.Spec
variable {V : Type*} [NormedAddCommGroup V] [NormedSpace ℝ V]

/-- `c (k+1)` is the derivative of `c k` at every instant. -/
def Motion (c : ℕ → ℝ → V) : Prop := ∀ k τ, HasDerivAt (c k) (c (k + 1) τ) τ

/-- A motion of differential order `M` over a step `h` that starts in state `x` (position and the
derivatives below `M`) and whose `M`-th derivative is the straight line from `a` (at `0`)
to `an` (at `h`). -/
structure LinearMotion (M : ℕ) (x : ℕ → V) (a an : V) (h : ℝ) (c : ℕ → ℝ → V) : Prop where
  motion : Motion c
  start : ∀ p, p < M → c p 0 = x p
  top_line : ∃ b : V, ∀ τ, c M τ = a + τ • b
  top_end : c M h = an

/-- Same, but the `M`-th derivative is a parabola with values `a`, `ac`, `an` at `0`, `m`, `h`. -/
structure ParabolicMotion (M : ℕ) (x : ℕ → V) (a ac an : V) (m h : ℝ) (c : ℕ → ℝ → V) : Prop where
  motion : Motion c
  start : ∀ p, p < M → c p 0 = x p
  top_parabola : ∃ b d : V, ∀ τ, c M τ = a + τ • b + τ ^ 2 • d
  top_mid : c M m = ac
  top_end : c M h = an

end Chords.Spec
