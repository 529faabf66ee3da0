import Verif.Spec.Curves
import Mathlib.Data.Real.Basic

/-!
# Specification of the piecewise interpolations

Independent of the model: what curve each scheme name promises on one step.
-/

namespace Chords.Spec

/-- How the highest derivative goes over one step: on the straight line from the first sample to the second, or on the
parabola that also takes a third value at the fraction `θ` of the step. -/
inductive Shape
  | line
  | parab (θ : ℝ)

/-- A motion of differential order `M` over a step `h` that starts in `x` and whose `M`-th derivative has the given shape
and takes the values `a`, (`ac`), `an`. -/
def StepMotion (s : Shape) (M : ℕ) (x : ℕ → ℝ) (a ac an h : ℝ) (c : ℕ → ℝ → ℝ) : Prop :=
  match s with
  | .line => LinearMotion M x a an h c
  | .parab θ => ParabolicMotion M x a ac an (θ * h) h c

/-- The shape and the differential order that a scheme name stands for. -/
inductive SchemeIs (order : Option ℕ) : String → Shape → ℕ → Prop
  | trapz : SchemeIs order "trapz" .line 1
  | trapz_mod : SchemeIs order "trapz_mod" .line 2
  | trapz_n (M : ℕ) : order = some M → SchemeIs order "trapz_n" .line M
  | hs : SchemeIs order "hs" (.parab (1 / 2)) 1
  | hs_parab : SchemeIs order "hs_parab" (.parab (1 / 2)) 1
  | hs_mod : SchemeIs order "hs_mod" (.parab (1 / 2)) 2
  | hs_mod_parab : SchemeIs order "hs_mod_parab" (.parab (1 / 2)) 2
  | hsn (M : ℕ) : order = some M → SchemeIs order "hsn" (.parab (1 / 2)) M
  | hsn_parab (M : ℕ) : order = some M → SchemeIs order "hsn_parab" (.parab (1 / 2)) M
  | hsj : SchemeIs order "hsj" (.parab (2 / 5)) 2
  | hsj_parab : SchemeIs order "hsj_parab" (.parab (2 / 5)) 2

/-- Entry number `i` of an array. -/
def coord {d : ℕ} (x : Fin d → ℝ) (i : ℕ) : ℝ := if h : i < d then x ⟨i, h⟩ else 0

end Chords.Spec
