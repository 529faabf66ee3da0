import Verif.Lemmas.Curves
import Mathlib.Analysis.Calculus.Deriv.Prod
import Mathlib.Tactic.IntervalCases

namespace Chords
open Spec Finset
variable {V : Type*} [NormedAddCommGroup V] [NormedSpace ℝ V]

/-- Taylor coefficients of the hsj curve. -/
noncomputable def hsjList (x : V × V) (f fn fc : V) (h : ℝ) : ℕ → V
  | 0 => x.1
  | 1 => x.2
  | 2 => f
  | 3 => (1 / 6 / h) • (-(21 : ℝ) • f + (25 : ℝ) • fc - (4 : ℝ) • fn)
  | 4 => (1 / 3 / h ^ 2) • ((15 : ℝ) • f - (25 : ℝ) • fc + (10 : ℝ) • fn)
  | _ => 0

noncomputable def hsjCurve (x : V × V) (f fn fc : V) (h : ℝ) (k : ℕ) (τ : ℝ) : V :=
  taylorSum (hsjList x f fn fc h) (5 - k) k τ

theorem hsjCurve_motion (x : V × V) (f fn fc : V) (h : ℝ) : Motion (hsjCurve x f fn fc h) := by
  intro k τ
  have := hasDerivAt_taylorSum (hsjList x f fn fc h) (5 - k) k τ
  exact this

theorem hsjCurve_parabolic (x : V × V) (f fn fc : V) (h : ℝ) (hh : h ≠ 0) :
    ParabolicMotion 2 (seq2 x) f fc fn (2 * h / 5) h (hsjCurve x f fn fc h) where
  motion := hsjCurve_motion x f fn fc h
  start := by
    intro p hp
    interval_cases p <;> simp [hsjCurve, taylorSum, sum_range_succ, hsjList]
  top_parabola := by
    refine ⟨(1 / 6 / h) • (-(21 : ℝ) • f + (25 : ℝ) • fc - (4 : ℝ) • fn),
      (1 / 2 : ℝ) • ((1 / 3 / h ^ 2) • ((15 : ℝ) • f - (25 : ℝ) • fc + (10 : ℝ) • fn)), ?_⟩
    intro τ
    simp [hsjCurve, taylorSum, sum_range_succ, hsjList, Nat.factorial]
    module
  top_mid := by
    simp [hsjCurve, taylorSum, sum_range_succ, hsjList, Nat.factorial]
    match_scalars <;> field_simp <;> ring
  top_end := by
    simp [hsjCurve, taylorSum, sum_range_succ, hsjList, Nat.factorial]
    match_scalars <;> field_simp <;> ring

theorem hsjInterp_eq (x xn xd xdn xdc : V × V) (τ h : ℝ) :
    hsjInterp x xn xd xdn τ h xdc =
      (hsjCurve x xd.2 xdn.2 xdc.2 h 0 τ, hsjCurve x xd.2 xdn.2 xdc.2 h 1 τ) := by
  ext <;> simp [hsjInterp, hsjCurve, taylorSum, sum_range_succ, hsjList, Nat.factorial] <;>
    match_scalars <;> ring

theorem hsjDotInterp_eq (x xn xd xdn xdc : V × V) (τ h : ℝ) :
    hsjDotInterp x xn xd xdn τ h xdc =
      (hsjCurve x xd.2 xdn.2 xdc.2 h 1 τ, hsjCurve x xd.2 xdn.2 xdc.2 h 2 τ) := by
  ext <;> simp [hsjDotInterp, hsjCurve, taylorSum, sum_range_succ, hsjList, Nat.factorial] <;>
    match_scalars <;> ring

theorem hsjDotDotInterp_eq (x xn xd xdn xdc : V × V) (τ h : ℝ) :
    hsjDotDotInterp x xn xd xdn τ h xdc =
      (hsjCurve x xd.2 xdn.2 xdc.2 h 2 τ, hsjCurve x xd.2 xdn.2 xdc.2 h 3 τ) := by
  ext <;> simp [hsjDotDotInterp, hsjCurve, taylorSum, sum_range_succ, hsjList, Nat.factorial] <;>
    match_scalars <;> ring

theorem hsjCurve_end (x : V × V) (f fn fc : V) (h : ℝ) (hh : h ≠ 0) :
    (hsjCurve x f fn fc h 0 h, hsjCurve x f fn fc h 1 h) =
      (x.1 + h • x.2 + (h ^ 2 / 72) • ((9 : ℝ) • f + (25 : ℝ) • fc + (2 : ℝ) • fn),
        x.2 + (h / 36) • ((3 : ℝ) • f + (25 : ℝ) • fc + (8 : ℝ) • fn)) := by
  ext <;> simp [hsjCurve, taylorSum, sum_range_succ, hsjList, Nat.factorial] <;>
    match_scalars <;> field_simp <;> ring

/-- If the curve reaches `xn`, both interior formulas give the curve at `2h/5`. -/
theorem hsjCurve_mid (x xn : V × V) (f fn fc : V) (h : ℝ) (hh : h ≠ 0)
    (he : (hsjCurve x f fn fc h 0 h, hsjCurve x f fn fc h 1 h) = xn) :
    hsjXc x xn f fn h = (hsjCurve x f fn fc h 0 (2 * h / 5), hsjCurve x f fn fc h 1 (2 * h / 5)) ∧
    hsjHalfX x xn f fn h =
      (hsjCurve x f fn fc h 0 (2 * h / 5), hsjCurve x f fn fc h 1 (2 * h / 5)) := by
  rw [hsjCurve_end _ _ _ _ _ hh] at he
  subst he
  constructor <;> ext <;>
    simp [hsjXc, hsjHalfX, hsjCurve, taylorSum, sum_range_succ, hsjList, Nat.factorial] <;>
    match_scalars <;> field_simp <;> ring

end Chords
