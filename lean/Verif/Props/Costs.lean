import Mathlib.Analysis.SpecialFunctions.Integrals.Basic
import Mathlib.Tactic.FieldSimp
import Mathlib.Tactic.Ring
import Mathlib.Tactic.NormNum
import Mathlib.Tactic.Linarith
import Verif.Model.Costs
import Verif.Spec.Quadrature

/-! # Properties C17, C18, C19: running costs of equispaced problems -/

namespace Chords.Costs
open Finset Chords.Spec intervalIntegral

variable {m : ℕ}

/-! ## Helper lemmas -/

theorem ends_sum (a : ℕ → ℝ) {N : ℕ} (hN : 0 < N) :
    (∑ i ∈ Ico 0 (N + 1), a i) + ∑ i ∈ Ico 1 N, a i = ∑ i ∈ range N, (a i + a (i + 1)) := by
  induction N with
  | zero => omega
  | succ n ih =>
    rcases Nat.eq_zero_or_pos n with rfl | hn
    · simp [Finset.sum_Ico_eq_sum_range, Finset.sum_range_succ]
    · have := ih hn
      rw [Finset.sum_range_succ, ← this, Finset.sum_Ico_succ_top (by omega : 0 ≤ n + 1),
        Finset.sum_Ico_succ_top (by omega : 1 ≤ n)]
      ring

theorem shift_sum (a : ℕ → ℝ) (N : ℕ) : ∑ i ∈ Ico 1 (N + 1), a i = ∑ i ∈ range N, a (i + 1) := by
  rw [Finset.sum_Ico_eq_sum_range]
  exact Finset.sum_congr (by simp) (fun i _ => by rw [add_comm])

theorem cubic_integral (a b c d s e : ℝ) :
    (∫ t in s..e, (a + b * t + c * t ^ 2 + d * t ^ 3))
      = a * (e - s) + b * ((e ^ 2 - s ^ 2) / 2) + c * ((e ^ 3 - s ^ 3) / 3) + d * ((e ^ 4 - s ^ 4) / 4) := by
  have i1 : IntervalIntegrable (fun _ : ℝ => a) MeasureTheory.volume s e := intervalIntegrable_const
  have i2 : IntervalIntegrable (fun t : ℝ => b * t) MeasureTheory.volume s e :=
    (Continuous.mul continuous_const continuous_id).intervalIntegrable _ _
  have i3 : IntervalIntegrable (fun t : ℝ => c * t ^ 2) MeasureTheory.volume s e :=
    (Continuous.mul continuous_const (continuous_pow 2)).intervalIntegrable _ _
  have i4 : IntervalIntegrable (fun t : ℝ => d * t ^ 3) MeasureTheory.volume s e :=
    (Continuous.mul continuous_const (continuous_pow 3)).intervalIntegrable _ _
  rw [integral_add ((i1.add i2).add i3) i4, integral_add (i1.add i2) i3, integral_add i1 i2,
    integral_const_mul, integral_const_mul, integral_const_mul, integral_const, integral_pow, integral_pow,
    integral_id]
  norm_num
  ring

/-- Integral of a piecewise cubic as the sum over the intervals. -/
theorem piecewise_integral {N : ℕ} {h : ℝ} {f : ℝ → ℝ} (hf : PiecewiseCubic N h f) :
    (∫ t in (0 : ℝ)..(N * h), f t) = ∑ i ∈ range N, ∫ t in (i * h)..((i + 1 : ℕ) * h), f t := by
  have hint : ∀ k < N, IntervalIntegrable f MeasureTheory.volume ((k : ℕ) * h) (((k + 1 : ℕ) : ℝ) * h) := by
    intro k hk
    obtain ⟨a, b, c, d, he⟩ := hf k hk
    have hc : Continuous fun t : ℝ => a + b * t + c * t ^ 2 + d * t ^ 3 := by fun_prop
    refine (hc.intervalIntegrable (k * h) ((k + 1 : ℕ) * h)).congr ?_
    intro t ht
    exact (he t (Set.uIoc_subset_uIcc ht)).symm
  have := sum_integral_adjacent_intervals (μ := MeasureTheory.volume) (f := f)
    (a := fun k : ℕ => (k : ℝ) * h) (n := N) hint
  simp only [Nat.cast_zero, zero_mul] at this
  exact this.symm

/-- Simpson's rule on one interval. -/
theorem simpson_one {h : ℝ} {f : ℝ → ℝ} {i : ℕ} (hf : ∃ a b c d : ℝ, ∀ t ∈ Set.uIcc (i * h) ((i + 1 : ℕ) * h),
      f t = a + b * t + c * t ^ 2 + d * t ^ 3) :
    (∫ t in (i * h)..((i + 1 : ℕ) * h), f t)
      = h * (f (i * h) + 4 * f ((i + 1 / 2) * h) + f ((i + 1 : ℕ) * h)) / 6 := by
  obtain ⟨a, b, c, d, he⟩ := hf
  rw [integral_congr (g := fun t => a + b * t + c * t ^ 2 + d * t ^ 3) (fun t ht => he t ht),
    cubic_integral, he _ Set.left_mem_uIcc, he _ Set.right_mem_uIcc, he ((i + 1 / 2) * h) ?_]
  · push_cast; ring
  · rcases le_total 0 h with hh | hh
    · rw [Set.uIcc_of_le (by push_cast; nlinarith)]
      constructor <;> push_cast <;> nlinarith
    · rw [Set.uIcc_of_ge (by push_cast; nlinarith)]
      constructor <;> push_cast <;> nlinarith

/-- Radau's rule with nodes 0, 2/5, 1 on one interval. -/
theorem radau_one {h : ℝ} {f : ℝ → ℝ} {i : ℕ} (hf : ∃ a b c : ℝ, ∀ t ∈ Set.uIcc (i * h) ((i + 1 : ℕ) * h),
      f t = a + b * t + c * t ^ 2) :
    (∫ t in (i * h)..((i + 1 : ℕ) * h), f t)
      = h * (3 * f (i * h) + 25 * f ((i + 2 / 5) * h) + 8 * f ((i + 1 : ℕ) * h)) / 36 := by
  obtain ⟨a, b, c, he⟩ := hf
  rw [integral_congr (g := fun t => a + b * t + c * t ^ 2 + 0 * t ^ 3) (fun t ht => by simp [he t ht]),
    cubic_integral, he _ Set.left_mem_uIcc, he _ Set.right_mem_uIcc, he ((i + 2 / 5) * h) ?_]
  · push_cast; ring
  · rcases le_total 0 h with hh | hh
    · rw [Set.uIcc_of_le (by push_cast; nlinarith)]
      constructor <;> push_cast <;> nlinarith
    · rw [Set.uIcc_of_ge (by push_cast; nlinarith)]
      constructor <;> push_cast <;> nlinarith

/-- Trapezoidal rule on one interval. -/
theorem trapezoid_one {h : ℝ} {f : ℝ → ℝ} {i : ℕ} (hf : ∃ a b : ℝ, ∀ t ∈ Set.uIcc (i * h) ((i + 1 : ℕ) * h),
      f t = a + b * t) :
    (∫ t in (i * h)..((i + 1 : ℕ) * h), f t) = h * (f (i * h) + f ((i + 1 : ℕ) * h)) / 2 := by
  obtain ⟨a, b, he⟩ := hf
  rw [integral_congr (g := fun t => a + b * t + 0 * t ^ 2 + 0 * t ^ 3) (fun t ht => by simp [he t ht]),
    cubic_integral, he _ Set.left_mem_uIcc, he _ Set.right_mem_uIcc]
  push_cast; ring

theorem quadratic_cubic {N : ℕ} {h : ℝ} {f : ℝ → ℝ} (hf : PiecewiseQuadratic N h f) :
    PiecewiseCubic N h f := fun i hi => by
  obtain ⟨a, b, c, he⟩ := hf i hi
  exact ⟨a, b, c, 0, fun t ht => by simp [he t ht]⟩

theorem linear_cubic {N : ℕ} {h : ℝ} {f : ℝ → ℝ} (hf : PiecewiseLinear N h f) :
    PiecewiseCubic N h f := fun i hi => by
  obtain ⟨a, b, he⟩ := hf i hi
  exact ⟨a, b, 0, 0, fun t ht => by simp [he t ht]⟩

/-- Integral of the square of a piecewise quadratic as the sum over the intervals. -/
theorem quadratic_sq_integral {N : ℕ} {h : ℝ} {f : ℝ → ℝ} (hf : PiecewiseQuadratic N h f) :
    (∫ t in (0 : ℝ)..(N * h), f t ^ 2) = ∑ i ∈ range N, ∫ t in (i * h)..((i + 1 : ℕ) * h), f t ^ 2 := by
  have hint : ∀ k < N, IntervalIntegrable (fun t => f t ^ 2) MeasureTheory.volume ((k : ℕ) * h)
      (((k + 1 : ℕ) : ℝ) * h) := by
    intro k hk
    obtain ⟨a, b, c, he⟩ := hf k hk
    have hc : Continuous fun t : ℝ => (a + b * t + c * t ^ 2) ^ 2 := by fun_prop
    refine (hc.intervalIntegrable (k * h) ((k + 1 : ℕ) * h)).congr ?_
    intro t ht
    simp [he t (Set.uIoc_subset_uIcc ht)]
  have := sum_integral_adjacent_intervals (μ := MeasureTheory.volume) (f := fun t => f t ^ 2)
    (a := fun k : ℕ => (k : ℝ) * h) (n := N) hint
  simp only [Nat.cast_zero, zero_mul] at this
  exact this.symm

/-- The value that is integrated: the entry, or its square. -/
def entry (squared : Bool) (x : ℝ) : ℝ := if squared then x ^ 2 else x

theorem if_sqArr (squared : Bool) (arr : ℕ → Fin m → ℝ) :
    (if squared then sqArr arr else arr) = fun i j => entry squared (arr i j) := by
  cases squared <;> rfl

/-! ## C18 -/

/-- C18, Simpson.  If the integrand (the array, or its square when asked) is sampled at the grid points
and at the interval midpoints from functions `f j` that are piecewise cubic on the grid, the cost of
`quad_cost` with midpoints is the sum over the columns of the integrals over the horizon. -/
theorem C18_quad_cost_simpson (T : ℝ) (N : ℕ) (hN : 0 < N) (arr arr_c : ℕ → Fin m → ℝ) (squared : Bool)
    (f : Fin m → ℝ → ℝ) (hf : ∀ j, PiecewiseCubic N (T / N) (f j))
    (h0 : ∀ i ≤ N, ∀ j, entry squared (arr i j) = f j (i * (T / N)))
    (hc : ∀ i < N, ∀ j, entry squared (arr_c i j) = f j ((i + 1 / 2) * (T / N))) :
    quadCost T N (N + 1) arr (some (N, arr_c)) squared = ∑ j, ∫ t in (0 : ℝ)..T, f j t := by
  have hN' : (N : ℝ) ≠ 0 := by exact_mod_cast hN.ne'
  simp only [quadCost, sum2, Finset.mul_sum, if_sqArr]
  refine Finset.sum_congr rfl fun j _ => ?_
  have hT : T = N * (T / N) := by field_simp
  conv_rhs => rw [hT]
  rw [piecewise_integral (hf j), Finset.sum_congr rfl fun i hi => simpson_one (hf j i (mem_range.mp hi))]
  simp only [sum1, Nat.add_sub_cancel]
  rw [add_assoc, ends_sum (fun i => entry squared (arr i j)) hN, ← Finset.range_eq_Ico]
  rw [Finset.mul_sum, ← Finset.sum_add_distrib, Finset.sum_div, Finset.mul_sum]
  refine Finset.sum_congr rfl fun i hi => ?_
  have hi := mem_range.mp hi
  rw [h0 i (by omega) j, h0 (i + 1) (by omega) j, hc i hi j]
  field_simp
  ring

/-- C18, controls without midpoints: for the schemes without "parab" in the name, `u_sq_cost` is the
integral of any function that is linear between the grid points and equals `u²` there. -/
theorem C18_u_sq_cost_trapezoid (scheme : String) (hs : pyIn "parab" scheme = false) (T : ℝ) (N : ℕ)
    (hN : 0 < N) (a : Controls m) (f : Fin m → ℝ → ℝ) (hf : ∀ j, PiecewiseLinear N (T / N) (f j))
    (h0 : ∀ i ≤ N, ∀ j, a.u i j ^ 2 = f j (i * (T / N))) :
    uSqCost scheme T N a = ∑ j, ∫ t in (0 : ℝ)..T, f j t := by
  have hN' : (N : ℝ) ≠ 0 := by exact_mod_cast hN.ne'
  simp only [uSqCost, hs, sum2, Finset.mul_sum, Bool.false_eq_true, if_false]
  refine Finset.sum_congr rfl fun j _ => ?_
  have hT : T = N * (T / N) := by field_simp
  conv_rhs => rw [hT]
  rw [piecewise_integral (linear_cubic (hf j)),
    Finset.sum_congr rfl fun i hi => trapezoid_one (hf j i (mem_range.mp hi))]
  simp only [sum1, Nat.add_sub_cancel]
  rw [ends_sum (fun i => sqArr a.u i j) hN, Finset.sum_div, Finset.mul_sum]
  refine Finset.sum_congr rfl fun i hi => ?_
  have hi := mem_range.mp hi
  simp only [sqArr]
  rw [h0 i (by omega) j, h0 (i + 1) (by omega) j]
  field_simp

/-- C18, controls with midpoints: for the schemes with "parab" and without "j" (and for "hsj_parab_mod",
whose midpoints are the stored `u_j`), `u_sq_cost` is the integral of any piecewise cubic that equals
`u²` at grid points and midpoints. -/
theorem C18_u_sq_cost_simpson (scheme : String) (hs : pyIn "parab" scheme = true)
    (hj : pyIn "j" scheme = false ∨ scheme = "hsj_parab_mod") (T : ℝ) (N : ℕ)
    (hN : 0 < N) (a : Controls m) (f : Fin m → ℝ → ℝ) (hf : ∀ j, PiecewiseCubic N (T / N) (f j))
    (h0 : ∀ i ≤ N, ∀ j, a.u i j ^ 2 = f j (i * (T / N)))
    (hc : ∀ i < N, ∀ j, (if scheme = "hsj_parab_mod" then a.u_j else a.u_c) i j ^ 2
      = f j ((i + 1 / 2) * (T / N))) :
    uSqCost scheme T N a = ∑ j, ∫ t in (0 : ℝ)..T, f j t := by
  have := C18_quad_cost_simpson T N hN a.u (if scheme = "hsj_parab_mod" then a.u_j else a.u_c) true f hf
    (by simpa [entry] using h0) (by simpa [entry] using hc)
  rw [← this]
  have hb : (pyIn "j" scheme && decide (scheme ≠ "hsj_parab_mod")) = false := by
    rcases hj with h | h <;> simp [h]
  simp only [uSqCost, hs, if_true, hb, Bool.false_eq_true, if_false, quadCost]

/-- C18, `quad_cost` without midpoints: what holds is that the cost is *twice* the integral of the
piecewise linear function through the samples. -/
theorem C18_quad_cost_no_midpoints_partial (T : ℝ) (N : ℕ) (hN : 0 < N) (arr : ℕ → Fin m → ℝ)
    (squared : Bool) (f : Fin m → ℝ → ℝ) (hf : ∀ j, PiecewiseLinear N (T / N) (f j))
    (h0 : ∀ i ≤ N, ∀ j, entry squared (arr i j) = f j (i * (T / N))) :
    quadCost T N (N + 1) arr none squared = 2 * ∑ j, ∫ t in (0 : ℝ)..T, f j t := by
  have hN' : (N : ℝ) ≠ 0 := by exact_mod_cast hN.ne'
  simp only [quadCost, sum2, Finset.mul_sum, if_sqArr]
  refine Finset.sum_congr rfl fun j _ => ?_
  have hT : T = N * (T / N) := by field_simp
  conv_rhs => rw [hT]
  rw [piecewise_integral (linear_cubic (hf j)),
    Finset.sum_congr rfl fun i hi => trapezoid_one (hf j i (mem_range.mp hi))]
  simp only [sum1, Nat.add_sub_cancel]
  rw [ends_sum (fun i => entry squared (arr i j)) hN, Finset.sum_div, Finset.mul_sum, Finset.mul_sum]
  refine Finset.sum_congr rfl fun i hi => ?_
  have hi := mem_range.mp hi
  rw [h0 i (by omega) j, h0 (i + 1) (by omega) j]
  field_simp

/-- C18 is false for `quad_cost` without midpoints: for every grid and every non-zero horizon the cost of
the constant 1 is not the horizon. -/
theorem C18_quad_cost_refuted (T : ℝ) (hT : T ≠ 0) (N : ℕ) (hN : 0 < N) :
    quadCost (m := 1) T N (N + 1) (fun _ _ => 1) none false ≠ T := by
  rw [C18_quad_cost_no_midpoints_partial T N hN (fun _ _ => 1) false (fun _ _ => 1)
    (fun _ i _ => ⟨1, 0, by simp⟩) (by simp [entry])]
  simp
  intro h; apply hT; linarith

/-- Constants: with midpoints `quad_cost` of the constant `c` in every column is `c` times the horizon
times the number of columns. -/
theorem C18_constant (T : ℝ) (N : ℕ) (hN : 0 < N) (c : ℝ) :
    quadCost (m := m) T N (N + 1) (fun _ _ => c) (some (N, fun _ _ => c)) false = m * (c * T) := by
  rw [C18_quad_cost_simpson T N hN (fun _ _ => c) (fun _ _ => c) false (fun _ _ => c)
    (fun _ i _ => ⟨c, 0, 0, 0, by simp⟩) (by simp [entry]) (by simp [entry])]
  simp [mul_comm]

/-- Non-vacuity: a cubic, sampled, on three intervals; and the scheme names of the hypotheses. -/
example : PiecewiseCubic 3 (2 / 3) (fun t => 1 + t ^ 3) ∧ pyIn "parab" "hs_mod" = false ∧
    pyIn "parab" "hs_mod_parab" = true ∧ pyIn "j" "hs_mod_parab" = false :=
  ⟨fun _ _ => ⟨1, 0, 0, 1, fun t _ => by ring⟩, by decide, by decide, by decide⟩

example : PiecewiseLinear 3 (2 / 3) (fun t => 1 + 4 * t) := fun _ _ => ⟨1, 4, fun t _ => by ring⟩

/-! ## C17 -/

/-- C17.  On interval `i` the entry is the integral over `[0,h]` of the square of any quadratic polynomial
that takes the start, midpoint and end values. -/
theorem C17_exact (x x_c : ℕ → Fin m → ℝ) (h : ℝ) (i : ℕ) (j : Fin m) (a b c : ℝ)
    (hs : x i j = a) (hm : x_c i j = a + b * (h / 2) + c * (h / 2) ^ 2) (he : x (i + 1) j = a + b * h + c * h ^ 2) :
    exactSq x x_c h i j = ∫ t in (0 : ℝ)..h, (a + b * t + c * t ^ 2) ^ 2 := by
  have hP : (∫ t in (0 : ℝ)..h, (a + b * t + c * t ^ 2) ^ 2)
      = a ^ 2 * h + a * b * h ^ 2 + (b ^ 2 + 2 * a * c) * (h ^ 3 / 3) + b * c * (h ^ 4 / 2) + c ^ 2 * (h ^ 5 / 5) := by
    have hd : ∀ t ∈ Set.uIcc (0 : ℝ) h, HasDerivAt
        (fun t : ℝ => a ^ 2 * t + a * b * t ^ 2 + (b ^ 2 + 2 * a * c) * (t ^ 3 / 3) + b * c * (t ^ 4 / 2) + c ^ 2 * (t ^ 5 / 5))
        ((a + b * t + c * t ^ 2) ^ 2) t := by
      intro t _
      have := ((((hasDerivAt_id t).const_mul (a ^ 2)).add ((hasDerivAt_pow 2 t).const_mul (a * b))).add
        (((hasDerivAt_pow 3 t).div_const 3).const_mul (b ^ 2 + 2 * a * c))).add
        (((hasDerivAt_pow 4 t).div_const 2).const_mul (b * c)) |>.add
        (((hasDerivAt_pow 5 t).div_const 5).const_mul (c ^ 2))
      refine this.congr_deriv ?_
      norm_num
      ring
    rw [integral_eq_sub_of_hasDerivAt hd
      ((by fun_prop : Continuous fun t : ℝ => (a + b * t + c * t ^ 2) ^ 2).intervalIntegrable _ _)]
    ring
  rw [hP]
  simp only [exactSq, hs, hm, he]
  ring

/-- C17, sign: for a non-negative step every entry is non-negative, and for a positive step it is zero
exactly when the start, midpoint and end values are zero. -/
theorem C17_sign (x x_c : ℕ → Fin m → ℝ) (h : ℝ) (i : ℕ) (j : Fin m) :
    (0 ≤ h → 0 ≤ exactSq x x_c h i j) ∧
    (0 < h → (exactSq x x_c h i j = 0 ↔ x i j = 0 ∧ x_c i j = 0 ∧ x (i + 1) j = 0)) := by
  constructor
  · intro hh
    simp only [exactSq]
    have : 0 ≤ 2 * x i j ^ 2 + 2 * x i j * x_c i j - x i j * x (i + 1) j + 8 * x_c i j ^ 2
        + 2 * x_c i j * x (i + 1) j + 2 * x (i + 1) j ^ 2 := by
      nlinarith [sq_nonneg (x i j - x (i + 1) j), sq_nonneg (x i j + x (i + 1) j + 2 * x_c i j), sq_nonneg (x_c i j), sq_nonneg (x i j), sq_nonneg (x (i+1) j)]
    positivity
  · intro hh
    simp only [exactSq]
    constructor
    · intro h0
      have h1 : 2 * x i j ^ 2 + 2 * x i j * x_c i j - x i j * x (i + 1) j + 8 * x_c i j ^ 2
        + 2 * x_c i j * x (i + 1) j + 2 * x (i + 1) j ^ 2 = 0 := by
        have : h * (2 * x i j ^ 2 + 2 * x i j * x_c i j - x i j * x (i + 1) j + 8 * x_c i j ^ 2
          + 2 * x_c i j * x (i + 1) j + 2 * x (i + 1) j ^ 2) = 0 := by linarith
        rcases mul_eq_zero.mp this with h' | h'
        · exact absurd h' hh.ne'
        · exact h'
      generalize x i j = a at h1 ⊢
      generalize x_c i j = b at h1 ⊢
      generalize x (i + 1) j = c at h1 ⊢
      have ha : a ^ 2 ≤ 0 := by nlinarith [sq_nonneg (a - 2 * c + 2 * b), sq_nonneg (a + 8 * b + c), sq_nonneg (a-c), sq_nonneg (a+c), sq_nonneg (a + c + 2 * b), sq_nonneg (a + c + 4 * b), sq_nonneg (3 * a - 5 * c)]
      have hc : c ^ 2 ≤ 0 := by nlinarith [sq_nonneg (c - 2 * a + 2 * b), sq_nonneg (a + 8 * b + c), sq_nonneg (a-c), sq_nonneg (a+c), sq_nonneg (a + c + 2 * b), sq_nonneg (a + c + 4 * b), sq_nonneg (3 * c - 5 * a)]
      have ha0 : a = 0 := by nlinarith [sq_nonneg a]
      have hc0 : c = 0 := by nlinarith [sq_nonneg c]
      subst ha0 hc0
      refine ⟨rfl, ?_, rfl⟩
      nlinarith [sq_nonneg b]
    · rintro ⟨h1, h2, h3⟩
      simp [h1, h2, h3]

/-- C17 for the cost: `sq_cost` with midpoints is the integral over the horizon of the sum of squares of
the columns, when each column is a function that is quadratic on every interval. -/
theorem C17_sq_cost (T : ℝ) (N : ℕ) (hN : 0 < N) (arr arr_c dflt : ℕ → Fin m → ℝ) (f : Fin m → ℝ → ℝ)
    (hf : ∀ j, PiecewiseQuadratic N (T / N) (f j))
    (h0 : ∀ i ≤ N, ∀ j, arr i j = f j (i * (T / N)))
    (hc : ∀ i < N, ∀ j, arr_c i j = f j ((i + 1 / 2) * (T / N))) :
    sqCost T N (N + 1) arr (some (N, arr_c)) dflt
      = some (∑ j, ∫ t in (0 : ℝ)..T, f j t ^ 2) := by
  have hN' : (N : ℝ) ≠ 0 := by exact_mod_cast hN.ne'
  have hT : T = N * (T / N) := by field_simp
  simp only [sqCost, Nat.add_sub_cancel, broadcastOk, beq_self_eq_true, Bool.true_or, if_true, sum2,
    sum1, ← Finset.range_eq_Ico, Option.some.injEq]
  refine Finset.sum_congr rfl fun j _ => ?_
  conv_rhs => rw [hT]
  rw [quadratic_sq_integral (hf j)]
  refine Finset.sum_congr rfl fun i hi => ?_
  have hi := mem_range.mp hi
  obtain ⟨a, b, c, he⟩ := hf j i hi
  set h := T / N
  rw [integral_congr (g := fun t => (a + b * t + c * t ^ 2) ^ 2) (fun t ht => by simp [he t ht])]
  have hsub : (∫ t in (i * h)..((i + 1 : ℕ) * h), (a + b * t + c * t ^ 2) ^ 2)
      = ∫ t in (0 : ℝ)..h, ((a + b * (i * h) + c * (i * h) ^ 2) + (b + 2 * c * (i * h)) * t + c * t ^ 2) ^ 2 := by
    have := integral_comp_add_right (a := 0) (b := h) (fun t : ℝ => (a + b * t + c * t ^ 2) ^ 2) (i * h)
    have e : (0 : ℝ) + i * h = i * h := by ring
    have e' : h + i * h = ((i + 1 : ℕ) : ℝ) * h := by push_cast; ring
    rw [e, e'] at this
    rw [← this]
    exact integral_congr fun t _ => by ring
  rw [hsub]
  have hmid : ((i : ℝ) + 1 / 2) * h ∈ Set.uIcc (i * h) ((i + 1 : ℕ) * h) := by
    rcases le_total 0 h with hh | hh
    · rw [Set.uIcc_of_le (by push_cast; nlinarith)]
      constructor <;> push_cast <;> nlinarith
    · rw [Set.uIcc_of_ge (by push_cast; nlinarith)]
      constructor <;> push_cast <;> nlinarith
  apply C17_exact
  · rw [h0 i (by omega) j, he _ Set.left_mem_uIcc]
  · rw [hc i hi j, he _ hmid]; ring
  · rw [h0 (i + 1) (by omega) j, he _ Set.right_mem_uIcc]; push_cast; ring

example : PiecewiseQuadratic 3 (2 / 3) (fun t => 1 + t ^ 2) := fun _ _ => ⟨1, 0, 1, fun t _ => by ring⟩

/-! ## C19 -/

/-- C19.  For the schemes with "parab" and "j" (except "hsj_parab_mod") `u_sq_cost` integrates exactly any
function that is quadratic on every interval and equals `u²` at `0`, `2h/5` and `h`. -/
theorem C19_cost (scheme : String) (hs : pyIn "parab" scheme = true) (hj : pyIn "j" scheme = true)
    (hne : scheme ≠ "hsj_parab_mod") (T : ℝ) (N : ℕ)
    (hN : 0 < N) (a : Controls m) (f : Fin m → ℝ → ℝ) (hf : ∀ j, PiecewiseQuadratic N (T / N) (f j))
    (h0 : ∀ i ≤ N, ∀ j, a.u i j ^ 2 = f j (i * (T / N)))
    (hc : ∀ i < N, ∀ j, a.u_c i j ^ 2 = f j ((i + 2 / 5) * (T / N))) :
    uSqCost scheme T N a = ∑ j, ∫ t in (0 : ℝ)..T, f j t := by
  have hN' : (N : ℝ) ≠ 0 := by exact_mod_cast hN.ne'
  simp only [uSqCost, hs, hj, hne, sum2, Finset.mul_sum, if_true, if_false, ne_eq, not_false_eq_true,
    decide_true, Bool.and_self]
  refine Finset.sum_congr rfl fun j _ => ?_
  have hT : T = N * (T / N) := by field_simp
  conv_rhs => rw [hT]
  rw [piecewise_integral (quadratic_cubic (hf j)),
    Finset.sum_congr rfl fun i hi => radau_one (hf j i (mem_range.mp hi))]
  simp only [sum1, Nat.add_sub_cancel]
  rw [shift_sum (fun i => sqArr a.u i j) N, ← Finset.range_eq_Ico, Finset.mul_sum, Finset.mul_sum,
    Finset.mul_sum, ← Finset.sum_add_distrib, ← Finset.sum_add_distrib, Finset.sum_div, Finset.mul_sum]
  refine Finset.sum_congr rfl fun i hi => ?_
  have hi := mem_range.mp hi
  simp only [sqArr]
  rw [h0 i (by omega) j, h0 (i + 1) (by omega) j, hc i hi j]
  field_simp
  ring

/-- The degree is best possible: a cubic is not integrated exactly. -/
theorem C19_degree_sharp : (3 * (0 : ℝ) ^ 3 + 25 * (2 / 5) ^ 3 + 8 * 1 ^ 3) / 36 ≠ ∫ t in (0 : ℝ)..1, t ^ 3 := by
  rw [integral_pow]; norm_num

/-- C19.  The constraint that `u_sq_cost` adds for "hsj_parab_mod" holds exactly when, on every interval
and in every control, one parabola takes the stored values at the start, at `2h/5`, at `h/2` and at
the end. -/
theorem C19_on_parabola (N : ℕ) (h : ℝ) (hh : h ≠ 0) (a : Controls m) :
    uSqConstraint "hsj_parab_mod" N a ↔
      ∀ i < N, ∀ j, ∃ c0 c1 c2 : ℝ,
        a.u i j = c0 ∧
        a.u_c i j = c0 + c1 * (2 * h / 5) + c2 * (2 * h / 5) ^ 2 ∧
        a.u_j i j = c0 + c1 * (h / 2) + c2 * (h / 2) ^ 2 ∧
        a.u (i + 1) j = c0 + c1 * h + c2 * h ^ 2 := by
  have hp : (pyIn "parab" "hsj_parab_mod" && ("hsj_parab_mod" == "hsj_parab_mod")) = true := by decide
  simp only [uSqConstraint, hp, if_true]
  refine forall_congr' fun i => imp_congr_right fun _ => forall_congr' fun j => ?_
  constructor
  · intro e
    refine ⟨a.u i j, (-3 * a.u i j + 4 * a.u_j i j - a.u (i + 1) j) / h,
      (2 * a.u i j - 4 * a.u_j i j + 2 * a.u (i + 1) j) / h ^ 2, rfl, ?_, ?_, ?_⟩
    · rw [e]; field_simp; ring
    · field_simp; ring
    · field_simp; ring
  · rintro ⟨c0, c1, c2, e0, e1, e2, e3⟩
    rw [e0, e1, e2, e3]; ring

/-- Other schemes get no extra constraint. -/
theorem C19_no_constraint (scheme : String) (hs : scheme ≠ "hsj_parab_mod") (N : ℕ) (a : Controls m) :
    uSqConstraint scheme N a := by
  simp [uSqConstraint, hs]

example : pyIn "parab" "hsj_parab" = true ∧ pyIn "j" "hsj_parab" = true ∧ "hsj_parab" ≠ "hsj_parab_mod" := by
  decide

/-! ## C68 -/

/-- C68 is false: without midpoints `sq_cost` raises for every problem with at least two columns and at
least one interval. -/
theorem C68_refuted (hm : 2 ≤ m) (T : ℝ) (N : ℕ) (hN : 0 < N) (arr dflt : ℕ → Fin m → ℝ) :
    sqCost T N (N + 1) arr none dflt = none := by
  have : broadcastOk (N, m) (N + 1, m - 1) = false := by
    simp [broadcastOk]; omega
  simp [sqCost, this]

/-- C68, the part that holds: with midpoints given, one row per interval, it returns a cost. -/
theorem C68_with_midpoints_partial (T : ℝ) (N : ℕ) (arr arr_c dflt : ℕ → Fin m → ℝ) :
    (sqCost T N (N + 1) arr (some (N, arr_c)) dflt).isSome := by
  simp [sqCost, broadcastOk]

end Chords.Costs
