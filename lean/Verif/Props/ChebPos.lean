import Verif.Props.Degrees
import Mathlib.Analysis.SpecialFunctions.Integrals.Basic
import Mathlib.Analysis.SpecialFunctions.Trigonometric.Chebyshev.RootsExtrema

/-! # The weights of the Chebyshev schemes are positive (for C184) -/

namespace Chords.Props
open Polynomial Finset Chords.Spec Chords.Points Chords.Bary Chords.Gauss

/-- The integral of a Chebyshev polynomial over `[-1, 1]`. -/
noncomputable def chebMean (k : ℕ) : ℝ := integ (-1) 1 (Chebyshev.T ℝ (k : ℤ))

theorem chebMean_zero : chebMean 0 = 2 := by
  simp [chebMean, integ_one]
  norm_num

theorem chebMean_one : chebMean 1 = 0 := by
  simp only [chebMean, integ, Nat.cast_one, Chebyshev.T_one, eval_X, integral_id]
  norm_num

theorem chebMean_add_two (n : ℕ) :
    chebMean (n + 2) = ((1 - (-1) ^ (n + 1)) / (n + 3) - (1 - (-1) ^ (n + 1)) / (n + 1)) / 2 := by
  obtain ⟨F, hF⟩ : ∃ F : ℝ[X], F = C (1 / (2 * ((n : ℝ) + 3))) * Chebyshev.T ℝ ((n : ℤ) + 3) - C (1 / (2 * ((n : ℝ) + 1))) * Chebyshev.T ℝ ((n : ℤ) + 1) :=
    ⟨_, rfl⟩
  have h1 : (n : ℝ) + 1 ≠ 0 := by positivity
  have h3 : (n : ℝ) + 3 ≠ 0 := by positivity
  have hd : derivative F = Chebyshev.T ℝ ((n : ℤ) + 2) := by
    have e := Chebyshev.two_mul_T_eq_U_sub_U ℝ (n : ℤ)
    rw [hF, derivative_sub, derivative_C_mul, derivative_C_mul, Chebyshev.T_derivative_eq_U, Chebyshev.T_derivative_eq_U,
      show (n : ℤ) + 3 - 1 = n + 2 by ring, show (n : ℤ) + 1 - 1 = n by ring]
    have c3 : C (1 / (2 * ((n : ℝ) + 3))) * ((((n : ℤ) + 3 : ℤ) : ℝ[X])) = C (1 / 2) := by
      have : ((((n : ℤ) + 3 : ℤ) : ℝ[X])) = C ((n : ℝ) + 3) := by
        simp
        exact (C_ofNat 3).symm
      rw [this, ← C_mul]
      congr 1
      field_simp
    have c1 : C (1 / (2 * ((n : ℝ) + 1))) * ((((n : ℤ) + 1 : ℤ) : ℝ[X])) = C (1 / 2) := by
      have : ((((n : ℤ) + 1 : ℤ) : ℝ[X])) = C ((n : ℝ) + 1) := by simp
      rw [this, ← C_mul]
      congr 1
      field_simp
    rw [← mul_assoc, ← mul_assoc, c3, c1, ← mul_sub, ← e, ← mul_assoc]
    have : C (1 / 2 : ℝ) * 2 = 1 := by
      rw [show (2 : ℝ[X]) = C 2 from (C_ofNat 2).symm, ← C_mul]
      norm_num
    rw [this, one_mul]
  have := integ_derivative (-1) 1 F
  rw [hd] at this
  rw [chebMean, show (((n + 2 : ℕ) : ℤ)) = (n : ℤ) + 2 by push_cast; ring, this, hF]
  simp only [eval_sub, eval_mul, eval_C, Chebyshev.T_eval_one, Chebyshev.T_eval_neg_one]
  have p1 : ((((n : ℤ) + 1).negOnePow : ℤ) : ℝ) = (-1) ^ (n + 1) := by
    rw [show (n : ℤ) + 1 = ((n + 1 : ℕ) : ℤ) by push_cast; ring, Int.coe_negOnePow_natCast]
    simp
  have p3 : ((((n : ℤ) + 3).negOnePow : ℤ) : ℝ) = (-1) ^ (n + 1) := by
    rw [show (n : ℤ) + 3 = ((n + 3 : ℕ) : ℤ) by push_cast; ring, Int.coe_negOnePow_natCast]
    simp [pow_add]
  rw [p1, p3]
  field_simp

/-- The integrals beyond the first add up, in absolute value, to less than one. -/
theorem chebMean_sum (N : ℕ) : ∑ k ∈ Ico 1 N, |chebMean k| < 1 := by
  have even : ∀ j : ℕ, |chebMean (2 * j + 2)| = 1 / (2 * j + 1) - 1 / (2 * j + 3) := by
    intro j
    have e : (-1 : ℝ) ^ (2 * j + 1) = -1 := by rw [pow_succ, pow_mul]; norm_num
    rw [chebMean_add_two, e]
    push_cast
    have h1 : (0 : ℝ) < 2 * j + 1 := by positivity
    have h3 : (0 : ℝ) < 2 * (j : ℝ) + 3 := by positivity
    have : ((1 - -1 : ℝ) / (2 * (j : ℝ) + 3) - (1 - -1) / (2 * j + 1)) / 2 = -(1 / (2 * (j : ℝ) + 1) - 1 / (2 * j + 3)) := by ring
    rw [this, abs_neg, abs_of_nonneg]
    rw [sub_nonneg]
    exact one_div_le_one_div_of_le h1 (by linarith)
  have odd : ∀ j : ℕ, |chebMean (2 * j + 1)| = 0 := by
    intro j
    cases j with
    | zero => simp [chebMean_one]
    | succ j =>
      have e : (-1 : ℝ) ^ (2 * j + 1 + 1) = 1 := by rw [show 2 * j + 1 + 1 = 2 * (j + 1) by ring, pow_mul]; norm_num
      rw [show 2 * (j + 1) + 1 = 2 * j + 1 + 2 by ring, chebMean_add_two, e]
      simp
  have tele : ∀ j : ℕ, ∑ k ∈ Ico 1 (2 * j + 1), |chebMean k| = 1 - 1 / (2 * j + 1) := by
    intro j
    induction j with
    | zero => simp
    | succ j ih =>
      rw [show 2 * (j + 1) + 1 = (2 * j + 1 + 1) + 1 by ring, sum_Ico_succ_top (by omega), sum_Ico_succ_top (by omega), ih, odd,
        show 2 * j + 1 + 1 = 2 * j + 2 by ring, even]
      push_cast
      ring
  have := tele N
  have hpos : (0 : ℝ) < 1 / (2 * N + 1) := by positivity
  have le : ∑ k ∈ Ico 1 N, |chebMean k| ≤ ∑ k ∈ Ico 1 (2 * N + 1), |chebMean k| :=
    sum_le_sum_of_subset_of_nonneg (Ico_subset_Ico le_rfl (by omega)) fun _ _ _ => abs_nonneg _
  linarith

theorem cheb_ne (n : ℕ) : (Chebyshev.T ℝ (n : ℤ)).leadingCoeff ≠ 0 := by
  have : (Chebyshev.T ℝ (n : ℤ)) ≠ 0 := fun h => by
    have := Chebyshev.degree_T ℝ (n : ℤ)
    rw [h] at this
    simp at this
  exact leadingCoeff_ne_zero.mpr this

/-- The weights of the interpolatory rule at points with a positive rule for the weight of Chebyshev. -/
theorem cheb_pos {N : ℕ} (hN : 2 ≤ N) {c x w : ℕ → ℝ} (hc : ∀ i < N, 0 < c i) (hx : ∀ i < N, -1 ≤ x i ∧ x i ≤ 1) (hd : Distinct N x)
    (hQ : ∀ p : ℝ[X], p.degree < (2 * N - 2 : ℕ) → ∑ i ∈ range N, c i * p.eval (x i) = chebInt p)
    (hlast : Real.pi / 2 ≤ ∑ i ∈ range N, c i * (Chebyshev.T ℝ ((N - 1 : ℕ) : ℤ)).eval (x i) ^ 2)
    (hw : ∀ p : ℝ[X], p.degree < N → ∑ i ∈ range N, w i * p.eval (x i) = ∫ x in (-1 : ℝ)..1, p.eval x) :
    ∀ i < N, 0 < w i := by
  have hpi := Real.pi_pos
  obtain ⟨t, ht⟩ : ∃ t : ℕ → ℕ → ℝ, t = fun (k : ℕ) i => (Chebyshev.T ℝ (k : ℤ)).eval (x i) := ⟨_, rfl⟩
  obtain ⟨d, hd'⟩ : ∃ d : ℕ → ℝ, d = fun k => ∑ i ∈ range N, c i * t k i ^ 2 := ⟨_, rfl⟩
  have hdeg : ∀ k l : ℕ, k + l < 2 * N - 2 → (Chebyshev.T ℝ (k : ℤ) * Chebyshev.T ℝ (l : ℤ)).degree < (2 * N - 2 : ℕ) := by
    intro k l h
    rw [degree_mul, Chebyshev.degree_T, Chebyshev.degree_T]
    simp only [Int.natAbs_natCast]
    exact_mod_cast h
  have hort : ∀ k < N, ∀ l < N, k ≠ l → ∑ i ∈ range N, c i * (t k i * t l i) = 0 := by
    intro k hk l hl hkl
    have := hQ _ (hdeg k l (by omega))
    simp only [eval_mul, chebInt] at this
    rw [Chebyshev.integral_eval_T_real_mul_eval_T_real_measureT_of_ne hkl] at this
    rw [← this, ht]
  have hd0 : d 0 = Real.pi := by
    have := hQ _ (hdeg 0 0 (by omega))
    simp only [eval_mul, chebInt] at this
    have e := Chebyshev.integral_eval_T_real_mul_self_measureT_zero
    rw [Nat.cast_zero, e] at this
    rw [← this, hd', ht]
    simp [sq]
  have hdk : ∀ k < N, k ≠ 0 → Real.pi / 2 ≤ d k := by
    intro k hk h0
    rcases Nat.lt_or_ge k (N - 1) with h | h
    · have := hQ _ (hdeg k k (by omega))
      simp only [eval_mul, chebInt] at this
      rw [Chebyshev.integral_T_real_mul_self_measureT_of_ne_zero h0] at this
      rw [← this, hd', ht]
      exact le_of_eq (sum_congr rfl fun i _ => by ring)
    · obtain rfl : k = N - 1 := by omega
      rw [hd', ht]
      exact hlast
  have hdpos : ∀ k < N, 0 < d k := fun k hk => by
    rcases Nat.eq_zero_or_pos k with rfl | h
    · rw [hd0]; exact hpi
    · have := hdk k hk h.ne'
      linarith
  obtain ⟨v, hv⟩ : ∃ v : ℕ → ℝ, v = fun i => c i * ∑ k ∈ range N, chebMean k / d k * t k i := ⟨_, rfl⟩
  -- it is exact
  have hvT : ∀ l < N, ∑ i ∈ range N, v i * t l i = chebMean l := by
    intro l hl
    have e : ∑ i ∈ range N, v i * t l i = ∑ k ∈ range N, chebMean k / d k * ∑ i ∈ range N, c i * (t k i * t l i) := by
      simp only [hv, mul_sum, sum_mul]
      rw [sum_comm]
      exact sum_congr rfl fun k _ => sum_congr rfl fun i _ => by ring
    rw [e, sum_eq_single_of_mem l (mem_range.2 hl) fun k hk hkl => by rw [hort k (mem_range.1 hk) l hl hkl, mul_zero]]
    have : ∑ i ∈ range N, c i * (t l i * t l i) = d l := by
      rw [hd']
      exact sum_congr rfl fun i _ => by ring
    rw [this, div_mul_cancel₀ _ (hdpos l hl).ne']
  have hvx : ∀ p : ℝ[X], p.degree < N → ∑ i ∈ range N, v i * p.eval (x i) = integ (-1) 1 p := by
    intro p hp
    have key := zero_of_family (p := fun n : ℕ => Chebyshev.T ℝ (n : ℤ))
      (f := fun p => ∑ i ∈ range N, v i * p.eval (x i) - integ (-1) 1 p) (fun n => by simp [Chebyshev.natDegree_T]) cheb_ne ?_ ?_ N ?_ hp
    · exact sub_eq_zero.1 key
    · intro q r
      simp only [eval_add, mul_add, sum_add_distrib, integ_add]
      ring
    · intro a q
      have : integ (-1) 1 (C a * q) = a * integ (-1) 1 q := by
        unfold integ
        simp only [eval_mul, eval_C]
        exact intervalIntegral.integral_const_mul _ _
      simp only [eval_mul, eval_C, this, mul_sub, mul_sum]
      congr 1
      exact sum_congr rfl fun i _ => by ring
    · intro l hl
      have := hvT l hl
      rw [ht] at this
      beta_reduce
      rw [this, chebMean, sub_self]
  -- so it is the rule
  have hvw : ∀ i < N, w i = v i := by
    intro i hi
    have hb : (Lagrange.basis (range N) x i).degree < N := by
      rw [Lagrange.degree_basis hd.injOn (mem_range.2 hi), card_range]
      have : N - 1 < N := by omega
      exact_mod_cast this
    have e1 : ∀ u : ℕ → ℝ, ∑ j ∈ range N, u j * (Lagrange.basis (range N) x i).eval (x j) = u i := by
      intro u
      rw [sum_eq_single_of_mem i (mem_range.2 hi) fun j hj hji => by
        rw [Lagrange.eval_basis_of_ne hji.symm hj, mul_zero], Lagrange.eval_basis_self hd.injOn (mem_range.2 hi), mul_one]
    have h1 := hw _ hb
    have h2 := hvx _ hb
    rw [e1] at h1 h2
    rw [h1, h2, integ]
  intro i hi
  rw [hvw i hi, hv]
  refine mul_pos (hc i hi) ?_
  have tb : ∀ k, |t k i| ≤ 1 := fun k => by
    rw [ht]
    exact Chebyshev.abs_eval_T_real_le_one _ (abs_le.2 (hx i hi))
  have t0 : t 0 i = 1 := by rw [ht]; simp
  rw [range_eq_Ico, ← sum_Ioo_add_eq_sum_Ico (by omega : 0 < N), hd0, t0, chebMean_zero, mul_one]
  have hIoo : Ioo 0 N = Ico 1 N := by ext k; simp [Nat.one_le_iff_ne_zero, Nat.pos_iff_ne_zero]
  rw [hIoo]
  have hb : |∑ k ∈ Ico 1 N, chebMean k / d k * t k i| ≤ ∑ k ∈ Ico 1 N, 2 / Real.pi * |chebMean k| := by
    refine (abs_sum_le_sum_abs _ _).trans (sum_le_sum fun k hk => ?_)
    have hk := mem_Ico.1 hk
    have hdk' := hdk k hk.2 (by omega)
    have hdp := hdpos k hk.2
    rw [abs_mul, abs_div, abs_of_pos hdp]
    have a1 : |chebMean k| / d k ≤ 2 / Real.pi * |chebMean k| := by
      rw [div_le_iff₀ hdp]
      have : 1 ≤ 2 / Real.pi * d k := by
        rw [div_mul_eq_mul_div, le_div_iff₀ hpi]
        linarith
      nlinarith [abs_nonneg (chebMean k)]
    have a0 : 0 ≤ |chebMean k| / d k := div_nonneg (abs_nonneg _) hdp.le
    calc |chebMean k| / d k * |t k i| ≤ |chebMean k| / d k * 1 := mul_le_mul_of_nonneg_left (tb k) a0
      _ ≤ _ := by rw [mul_one]; exact a1
  rw [← mul_sum] at hb
  have hs := chebMean_sum N
  have h2 : 0 < 2 / Real.pi := by positivity
  have := neg_abs_le (∑ k ∈ Ico 1 N, chebMean k / d k * t k i)
  nlinarith

end Chords.Props
