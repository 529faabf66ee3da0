import Verif.Lemmas.Legendre
import Verif.Spec.Antideriv
import Mathlib.Algebra.Polynomial.Derivative

/-! # Antiderivatives of polynomials -/

namespace Chords.Spec
open Polynomial Finset

/-- An antiderivative. -/
noncomputable def anti0 (p : ℝ[X]) : ℝ[X] := ∑ i ∈ range (p.natDegree + 1), C (p.coeff i / (i + 1)) * X ^ (i + 1)

theorem anti0_deriv (p : ℝ[X]) : derivative (anti0 p) = p := by
  conv_rhs => rw [p.as_sum_range_C_mul_X_pow]
  rw [anti0, derivative_sum]
  apply sum_congr rfl
  intro i _
  rw [derivative_C_mul_X_pow, Nat.add_sub_cancel]
  congr 2
  have : ((i : ℝ) + 1) ≠ 0 := by positivity
  push_cast
  field_simp

theorem anti0_degree {p : ℝ[X]} {n : ℕ} (hp : p.degree < n) : (anti0 p).degree < (n + 1 : ℕ) := by
  rw [degree_lt_iff_coeff_zero]
  intro m hm
  obtain ⟨m, rfl⟩ : ∃ k, m = k + 1 := ⟨m - 1, by omega⟩
  have h := congrArg (fun q => q.coeff m) (anti0_deriv p)
  simp only [coeff_derivative] at h
  rw [coeff_eq_zero_of_degree_lt (lt_of_lt_of_le hp (by exact_mod_cast (by omega : n ≤ m)))] at h
  rcases mul_eq_zero.1 h with h | h
  · exact h
  · have : (0 : ℝ) < (m : ℝ) + 1 := by positivity
    linarith

/-- The antiderivative that vanishes at `a`. -/
noncomputable def anti (a : ℝ) (p : ℝ[X]) : ℝ[X] := anti0 p - C ((anti0 p).eval a)

theorem anti_deriv (a : ℝ) (p : ℝ[X]) : derivative (anti a p) = p := by
  rw [anti, derivative_sub, derivative_C, sub_zero, anti0_deriv]

theorem anti_eval (a : ℝ) (p : ℝ[X]) : (anti a p).eval a = 0 := by simp [anti]

theorem anti_degree (a : ℝ) {p : ℝ[X]} {n : ℕ} (hp : p.degree < n) : (anti a p).degree < (n + 1 : ℕ) := by
  refine lt_of_le_of_lt (degree_sub_le _ _) (max_lt (anti0_degree hp) (lt_of_le_of_lt degree_C_le ?_))
  exact_mod_cast Nat.succ_pos n

theorem anti_integ (a x : ℝ) (p : ℝ[X]) : integ a x p = (anti a p).eval x := by
  have := integ_derivative a x (anti a p)
  rw [anti_deriv, anti_eval, sub_zero] at this
  exact this

theorem eq_of_deriv {p q : ℝ[X]} {a : ℝ} (hd : derivative p = derivative q) (he : p.eval a = q.eval a) : p = q := by
  have h1 : derivative (p - q) = 0 := by rw [derivative_sub, hd, sub_self]
  have h2 := natDegree_eq_zero_of_derivative_eq_zero h1
  have h3 := eq_C_of_natDegree_eq_zero h2
  have h4 : (p - q).eval a = 0 := by rw [eval_sub, he, sub_self]
  rw [h3, eval_C] at h4
  rw [h4, C_0] at h3
  exact sub_eq_zero.1 h3

theorem anti_add (a : ℝ) (p q : ℝ[X]) : anti a (p + q) = anti a p + anti a q :=
  eq_of_deriv (a := a) (by simp [anti_deriv]) (by simp [anti_eval])

theorem anti_C_mul (a c : ℝ) (p : ℝ[X]) : anti a (C c * p) = C c * anti a p :=
  eq_of_deriv (a := a) (by simp [anti_deriv]) (by simp [anti_eval])

theorem anti_sum (a : ℝ) {ι : Type*} (s : Finset ι) (f : ι → ℝ[X]) :
    anti a (∑ i ∈ s, f i) = ∑ i ∈ s, anti a (f i) :=
  eq_of_deriv (a := a) (by simp [anti_deriv, derivative_sum]) (by simp [anti_eval, eval_finsetSum])

/-- `k` antiderivatives. -/
noncomputable def antiK (a : ℝ) (k : ℕ) (p : ℝ[X]) : ℝ[X] := (anti a)^[k] p

@[simp] theorem antiK_zero (a : ℝ) (p : ℝ[X]) : antiK a 0 p = p := rfl

theorem antiK_succ (a : ℝ) (k : ℕ) (p : ℝ[X]) : antiK a (k + 1) p = anti a (antiK a k p) :=
  Function.iterate_succ_apply' _ _ _

theorem antiK_succ' (a : ℝ) (k : ℕ) (p : ℝ[X]) : antiK a (k + 1) p = antiK a k (anti a p) :=
  Function.iterate_succ_apply _ _ _

theorem antiK_degree (a : ℝ) {p : ℝ[X]} {n : ℕ} (hp : p.degree < n) (k : ℕ) : (antiK a k p).degree < (n + k : ℕ) := by
  induction k with
  | zero => exact hp
  | succ k ih => rw [antiK_succ]; exact anti_degree a ih

theorem antiK_eval {a : ℝ} {k : ℕ} (hk : 1 ≤ k) (p : ℝ[X]) : (antiK a k p).eval a = 0 := by
  obtain ⟨k, rfl⟩ : ∃ j, k = j + 1 := ⟨k - 1, by omega⟩
  rw [antiK_succ, anti_eval]

theorem antiK_deriv (a : ℝ) (p : ℝ[X]) {j k : ℕ} (h : j ≤ k) : derivative^[j] (antiK a k p) = antiK a (k - j) p := by
  induction j with
  | zero => rfl
  | succ j ih =>
    rw [Function.iterate_succ_apply', ih (by omega)]
    obtain ⟨m, hm⟩ : ∃ m, k - j = m + 1 := ⟨k - j - 1, by omega⟩
    rw [hm, antiK_succ, anti_deriv]
    congr 1; omega

theorem antiK_sum (a : ℝ) (k : ℕ) {ι : Type*} (s : Finset ι) (f : ι → ℝ[X]) :
    antiK a k (∑ i ∈ s, f i) = ∑ i ∈ s, antiK a k (f i) := by
  induction k with
  | zero => rfl
  | succ k ih => simp only [antiK_succ]; rw [ih, anti_sum]

theorem antiK_C_mul (a c : ℝ) (k : ℕ) (p : ℝ[X]) : antiK a k (C c * p) = C c * antiK a k p := by
  induction k with
  | zero => rfl
  | succ k ih => rw [antiK_succ, ih, anti_C_mul, ← antiK_succ]

/-- The repeated integral of a polynomial. -/
theorem iterInt_poly (a : ℝ) (k : ℕ) (p : ℝ[X]) : iterInt a k (fun x => p.eval x) = fun x => (antiK a k p).eval x := by
  induction k with
  | zero => rfl
  | succ k ih =>
    funext x
    simp only [iterInt, ih]
    rw [antiK_succ, ← anti_integ]; rfl

/-- Cauchy's formula for repeated integration. -/
theorem cauchy_formula (a x : ℝ) (k : ℕ) (p : ℝ[X]) :
    integ a x ((C x - X) ^ k * p) = (Nat.factorial k : ℝ) * (antiK a (k + 1) p).eval x := by
  induction k generalizing p with
  | zero => simp [antiK_succ, anti_integ]
  | succ k ih =>
    have hd : derivative ((C x - X) ^ (k + 1) * anti a p)
        = (C x - X) ^ (k + 1) * p + C (-((k : ℝ) + 1)) * ((C x - X) ^ k * anti a p) := by
      rw [derivative_mul, anti_deriv, derivative_pow]
      simp only [derivative_sub, derivative_C, derivative_X, Nat.add_sub_cancel]
      push_cast
      simp only [map_neg, map_add, map_natCast, C_1]
      ring
    have h := integ_derivative a x ((C x - X) ^ (k + 1) * anti a p)
    rw [hd, integ_add, integ_C_mul, ih] at h
    simp only [eval_mul, eval_pow, eval_sub, eval_C, eval_X, sub_self, anti_eval, mul_zero] at h
    rw [zero_pow (by omega), zero_mul, sub_zero, ← antiK_succ'] at h
    rw [Nat.factorial_succ]
    push_cast
    linarith

end Chords.Spec
