import Verif.Lemmas.Anti
import Verif.Model.TimeScale

/-! # The polynomial with given initial derivatives and given highest derivative -/

namespace Chords.Spec
open Polynomial Finset Chords.TimeScale

/-- `2 (t - t0) / h - 1` as a polynomial in `t`. -/
noncomputable def toTau (t0 h : ℝ) : ℝ[X] := C (2 / h) * (X - C t0) - 1

theorem toTau_eval {t0 t1 : ℝ} (h : t0 ≠ t1) (τ : ℝ) : (toTau t0 (t1 - t0)).eval (tauToT τ t0 t1) = τ := by
  have := sub_ne_zero.2 h.symm
  simp [toTau, tauToT]
  field_simp
  ring

theorem toTau_start {t0 h : ℝ} : (toTau t0 h).eval t0 = -1 := by simp [toTau]

/-- The trajectory with derivatives `x0 k` at `t0` for `k < M` and `M`-th derivative `A` (a polynomial in tau). -/
noncomputable def traj (t0 h : ℝ) (M : ℕ) (x0 : ℕ → ℝ) (A : ℝ[X]) : ℝ[X] :=
  (∑ k ∈ range M, C (x0 k / (Nat.factorial k : ℝ)) * (X - C t0) ^ k)
    + C ((h / 2) ^ M) * (antiK (-1) M A).comp (toTau t0 h)

theorem traj_deriv {t0 h : ℝ} (hh : h ≠ 0) (M : ℕ) (x0 : ℕ → ℝ) (A : ℝ[X]) :
    derivative (traj t0 h (M + 1) x0 A) = traj t0 h M (fun k => x0 (k + 1)) A := by
  unfold traj
  rw [derivative_add, derivative_sum, sum_range_succ']
  congr 1
  · simp only [pow_zero, mul_one, derivative_C, add_zero]
    apply sum_congr rfl
    intro k _
    rw [derivative_C_mul, derivative_X_sub_C_pow, ← mul_assoc, Nat.add_sub_cancel, ← C_mul]
    congr 2
    have h1 : ((k : ℝ) + 1) ≠ 0 := by positivity
    have h2 : (Nat.factorial k : ℝ) ≠ 0 := by exact_mod_cast Nat.factorial_ne_zero k
    rw [Nat.factorial_succ]
    push_cast
    field_simp
  · rw [derivative_C_mul, derivative_comp, antiK_succ, anti_deriv]
    have : derivative (toTau t0 h) = C (2 / h) := by simp [toTau]
    rw [this, ← mul_assoc, ← C_mul]
    congr 2
    field_simp
    ring

theorem traj_iter {t0 h : ℝ} (hh : h ≠ 0) {P M : ℕ} (hP : P ≤ M) (x0 : ℕ → ℝ) (A : ℝ[X]) :
    derivative^[P] (traj t0 h M x0 A) = traj t0 h (M - P) (fun k => x0 (k + P)) A := by
  induction P with
  | zero => rfl
  | succ P ih =>
    rw [Function.iterate_succ_apply', ih (by omega)]
    obtain ⟨m, hm⟩ : ∃ m, M - P = m + 1 := ⟨M - P - 1, by omega⟩
    rw [hm, traj_deriv hh, show M - (P + 1) = m by omega]
    congr 1
    funext k; congr 1; omega

theorem traj_eval (t0 h : ℝ) (M : ℕ) (x0 : ℕ → ℝ) (A : ℝ[X]) (t : ℝ) :
    (traj t0 h M x0 A).eval t
      = (∑ k ∈ range M, x0 k / (Nat.factorial k : ℝ) * (t - t0) ^ k)
        + (h / 2) ^ M * (antiK (-1) M A).eval ((toTau t0 h).eval t) := by
  simp [traj, eval_finsetSum, eval_comp]

theorem traj_start {t0 h : ℝ} {M : ℕ} (hM : 1 ≤ M) (x0 : ℕ → ℝ) (A : ℝ[X]) : (traj t0 h M x0 A).eval t0 = x0 0 := by
  obtain ⟨m, rfl⟩ : ∃ m, M = m + 1 := ⟨M - 1, by omega⟩
  rw [traj_eval, toTau_start, antiK_eval (by omega), sum_range_succ']
  simp

theorem deriv_degree {p : ℝ[X]} {n : ℕ} (h : (derivative p).degree < n) : p.degree < (n + 1 : ℕ) := by
  rw [degree_lt_iff_coeff_zero] at h ⊢
  intro m hm
  obtain ⟨m, rfl⟩ : ∃ k, m = k + 1 := ⟨m - 1, by omega⟩
  have := h m (by omega)
  rw [coeff_derivative] at this
  rcases mul_eq_zero.1 this with h | h
  · exact h
  · have : (0 : ℝ) < (m : ℝ) + 1 := by positivity
    linarith

theorem iter_deriv_degree {p : ℝ[X]} {n : ℕ} (M : ℕ) (h : (derivative^[M] p).degree < n) : p.degree < (M + n : ℕ) := by
  induction M generalizing p with
  | zero => simpa using h
  | succ M ih =>
    rw [Function.iterate_succ_apply] at h
    have := deriv_degree (ih h)
    rwa [show M + 1 + n = M + n + 1 by omega]

theorem comp_toTau_degree (t0 h : ℝ) {A : ℝ[X]} {n : ℕ} (hA : A.degree < n) : (A.comp (toTau t0 h)).degree < n := by
  rcases eq_or_ne A 0 with rfl | h0
  · simpa using hA
  have h1 : A.natDegree < n := by rw [degree_eq_natDegree h0] at hA; exact_mod_cast hA
  have h2 : (toTau t0 h).natDegree ≤ 1 := by
    unfold toTau
    compute_degree
  have h3 : (A.comp (toTau t0 h)).natDegree ≤ A.natDegree * (toTau t0 h).natDegree := natDegree_comp_le
  have h4 : A.natDegree * (toTau t0 h).natDegree ≤ A.natDegree * 1 := Nat.mul_le_mul_left _ h2
  exact lt_of_le_of_lt degree_le_natDegree (by exact_mod_cast (by omega : (A.comp (toTau t0 h)).natDegree < n))

theorem traj_highest {t0 h : ℝ} (hh : h ≠ 0) (M : ℕ) (x0 : ℕ → ℝ) (A : ℝ[X]) :
    derivative^[M] (traj t0 h M x0 A) = A.comp (toTau t0 h) := by
  rw [traj_iter hh le_rfl, Nat.sub_self]
  simp [traj]

theorem traj_degree {t0 h : ℝ} (hh : h ≠ 0) (M : ℕ) (x0 : ℕ → ℝ) {A : ℝ[X]} {n : ℕ} (hA : A.degree < n) :
    (traj t0 h M x0 A).degree < (M + n : ℕ) := by
  apply iter_deriv_degree M
  rw [traj_highest hh]
  exact comp_toTau_degree t0 h hA

/-- Two polynomials with the same derivatives at one point and the same `M`-th derivative are equal. -/
theorem eq_of_iter_deriv {M : ℕ} {p q : ℝ[X]} {a : ℝ} (h0 : ∀ k < M, (derivative^[k] p).eval a = (derivative^[k] q).eval a)
    (hM : derivative^[M] p = derivative^[M] q) : p = q := by
  induction M generalizing p q with
  | zero => simpa using hM
  | succ M ih =>
    apply eq_of_deriv (a := a)
    · apply ih
      · intro k hk
        have := h0 (k + 1) (by omega)
        simpa only [Function.iterate_succ_apply] using this
      · simpa only [Function.iterate_succ_apply] using hM
    · simpa using h0 0 (by omega)

end Chords.Spec
