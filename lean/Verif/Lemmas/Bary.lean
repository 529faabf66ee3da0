import Verif.Model.Bary
import Mathlib.LinearAlgebra.Lagrange
import Mathlib.Order.ConditionallyCompleteLattice.Finset
import Mathlib.Tactic.FieldSimp
import Mathlib.Tactic.Ring
import Mathlib.Tactic.Linarith

/-! # Barycentric formulas and Mathlib's Lagrange interpolation -/

namespace Chords.Bary
open Finset Polynomial

/-- The first `n` entries are different. -/
def Distinct (n : ℕ) (t : ℕ → ℝ) : Prop := ∀ i < n, ∀ j < n, t i = t j → i = j

theorem Distinct.injOn {n t} (h : Distinct n t) : Set.InjOn t (range n : Set ℕ) := by
  intro i hi j hj e
  simp at hi hj
  exact h i hi j hj e

theorem span_pos {n : ℕ} {t : ℕ → ℝ} (h : Distinct n t) (hn : 2 ≤ n) : 0 < span n t := by
  have hfin : (t '' {i | i < n}).Finite := (Set.finite_lt_nat n).image t
  have m0 : t 0 ∈ t '' {i | i < n} := ⟨0, by simp; omega, rfl⟩
  have m1 : t 1 ∈ t '' {i | i < n} := ⟨1, by simp; omega, rfl⟩
  have hne : t 0 ≠ t 1 := fun e => by have := h 0 (by omega) 1 (by omega) e; omega
  have a0 := le_csSup hfin.bddAbove m0
  have a1 := le_csSup hfin.bddAbove m1
  have b0 := csInf_le hfin.bddBelow m0
  have b1 := csInf_le hfin.bddBelow m1
  unfold span
  rcases lt_or_gt_of_ne hne with h | h <;> linarith

/-- All coefficients are the nodal weights up to a common non-zero factor. -/
theorem vSum_eq {n : ℕ} {t : ℕ → ℝ} (h : Distinct n t) (hn : 1 ≤ n) :
    ∃ c : ℝ, c ≠ 0 ∧ ∀ i < n, vSum n t i = c * Lagrange.nodalWeight (range n) t i := by
  have hn0 : (n : ℝ) ≠ 0 := by have : n ≠ 0 := by omega
                               exact_mod_cast this
  have key : ∀ i < n, vSum n t i = (n : ℝ) * ((4 / span n t) ^ (n - 1))⁻¹ * Lagrange.nodalWeight (range n) t i := by
    intro i hi
    unfold vSum Lagrange.nodalWeight
    simp only
    have e : ∏ j ∈ (range n).erase i, (t i * (4 / span n t) - t j * (4 / span n t))
        = (∏ j ∈ (range n).erase i, (t i - t j)) * (4 / span n t) ^ (n - 1) := by
      have hc : n - 1 = #((range n).erase i) := by rw [card_erase_of_mem (mem_range.2 hi), card_range]
      rw [hc, ← prod_const, ← prod_mul_distrib]
      apply prod_congr rfl; intro j _; ring
    rw [e, prod_inv_distrib, div_eq_mul_inv, mul_inv]
    ring
  refine ⟨_, ?_, key⟩
  apply mul_ne_zero hn0
  apply inv_ne_zero
  rcases Nat.lt_or_ge n 2 with h2 | h2
  · have : n = 1 := by omega
    subst this; simp
  · exact pow_ne_zero _ (div_ne_zero (by norm_num) (span_pos h h2).ne')

theorem baryPoly_node {n : ℕ} {t y : ℕ → ℝ} (h : Distinct n t) {i : ℕ} (hi : i < n) :
    baryPoly n t y (t i) = y i := by
  unfold baryPoly
  split
  · rename_i j hj
    have h1 := List.find?_some hj
    have h2 := List.mem_of_find?_eq_some hj
    simp at h1 h2
    rw [h j h2 i hi h1]
  · rename_i hj
    rw [List.find?_eq_none] at hj
    exact absurd (hj i (by simp [hi])) (by simp)

theorem baryPoly_off {n : ℕ} {t y : ℕ → ℝ} {x : ℝ} (hx : ∀ i < n, t i ≠ x) :
    baryPoly n t y x =
      (∑ i ∈ range n, vSum n t i * y i / (x - t i)) / ∑ i ∈ range n, vSum n t i / (x - t i) := by
  unfold baryPoly
  split
  · rename_i j hj
    have h1 := List.find?_some hj
    have h2 := List.mem_of_find?_eq_some hj
    simp at h1 h2
    exact absurd h1 (hx j h2)
  · rfl

/-- The second barycentric formula is the interpolating polynomial. -/
theorem formula_eq {n : ℕ} {t y : ℕ → ℝ} (h : Distinct n t) (hn : 1 ≤ n) {x : ℝ} (hx : ∀ i < n, t i ≠ x) :
    (∑ i ∈ range n, vSum n t i * y i / (x - t i)) / ∑ i ∈ range n, vSum n t i / (x - t i)
      = (Lagrange.interpolate (range n) t y).eval x := by
  obtain ⟨c, hc, hv⟩ := vSum_eq h hn
  rw [Lagrange.eval_interpolate_not_at_node' _ h.injOn ⟨0, by simp; omega⟩
    (fun i hi => (hx i (mem_range.1 hi)).symm)]
  have e1 : ∑ i ∈ range n, vSum n t i * y i / (x - t i)
      = c * ∑ i ∈ range n, Lagrange.nodalWeight (range n) t i * (x - t i)⁻¹ * y i := by
    rw [mul_sum]; apply sum_congr rfl; intro i hi; rw [hv i (mem_range.1 hi)]; ring
  have e2 : ∑ i ∈ range n, vSum n t i / (x - t i)
      = c * ∑ i ∈ range n, Lagrange.nodalWeight (range n) t i * (x - t i)⁻¹ := by
    rw [mul_sum]; apply sum_congr rfl; intro i hi; rw [hv i (mem_range.1 hi)]; ring
  rw [e1, e2, mul_div_mul_left _ _ hc]

theorem baryPoly_eq {n : ℕ} {t y : ℕ → ℝ} (h : Distinct n t) (hn : 1 ≤ n) (x : ℝ) :
    baryPoly n t y x = (Lagrange.interpolate (range n) t y).eval x := by
  by_cases hx : ∀ i < n, t i ≠ x
  · rw [baryPoly_off hx, formula_eq h hn hx]
  · push Not at hx
    obtain ⟨i, hi, rfl⟩ := hx
    rw [baryPoly_node h hi, Lagrange.eval_interpolate_at_node _ h.injOn (mem_range.2 hi)]

/-- A polynomial of degree below `n` is its own interpolant. -/
theorem interpolate_self {n : ℕ} {t : ℕ → ℝ} (h : Distinct n t) {p : ℝ[X]} (hp : p.degree < n) {y : ℕ → ℝ}
    (hy : ∀ i < n, y i = p.eval (t i)) : Lagrange.interpolate (range n) t y = p := by
  symm
  apply Lagrange.eq_interpolate_of_eval_eq _ h.injOn (by simpa using hp)
  intro i hi; exact (hy i (mem_range.1 hi)).symm

theorem dMat_off {n : ℕ} {t v : ℕ → ℝ} {i j : ℕ} (hij : i ≠ j) :
    dMat n t v i j = (v j / v i) / (t i - t j) := by
  simp [dMat, hij, hij.symm]

theorem dMat_diag {n : ℕ} {t v : ℕ → ℝ} {i : ℕ} (hi : i < n) :
    dMat n t v i i = -∑ k ∈ (range n).erase i, (v k / v i) / (t i - t k) := by
  unfold dMat
  simp only [if_true]
  rw [← add_sum_erase _ _ (mem_range.2 hi)]
  simp only [if_true, zero_add]
  congr 1
  apply sum_congr rfl
  intro k hk
  rw [if_neg (ne_of_mem_erase hk)]

theorem dMat_row_sum {n : ℕ} {t v : ℕ → ℝ} {i : ℕ} (hi : i < n) : ∑ j ∈ range n, dMat n t v i j = 0 := by
  rw [← add_sum_erase _ _ (mem_range.2 hi), dMat_diag hi]
  have : ∑ k ∈ (range n).erase i, dMat n t v i k = ∑ k ∈ (range n).erase i, (v k / v i) / (t i - t k) :=
    sum_congr rfl (fun k hk => dMat_off (ne_of_mem_erase hk).symm)
  rw [this]; ring

/-- Derivative of a Lagrange basis polynomial at another node. -/
theorem basis_deriv {n : ℕ} {t : ℕ → ℝ} (h : Distinct n t) {i j : ℕ} (hi : i < n) (hj : j < n) (hij : i ≠ j) :
    (derivative (Lagrange.basis (range n) t j)).eval (t i)
      = (Lagrange.nodalWeight (range n) t j / Lagrange.nodalWeight (range n) t i) / (t i - t j) := by
  have hne : t i ≠ t j := fun e => hij (h i hi j hj e)
  have hb : Lagrange.basis (range n) t j = C (Lagrange.nodalWeight (range n) t j) * Lagrange.nodal ((range n).erase j) t := by
    have h1 := Lagrange.nodal_eq_mul_nodal_erase (v := t) (mem_range.2 hj)
    rw [Lagrange.basis_eq_prod_sub_inv_mul_nodal_div (mem_range.2 hj), ← Lagrange.nodal_erase_eq_nodal_div (mem_range.2 hj)]
  rw [hb, derivative_C_mul, eval_C_mul,
    Lagrange.eval_nodal_derivative_eval_node_eq (mem_erase.2 ⟨hij, mem_range.2 hi⟩),
    Lagrange.nodalWeight_eq_eval_nodal_erase_inv (i := i), Lagrange.eval_nodal, Lagrange.eval_nodal]
  have e : ∏ k ∈ (range n).erase i, (t i - t k) = (t i - t j) * ∏ k ∈ ((range n).erase j).erase i, (t i - t k) := by
    rw [erase_right_comm, mul_prod_erase _ (fun k => t i - t k) (mem_erase.2 ⟨hij.symm, mem_range.2 hj⟩)]
  rw [e]
  have := sub_ne_zero.2 hne
  field_simp

/-- Entries of the matrix are derivatives of the Lagrange basis at the nodes. -/
theorem dMat_eq {n : ℕ} {t : ℕ → ℝ} (h : Distinct n t) {i j : ℕ} (hi : i < n) (hj : j < n) :
    dMat n t (vSum n t) i j = (derivative (Lagrange.basis (range n) t j)).eval (t i) := by
  have hn : 1 ≤ n := by omega
  obtain ⟨c, hc, hv⟩ := vSum_eq h hn
  have off : ∀ k < n, i ≠ k →
      (vSum n t k / vSum n t i) / (t i - t k) = (derivative (Lagrange.basis (range n) t k)).eval (t i) := by
    intro k hk hik
    rw [basis_deriv h hi hk hik, hv k hk, hv i hi, mul_div_mul_left _ _ hc]
  by_cases hij : i = j
  · subst hij
    rw [dMat_diag hi]
    have hs := Lagrange.sum_basis h.injOn ⟨i, mem_range.2 hi⟩
    have hs' := congrArg (fun p => (derivative p).eval (t i)) hs
    simp only [derivative_sum, eval_finsetSum, derivative_one, eval_zero] at hs'
    rw [← add_sum_erase _ _ (mem_range.2 hi)] at hs'
    have : ∑ k ∈ (range n).erase i, (vSum n t k / vSum n t i) / (t i - t k)
        = ∑ k ∈ (range n).erase i, (derivative (Lagrange.basis (range n) t k)).eval (t i) := by
      apply sum_congr rfl
      intro k hk
      rw [mem_erase, mem_range] at hk
      exact off k hk.2 hk.1.symm
    rw [this]; linarith
  · rw [dMat_off hij, off j hj hij]

/-- The matrix differentiates polynomials of degree below `n` exactly at the nodes. -/
theorem dMat_deriv {n : ℕ} {t : ℕ → ℝ} (h : Distinct n t) {p : ℝ[X]} (hp : p.degree < n) {y : ℕ → ℝ}
    (hy : ∀ i < n, y i = p.eval (t i)) {i : ℕ} (hi : i < n) :
    matVec n (dMat n t (vSum n t)) y i = (derivative p).eval (t i) := by
  have e := interpolate_self h hp hy
  conv_rhs => rw [← e, Lagrange.interpolate_apply, derivative_sum, eval_finsetSum]
  unfold matVec
  apply sum_congr rfl
  intro j hj
  rw [dMat_eq h hi (mem_range.1 hj), derivative_C_mul, eval_C_mul, mul_comm]

theorem matPow_vec (n : ℕ) (M : ℕ → ℕ → ℝ) (k : ℕ) (y : ℕ → ℝ) {i : ℕ} (hi : i < n) :
    matVec n (matPow n M k) y i = ((matVec n M)^[k] y) i := by
  induction k generalizing i with
  | zero =>
    simp only [matVec, matPow, Function.iterate_zero, id]
    rw [sum_eq_single i]
    · simp
    · intro j _ hj; simp [hj.symm]
    · intro hj; simp [hi] at hj
  | succ k ih =>
    rw [Function.iterate_succ_apply']
    simp only [matVec, matPow]
    simp only [sum_mul]
    rw [sum_comm]
    apply sum_congr rfl
    intro l hl
    rw [← ih (mem_range.1 hl)]
    simp only [matVec, mul_sum, mul_assoc]

theorem dMat_pow {n : ℕ} {t : ℕ → ℝ} (h : Distinct n t) {p : ℝ[X]} (hp : p.degree < n) {y : ℕ → ℝ}
    (hy : ∀ i < n, y i = p.eval (t i)) (k : ℕ) {i : ℕ} (hi : i < n) :
    matVec n (matPow n (dMat n t (vSum n t)) k) y i = (derivative^[k] p).eval (t i) := by
  rw [matPow_vec _ _ _ _ hi]
  have key : ∀ k, (derivative^[k] p).degree < n ∧
      ∀ i < n, ((matVec n (dMat n t (vSum n t)))^[k] y) i = (derivative^[k] p).eval (t i) := by
    intro k
    induction k with
    | zero => exact ⟨hp, hy⟩
    | succ k ih =>
      refine ⟨?_, fun i hi => ?_⟩
      · rw [Function.iterate_succ_apply']; exact (degree_derivative_le).trans_lt ih.1
      · rw [Function.iterate_succ_apply', Function.iterate_succ_apply']
        exact dMat_deriv h ih.1 ih.2 hi
  exact (key k).2 i hi

theorem distinct_arr {l : List ℝ} (h : l.Pairwise (· < ·)) : Distinct l.length (arr l) := by
  intro i hi j hj e
  simp only [arr, List.getD_eq_getElem?_getD, List.getElem?_eq_getElem hi, List.getElem?_eq_getElem hj,
    Option.getD_some] at e
  rw [List.pairwise_iff_getElem] at h
  rcases lt_trichotomy i j with h1 | h1 | h1
  · exact absurd e (h i j hi hj h1).ne
  · exact h1
  · exact absurd e.symm (h j i hj hi h1).ne

end Chords.Bary
