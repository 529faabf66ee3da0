import Verif.Spec.Leggauss
import Verif.Lemmas.RootLists
import Verif.Lemmas.Bary
import Mathlib.MeasureTheory.Integral.IntervalIntegral.FundThmCalculus
import Mathlib.MeasureTheory.Integral.IntervalIntegral.IntegrationByParts

/-! # Orthogonality of Legendre polynomials and exactness of Gauss quadrature -/

namespace Chords.Spec
open Polynomial Finset

/-- The integral of a polynomial. -/
noncomputable def integ (a b : ℝ) (p : ℝ[X]) : ℝ := ∫ x in a..b, p.eval x

theorem pint (p : ℝ[X]) (a b : ℝ) : IntervalIntegrable (fun x => p.eval x) MeasureTheory.volume a b :=
  p.continuous.intervalIntegrable a b

theorem integ_add (a b : ℝ) (p q : ℝ[X]) : integ a b (p + q) = integ a b p + integ a b q := by
  unfold integ; simp only [eval_add]; exact intervalIntegral.integral_add (pint p a b) (pint q a b)

theorem integ_C_mul (a b c : ℝ) (p : ℝ[X]) : integ a b (C c * p) = c * integ a b p := by
  unfold integ; simp only [eval_mul, eval_C]; exact intervalIntegral.integral_const_mul c _

theorem integ_zero (a b : ℝ) : integ a b 0 = 0 := by unfold integ; simp

theorem integ_sum (a b : ℝ) {ι : Type*} (s : Finset ι) (f : ι → ℝ[X]) :
    integ a b (∑ i ∈ s, f i) = ∑ i ∈ s, integ a b (f i) := by
  classical
  induction s using Finset.induction_on with
  | empty => simp [integ_zero]
  | insert i s hi ih => rw [sum_insert hi, sum_insert hi, integ_add, ih]

theorem integ_derivative (a b : ℝ) (p : ℝ[X]) : integ a b (derivative p) = p.eval b - p.eval a := by
  unfold integ
  exact intervalIntegral.integral_eq_sub_of_hasDerivAt (fun x _ => p.hasDerivAt x) (pint _ a b)

theorem integ_one (a b : ℝ) : integ a b 1 = b - a := by unfold integ; simp

/-- The recurrence without divisions. -/
theorem legendre_rec (n : ℕ) :
    C ((n : ℝ) + 2) * legendre (n + 2) = C (2 * (n : ℝ) + 3) * X * legendre (n + 1) - C ((n : ℝ) + 1) * legendre n := by
  have h : (n : ℝ) + 2 ≠ 0 := by positivity
  rw [legendre, mul_sub]
  congr 1
  · rw [← mul_assoc, ← mul_assoc, ← C_mul]; congr 3; field_simp
  · rw [← mul_assoc, ← C_mul]; congr 2; field_simp

theorem legendre_AB (n : ℕ) :
    derivative (legendre (n + 1)) = X * derivative (legendre n) + C ((n : ℝ) + 1) * legendre n ∧
    X * derivative (legendre (n + 1)) = derivative (legendre n) + C ((n : ℝ) + 1) * legendre (n + 1) := by
  induction n with
  | zero => simp [legendre]
  | succ n ih =>
    obtain ⟨hA, hB⟩ := ih
    have hne : (C ((n : ℝ) + 2) : ℝ[X]) ≠ 0 := by
      rw [Ne, C_eq_zero]; positivity
    have hR := legendre_rec n
    have hA' : derivative (legendre (n + 1 + 1))
        = X * derivative (legendre (n + 1)) + C (((n + 1 : ℕ) : ℝ) + 1) * legendre (n + 1) := by
      apply mul_left_cancel₀ hne
      have hD := congrArg derivative hR
      simp only [derivative_mul, derivative_sub, derivative_C, derivative_X, zero_mul, zero_add, mul_one] at hD
      rw [show n + 1 + 1 = n + 2 from rfl, hD]
      simp only [map_add, map_mul, C_1, map_ofNat, Nat.cast_add, Nat.cast_one, map_natCast] at hB ⊢
      linear_combination ((n : ℝ[X]) + 1) * hB
    refine ⟨hA', ?_⟩
    rw [hA', show n + 1 + 1 = n + 2 from rfl]
    simp only [map_add, map_mul, C_1, map_ofNat, Nat.cast_add, Nat.cast_one, map_natCast] at hA hB hR ⊢
    linear_combination X * hB - hR - hA

/-- The Legendre differential equation. -/
theorem legendre_ode (n : ℕ) :
    derivative ((1 - X ^ 2) * derivative (legendre n)) = -(C ((n : ℝ) * (n + 1)) * legendre n) := by
  cases n with
  | zero => simp [legendre]
  | succ n =>
    obtain ⟨hA, hB⟩ := legendre_AB n
    have e : (1 - X ^ 2) * derivative (legendre (n + 1))
        = C ((n : ℝ) + 1) * (legendre n - X * legendre (n + 1)) := by
      linear_combination hA - X * hB
    rw [e]
    simp only [derivative_mul, derivative_sub, derivative_C, derivative_X, zero_mul, zero_add, one_mul]
    simp only [map_add, map_mul, C_1, Nat.cast_add, Nat.cast_one, map_natCast] at hA hB ⊢
    linear_combination (-((n : ℝ[X]) + 1)) * hB

theorem legendre_orth {n m : ℕ} (h : n ≠ m) : integ (-1) 1 (legendre n * legendre m) = 0 := by
  have e : derivative ((1 - X ^ 2) * derivative (legendre n) * legendre m
      - (1 - X ^ 2) * derivative (legendre m) * legendre n)
      = C ((m : ℝ) * (m + 1) - n * (n + 1)) * (legendre n * legendre m) := by
    rw [derivative_sub, derivative_mul (f := (1 - X ^ 2) * derivative (legendre n)),
      derivative_mul (f := (1 - X ^ 2) * derivative (legendre m)), legendre_ode, legendre_ode, C_sub]
    ring
  have h1 := integ_derivative (-1) 1 ((1 - X ^ 2) * derivative (legendre n) * legendre m
      - (1 - X ^ 2) * derivative (legendre m) * legendre n)
  rw [e, integ_C_mul] at h1
  simp at h1
  rcases h1 with h1 | h1
  · exfalso
    have : ((m : ℝ) - n) * (m + n + 1) = 0 := by linarith
    rcases mul_eq_zero.1 this with h2 | h2
    · exact h (by exact_mod_cast (sub_eq_zero.1 h2).symm)
    · have : (0 : ℝ) < m + n + 1 := by positivity
      linarith
  · exact h1

/-- A Legendre polynomial is orthogonal to every polynomial of smaller degree. -/
theorem legendre_orth_lt {n : ℕ} (k : ℕ) (hk : k ≤ n) {q : ℝ[X]} (hq : q.degree < k) :
    integ (-1) 1 (legendre n * q) = 0 := by
  induction k generalizing q with
  | zero =>
    have : q = 0 := by rw [← degree_eq_bot]; exact Nat.WithBot.lt_zero_iff.1 (by simpa using hq)
    simp [this, integ_zero]
  | succ k ih =>
    have hl := legendre_threeTerm.lc k
    have hd := legendre_threeTerm.deg k
    obtain ⟨c, hc⟩ : ∃ c, c = q.coeff k / (legendre k).leadingCoeff := ⟨_, rfl⟩
    have hr : (q - C c * legendre k).degree < k := by
      rw [degree_lt_iff_coeff_zero]
      intro m hm
      rcases Nat.eq_or_lt_of_le hm with rfl | hm
      · rw [coeff_sub, coeff_C_mul, hc]
        have : (legendre k).coeff k = (legendre k).leadingCoeff := by rw [leadingCoeff, hd]
        rw [this]; field_simp; ring
      · rw [coeff_sub, coeff_C_mul, coeff_eq_zero_of_natDegree_lt (p := legendre k) (by omega),
          coeff_eq_zero_of_degree_lt (lt_of_lt_of_le hq (by exact_mod_cast hm))]
        ring
    have e : legendre n * q = C c * (legendre n * legendre k) + legendre n * (q - C c * legendre k) := by ring
    rw [e, integ_add, integ_C_mul, legendre_orth (by omega), ih (by omega) hr]
    ring

end Chords.Spec

namespace Chords.Spec
open Polynomial Finset Chords.Bary

/-- The points of `leggauss(N)` as a function. -/
theorem gauss_nodes (N : ℕ) :
    (leggaussPoints N).length = N ∧ Distinct N (arr (leggaussPoints N)) ∧
      (∀ i < N, arr (leggaussPoints N) i ∈ Set.Ioo (-1 : ℝ) 1) ∧
      ∀ i < N, (legendre N).eval (arr (leggaussPoints N) i) = 0 := by
  obtain ⟨hl, hs, hm⟩ := legendre_roots N
  have hl' : (leggaussPoints N).length = N := hl
  have hget : ∀ i < N, arr (leggaussPoints N) i ∈ leggaussPoints N := by
    intro i hi
    rw [arr, List.getD_eq_getElem?_getD, List.getElem?_eq_getElem (by omega), Option.getD_some]
    exact List.getElem_mem _
  refine ⟨hl', ?_, ?_, ?_⟩
  · have := distinct_arr (l := leggaussPoints N) hs
    rwa [hl'] at this
  · intro i hi; exact hm _ (hget i hi)
  · intro i hi
    have h := hget i hi
    unfold leggaussPoints realRoots at h ⊢
    rw [Multiset.mem_sort, mem_roots (legendre_threeTerm.ne_zero N)] at h
    exact h

/-- Gauss quadrature with the integrals of the Lagrange basis as weights is exact up to degree `2N - 1`. -/
theorem gauss_basis_exact {N : ℕ} {p : ℝ[X]} (hp : p.degree < (2 * N : ℕ)) :
    ∑ i ∈ range N, integ (-1) 1 (Lagrange.basis (range N) (arr (leggaussPoints N)) i) * p.eval (arr (leggaussPoints N) i)
      = integ (-1) 1 p := by
  obtain ⟨-, hd, -, hr⟩ := gauss_nodes N
  have hne := legendre_threeTerm.ne_zero N
  have hdeg : (legendre N).degree = (N : ℕ) := by rw [degree_eq_natDegree hne, legendre_threeTerm.deg N]
  have hdiv := EuclideanDomain.div_add_mod p (legendre N)
  have hmod : (p % legendre N).degree < N := by rw [← hdeg]; exact degree_mod_lt p hne
  have hq : (p / legendre N).degree < N := by
    rcases eq_or_ne (p / legendre N) 0 with h0 | h0
    · rw [h0, degree_zero]; exact WithBot.bot_lt_coe N
    · have h1 : (legendre N * (p / legendre N)).degree < (2 * N : ℕ) := by
        have : legendre N * (p / legendre N) = p - p % legendre N := by linear_combination hdiv
        rw [this]
        refine lt_of_le_of_lt (degree_sub_le _ _) (max_lt hp (lt_of_lt_of_le hmod ?_))
        exact_mod_cast (by omega : N ≤ 2 * N)
      rw [degree_mul, hdeg, degree_eq_natDegree h0] at h1
      rw [degree_eq_natDegree h0]
      have : N + (p / legendre N).natDegree < 2 * N := by exact_mod_cast h1
      exact_mod_cast (by omega : (p / legendre N).natDegree < N)
  have hI : integ (-1) 1 p = integ (-1) 1 (p % legendre N) := by
    conv_lhs => rw [← hdiv]
    rw [integ_add, legendre_orth_lt N le_rfl hq, zero_add]
  have hev : ∀ i < N, p.eval (arr (leggaussPoints N) i) = (p % legendre N).eval (arr (leggaussPoints N) i) := by
    intro i hi
    conv_lhs => rw [← hdiv]
    rw [eval_add, eval_mul, hr i hi, zero_mul, zero_add]
  have e := interpolate_self hd hmod hev
  rw [hI]
  conv_rhs => rw [← e, Lagrange.interpolate_apply, integ_sum]
  apply sum_congr rfl
  intro i _
  rw [integ_C_mul, mul_comm]

/-- The integral of a square is positive. -/
theorem integ_sq_pos {p : ℝ[X]} (hp : p ≠ 0) : 0 < integ (-1) 1 (p * p) := by
  unfold integ
  simp only [eval_mul]
  have hc : Continuous fun x => p.eval x * p.eval x := p.continuous.mul p.continuous
  obtain ⟨x, hx, hx0⟩ : ∃ x ∈ Set.Icc (-1 : ℝ) 1, p.eval x ≠ 0 := by
    by_contra h
    push Not at h
    apply hp
    exact eq_zero_of_infinite_isRoot p ((Set.Icc_infinite (by norm_num : (-1 : ℝ) < 1)).mono (fun x hx => h x hx))
  exact intervalIntegral.integral_pos (by norm_num) hc.continuousOn (fun x _ => mul_self_nonneg _)
    ⟨x, hx, mul_self_pos.2 hx0⟩

/-- numpy's formula for the weights is proportional to the integrals of the Lagrange basis. -/
theorem gauss_raw {N : ℕ} (hN : 1 ≤ N) : ∃ K : ℝ, K ≠ 0 ∧ ∀ i < N,
    integ (-1) 1 (Lagrange.basis (range N) (arr (leggaussPoints N)) i)
      = K * (1 / ((legendre (N - 1)).eval (arr (leggaussPoints N) i)
          * (derivative (legendre N)).eval (arr (leggaussPoints N) i))) := by
  obtain ⟨n, rfl⟩ : ∃ n, N = n + 1 := ⟨N - 1, by omega⟩
  obtain ⟨-, hd, -, hr⟩ := gauss_nodes (n + 1)
  simp only [Nat.add_sub_cancel]
  have hl1 := legendre_threeTerm.lc (n + 1)
  have hl0 := legendre_threeTerm.lc n
  have hd1 := legendre_threeTerm.deg (n + 1)
  have hd0 := legendre_threeTerm.deg n
  obtain ⟨t, ht⟩ : ∃ t, t = arr (leggaussPoints (n + 1)) := ⟨_, rfl⟩
  rw [← ht] at hd hr ⊢
  obtain ⟨k, hk⟩ : ∃ k, k = (legendre (n + 1)).leadingCoeff / (legendre n).leadingCoeff := ⟨_, rfl⟩
  obtain ⟨K, hK⟩ : ∃ K, K = k * integ (-1) 1 (legendre n * legendre n) := ⟨_, rfl⟩
  have hK0 : K ≠ 0 := by
    rw [hK, hk]
    exact mul_ne_zero (div_ne_zero hl1.ne' hl0.ne') (integ_sq_pos (legendre_threeTerm.ne_zero n)).ne'
  refine ⟨K, hK0, ?_⟩
  intro i hi
  obtain ⟨g, hg⟩ : ∃ g, legendre (n + 1) = (X - C (t i)) * g := dvd_iff_isRoot.2 (hr i hi)
  have hg0 : g ≠ 0 := by
    rintro rfl; rw [mul_zero] at hg; exact legendre_threeTerm.ne_zero (n + 1) hg
  have hgd : g.natDegree = n := by
    have := congrArg natDegree hg
    rw [hd1, natDegree_mul (X_sub_C_ne_zero _) hg0, natDegree_X_sub_C] at this
    omega
  have hgl : g.leadingCoeff = (legendre (n + 1)).leadingCoeff := by
    rw [hg, leadingCoeff_mul, leadingCoeff_X_sub_C, one_mul]
  have hev : ∀ j < n + 1, j ≠ i → g.eval (t j) = 0 := by
    intro j hj hji
    have h := hr j hj
    rw [hg, eval_mul, eval_sub, eval_X, eval_C] at h
    rcases mul_eq_zero.1 h with h | h
    · exact absurd (hd j hj i hi (sub_eq_zero.1 h)) hji
    · exact h
  have hder : (derivative (legendre (n + 1))).eval (t i) = g.eval (t i) := by
    rw [hg]; simp
  have hdeg : (g * legendre n).degree < (2 * (n + 1) : ℕ) := by
    rw [degree_mul, degree_eq_natDegree hg0, degree_eq_natDegree (legendre_threeTerm.ne_zero n), hgd, hd0]
    exact_mod_cast (by omega : n + n < 2 * (n + 1))
  have hex := gauss_basis_exact hdeg
  rw [← ht, sum_eq_single i (fun j hj hji => by
      rw [eval_mul, hev j (mem_range.1 hj) hji]; ring) (fun h => absurd (mem_range.2 hi) h), eval_mul] at hex
  have hint : integ (-1) 1 (g * legendre n) = K := by
    have hrem : (g - C k * legendre n).degree < n := by
      rw [degree_lt_iff_coeff_zero]
      intro m hm
      rw [coeff_sub, coeff_C_mul]
      rcases Nat.eq_or_lt_of_le hm with rfl | hm
      · have a : g.coeff n = g.leadingCoeff := by rw [leadingCoeff, hgd]
        have b : (legendre n).coeff n = (legendre n).leadingCoeff := by rw [leadingCoeff, hd0]
        rw [a, b, hgl, hk]; field_simp; ring
      · rw [coeff_eq_zero_of_natDegree_lt (p := g) (by omega), coeff_eq_zero_of_natDegree_lt (by omega)]; ring
    have e : g * legendre n = C k * (legendre n * legendre n) + legendre n * (g - C k * legendre n) := by ring
    rw [e, integ_add, integ_C_mul, legendre_orth_lt n le_rfl hrem, hK, add_zero]
  rw [hint] at hex
  rw [hder]
  have h1 : g.eval (t i) * (legendre n).eval (t i) ≠ 0 := fun h => hK0 (by rw [← hex, h, mul_zero])
  have h2 : (legendre n).eval (t i) * g.eval (t i) ≠ 0 := by rwa [mul_comm]
  rw [mul_one_div, eq_div_iff h2]
  linarith [hex]

theorem arr_map (l : List ℝ) (f : ℝ → ℝ) {i : ℕ} (hi : i < l.length) : arr (l.map f) i = f (arr l i) := by
  simp [arr, hi]

theorem sum_arr (l : List ℝ) : l.sum = ∑ i ∈ range l.length, arr l i := by
  induction l with
  | nil => simp
  | cons a l ih => rw [List.sum_cons, List.length_cons, sum_range_succ', ih]; simp [arr]; ring

/-- numpy's weights are the integrals of the Lagrange basis. -/
theorem leggaussWeights_eq {N : ℕ} (hN : 1 ≤ N) {i : ℕ} (hi : i < N) :
    arr (leggaussWeights N) i = integ (-1) 1 (Lagrange.basis (range N) (arr (leggaussPoints N)) i) := by
  obtain ⟨K, hK, h⟩ := gauss_raw hN
  obtain ⟨hl, -, -, -⟩ := gauss_nodes N
  have hlr : (leggaussRaw N).length = N := by simp [leggaussRaw, hl]
  have hraw : ∀ j < N, arr (leggaussRaw N) j
      = K⁻¹ * integ (-1) 1 (Lagrange.basis (range N) (arr (leggaussPoints N)) j) := by
    intro j hj
    rw [leggaussRaw, arr_map _ _ (by omega), h j hj]
    field_simp
  have hsum : (leggaussRaw N).sum = K⁻¹ * 2 := by
    rw [sum_arr, hlr, sum_congr rfl (fun j hj => hraw j (mem_range.1 hj)), ← mul_sum]
    have := gauss_basis_exact (N := N) (p := 1)
      (lt_of_le_of_lt degree_one_le (by exact_mod_cast (by omega : 0 < 2 * N)))
    simp only [eval_one, mul_one, integ_one] at this
    rw [this]; norm_num
  rw [leggaussWeights, arr_map _ _ (by omega), hsum, hraw i hi]
  field_simp

/-- `leggauss(N)` integrates polynomials up to degree `2N - 1` exactly. -/
theorem leggauss_exact {N : ℕ} (hN : 1 ≤ N) {p : ℝ[X]} (hp : p.degree < (2 * N : ℕ)) :
    ∑ i ∈ range N, arr (leggaussWeights N) i * p.eval (arr (leggaussPoints N) i) = integ (-1) 1 p := by
  rw [← gauss_basis_exact hp]
  exact sum_congr rfl (fun i hi => by rw [leggaussWeights_eq hN (mem_range.1 hi)])

end Chords.Spec
