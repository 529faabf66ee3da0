import Verif.Lemmas.Legendre

/-! # Orthogonality of Jacobi polynomials -/

namespace Chords.Spec
open Polynomial Finset

/-- The recurrence without divisions. -/
theorem jacobi_rec' {a b : ℝ} (ha : -1 < a) (hb : -1 < b) (n : ℕ) :
    2 * ((n : ℝ[X]) + 2) * (C a + C b + (n : ℝ[X]) + 2) * (C a + C b + 2 * (n : ℝ[X]) + 2) * jacobi a b (n + 2)
      = (C a + C b + 2 * (n : ℝ[X]) + 3)
          * ((C a * C a - C b * C b) + (C a + C b + 2 * (n : ℝ[X]) + 2) * (C a + C b + 2 * (n : ℝ[X]) + 4) * X)
          * jacobi a b (n + 1)
        - 2 * (C a + (n : ℝ[X]) + 1) * (C b + (n : ℝ[X]) + 1) * (C a + C b + 2 * (n : ℝ[X]) + 4) * jacobi a b n := by
  have hn : (0 : ℝ) ≤ n := Nat.cast_nonneg n
  have h1 : (n : ℝ) + 2 ≠ 0 := by positivity
  have h2 : a + b + ((n : ℝ) + 2) ≠ 0 := by linarith
  have h3 : a + b + 2 * ((n : ℝ) + 2) - 2 ≠ 0 := by linarith
  obtain ⟨d, hd⟩ : ∃ d, d = ((n : ℝ) + 2) * (a + b + ((n : ℝ) + 2)) * (a + b + 2 * ((n : ℝ) + 2) - 2) := ⟨_, rfl⟩
  have hd0 : d ≠ 0 := by rw [hd]; exact mul_ne_zero (mul_ne_zero h1 h2) h3
  have key : C (2 * d) * jacobi a b (n + 2)
      = (C ((a + b + 2 * ((n : ℝ) + 2) - 1) * (a * a - b * b))
          + C ((a + b + 2 * ((n : ℝ) + 2) - 1) * (a + b + 2 * ((n : ℝ) + 2) - 2) * (a + b + 2 * ((n : ℝ) + 2))) * X) * jacobi a b (n + 1)
        - C (2 * ((a + ((n : ℝ) + 2) - 1) * (b + ((n : ℝ) + 2) - 1) * (a + b + 2 * ((n : ℝ) + 2)))) * jacobi a b n := by
    rw [jacobi]
    simp only [← hd]
    rw [mul_sub, mul_add, ← mul_assoc (C (2 * d)), ← C_mul, ← mul_assoc (C (2 * d)), ← mul_assoc (C (2 * d)), ← C_mul,
      ← mul_assoc (C (2 * d)), ← C_mul, mul_div_cancel₀ _ (mul_ne_zero two_ne_zero hd0),
      mul_div_cancel₀ _ (mul_ne_zero two_ne_zero hd0)]
    rw [show ∀ y, 2 * d * (y / d) = 2 * y from fun y => by field_simp]
    ring
  rw [hd] at key
  simp only [map_add, map_mul, map_sub, map_ofNat, map_natCast, C_1] at key
  linear_combination key

/-- The differential equation and the raising relation. -/
theorem jacobi_ode_raise {a b : ℝ} (ha : 0 ≤ a) (hb : 0 ≤ b) (n : ℕ) :
    ((1 - X ^ 2) * derivative (derivative (jacobi a b n))
      = (C a - C b + (C a + C b + 2) * X) * derivative (jacobi a b n)
        - (n : ℝ[X]) * ((n : ℝ[X]) + C a + C b + 1) * jacobi a b n) ∧
    ((2 * (n : ℝ[X]) + C a + C b + 2) * (1 - X ^ 2) * derivative (jacobi a b n)
      = ((n : ℝ[X]) + C a + C b + 1) * (C a - C b + (2 * (n : ℝ[X]) + C a + C b + 2) * X) * jacobi a b n
        - 2 * ((n : ℝ[X]) + 1) * ((n : ℝ[X]) + C a + C b + 1) * jacobi a b (n + 1)) := by
  induction n with
  | zero =>
    constructor
    · simp [jacobi]
    · rw [show jacobi a b (0 + 1) = C ((a + b) / 2 + 1) * X + C ((a - b) / 2) from rfl,
        show jacobi a b 0 = 1 from rfl]
      have e1 : (2 : ℝ[X]) * C ((a + b) / 2 + 1) = C a + C b + 2 := by
        rw [show (2 : ℝ[X]) = C 2 from rfl, ← C_mul, ← C_add, ← C_add]; congr 1; ring
      have e2 : (2 : ℝ[X]) * C ((a - b) / 2) = C a - C b := by
        rw [show (2 : ℝ[X]) = C 2 from rfl, ← C_mul, ← C_sub]; congr 1; ring
      simp only [derivative_one, Nat.cast_zero]
      linear_combination (C a + C b + 1) * X * e1 + (C a + C b + 1) * e2
  | succ n ih =>
    obtain ⟨hO, hR⟩ := ih
    have hn : (0 : ℝ) ≤ n := Nat.cast_nonneg n
    have z : ∀ r : ℝ, 0 < r → (C r : ℝ[X]) ≠ 0 := fun r hr => by rw [Ne, C_eq_zero]; exact hr.ne'
    have z1 : ((n : ℝ[X]) + 1) * ((n : ℝ[X]) + C a + C b + 1) ≠ 0 := by
      have := z (((n : ℝ) + 1) * (n + a + b + 1)) (by positivity)
      simpa only [map_add, map_mul, map_natCast, C_1] using this
    have z2 : ((n : ℝ[X]) + C a + C b + 1) ≠ 0 := by
      have := z ((n : ℝ) + a + b + 1) (by positivity)
      simpa only [map_add, map_mul, map_natCast, C_1] using this
    have z3 : (2 * (n : ℝ[X]) + C a + C b + 2) ≠ 0 := by
      have := z (2 * (n : ℝ) + a + b + 2) (by positivity)
      simpa only [map_add, map_mul, map_natCast, C_1, map_ofNat] using this
    obtain ⟨P, hP⟩ : ∃ P, P = jacobi a b n := ⟨_, rfl⟩
    obtain ⟨Q, hQ⟩ : ∃ Q, Q = jacobi a b (n + 1) := ⟨_, rfl⟩
    obtain ⟨m, hm⟩ : ∃ m : ℝ[X], m = (n : ℝ[X]) := ⟨_, rfl⟩
    have dm : derivative m = 0 := by rw [hm]; exact derivative_natCast
    -- two is regular
    have z4 : (2 : ℝ[X]) ≠ 0 := two_ne_zero
    rw [← hP, ← hm] at hO
    rw [← hP, ← hQ, ← hm] at hR
    rw [← hm] at z1 z2 z3
    have hD := congrArg derivative hR
    simp only [derivative_mul, derivative_sub, derivative_add, derivative_C, derivative_X, derivative_one, dm,
      derivative_ofNat, derivative_X_pow, zero_mul, mul_zero, zero_add, add_zero, sub_zero, mul_one] at hD
    -- the derivative of the next one
    have hT : 2 * (m + C a + C b + 1) * derivative Q
        = (m + C a + C b + 1) * (2 * m + C a + C b + 2) * P - (C a - C b - (2 * m + C a + C b + 2) * X) * derivative P := by
      apply mul_left_cancel₀ (show m + 1 ≠ 0 from left_ne_zero_of_mul z1)
      simp only [Nat.cast_ofNat, map_ofNat] at hD
      linear_combination hD - (2 * m + C a + C b + 2) * hO
    -- lowering
    have hS : (2 * m + C a + C b + 2) * (1 - X ^ 2) * derivative Q
        = (m + 1) * (C a - C b - (2 * m + C a + C b + 2) * X) * Q + 2 * (m + 1 + C a) * (m + 1 + C b) * P := by
      apply mul_left_cancel₀ (mul_ne_zero z4 z2)
      linear_combination (2 * m + C a + C b + 2) * (1 - X ^ 2) * hT - (C a - C b - (2 * m + C a + C b + 2) * X) * hR
    have hU : 2 * (m + 1 + C a) * (m + 1 + C b) * derivative P
        = (m + C a + C b + 1) * (-(m + 1) * (2 * m + C a + C b + 2) * Q
            + (C a - C b + (2 * m + C a + C b + 2) * X) * derivative Q) := by
      apply mul_left_cancel₀ z4
      linear_combination (2 * m + C a + C b + 2) * hR - (C a - C b + (2 * m + C a + C b + 2) * X) * hT
    have hD' := congrArg derivative hS
    simp only [derivative_mul, derivative_sub, derivative_add, derivative_C, derivative_X, derivative_one, dm,
      derivative_ofNat, derivative_X_pow, zero_mul, mul_zero, zero_add, add_zero, sub_zero, mul_one] at hD'
    have hr := jacobi_rec' (a := a) (b := b) (by linarith) (by linarith) n
    rw [← hP, ← hQ, ← hm] at hr
    refine ⟨?_, ?_⟩
    · rw [← hQ]
      push_cast
      rw [← hm]
      apply mul_left_cancel₀ z3
      simp only [Nat.cast_ofNat, map_ofNat] at hD'
      linear_combination hD' + hU
    · rw [← hQ, show n + 1 + 1 = n + 2 from rfl]
      push_cast
      rw [← hm]
      apply mul_left_cancel₀ z3
      linear_combination (2 * m + C a + C b + 4) * hS + hr

/-- The weight function of the Jacobi polynomials with natural exponents. -/
noncomputable def jw (a b : ℕ) : ℝ[X] := (1 - X) ^ a * (1 + X) ^ b

theorem jacobi_selfadjoint (a b n : ℕ) :
    derivative (jw (a + 1) (b + 1) * derivative (jacobi a b n))
      = -(C ((n : ℝ) * (n + a + b + 1)) * (jw a b * jacobi a b n)) := by
  obtain ⟨h, -⟩ := jacobi_ode_raise (a := a) (b := b) (Nat.cast_nonneg a) (Nat.cast_nonneg b) n
  have e : derivative (jw (a + 1) (b + 1)) = jw a b * (C (b : ℝ) - C (a : ℝ) - (C (a : ℝ) + C (b : ℝ) + 2) * X) := by
    unfold jw
    simp only [derivative_mul, derivative_pow, derivative_sub, derivative_add, derivative_one, derivative_X,
      Nat.add_sub_cancel, map_natCast, Nat.cast_add, Nat.cast_one, map_add, C_1]
    ring
  have e2 : jw (a + 1) (b + 1) = jw a b * (1 - X ^ 2) := by unfold jw; ring
  rw [derivative_mul, e, e2]
  simp only [map_add, map_mul, map_natCast, C_1] at h ⊢
  linear_combination (jw a b) * h

theorem jacobi_orth (a b : ℕ) {n m : ℕ} (h : n ≠ m) :
    integ (-1) 1 (jw a b * (jacobi a b n * jacobi a b m)) = 0 := by
  have e : derivative (jw (a + 1) (b + 1) * derivative (jacobi a b n) * jacobi a b m
      - jw (a + 1) (b + 1) * derivative (jacobi a b m) * jacobi a b n)
      = C ((m : ℝ) * (m + a + b + 1) - n * (n + a + b + 1)) * (jw a b * (jacobi a b n * jacobi a b m)) := by
    rw [derivative_sub, derivative_mul (f := jw (a + 1) (b + 1) * derivative (jacobi a b n)),
      derivative_mul (f := jw (a + 1) (b + 1) * derivative (jacobi a b m)), jacobi_selfadjoint, jacobi_selfadjoint, C_sub]
    ring
  have h1 := integ_derivative (-1) 1 (jw (a + 1) (b + 1) * derivative (jacobi a b n) * jacobi a b m
      - jw (a + 1) (b + 1) * derivative (jacobi a b m) * jacobi a b n)
  rw [e, integ_C_mul] at h1
  have z1 : (jw (a + 1) (b + 1)).eval 1 = 0 := by simp [jw]
  have z2 : (jw (a + 1) (b + 1)).eval (-1) = 0 := by simp [jw]
  simp only [eval_sub, eval_mul, z1, z2, zero_mul, sub_zero, mul_eq_zero] at h1
  rcases h1 with h1 | h1
  · exfalso
    have : ((m : ℝ) - n) * (m + n + a + b + 1) = 0 := by linarith
    rcases mul_eq_zero.1 this with h2 | h2
    · exact h (by exact_mod_cast (sub_eq_zero.1 h2).symm)
    · have : (0 : ℝ) < m + n + a + b + 1 := by positivity
      linarith
  · exact h1

/-- A linear form that vanishes on the first polynomials of a family vanishes on all polynomials of smaller degree. -/
theorem zero_of_family {p : ℕ → ℝ[X]} (hd : ∀ n, (p n).natDegree = n) (hl : ∀ n, (p n).leadingCoeff ≠ 0)
    {f : ℝ[X] → ℝ} (hadd : ∀ q r, f (q + r) = f q + f r) (hmul : ∀ c q, f (C c * q) = c * f q) (k : ℕ)
    (hk : ∀ i < k, f (p i) = 0) {q : ℝ[X]} (hq : q.degree < k) : f q = 0 := by
  induction k generalizing q with
  | zero =>
    have : q = 0 := by rw [← degree_eq_bot]; exact Nat.WithBot.lt_zero_iff.1 (by simpa using hq)
    have h0 := hmul 0 0
    simp only [map_zero, zero_mul] at h0
    rw [this, h0]
  | succ k ih =>
    obtain ⟨c, hc⟩ : ∃ c, c = q.coeff k / (p k).leadingCoeff := ⟨_, rfl⟩
    have hr : (q - C c * p k).degree < k := by
      rw [degree_lt_iff_coeff_zero]
      intro m hm
      rcases Nat.eq_or_lt_of_le hm with rfl | hm
      · rw [coeff_sub, coeff_C_mul, hc]
        have : (p k).coeff k = (p k).leadingCoeff := by rw [leadingCoeff, hd]
        rw [this, div_mul_cancel₀ _ (hl k), sub_self]
      · rw [coeff_sub, coeff_C_mul, coeff_eq_zero_of_natDegree_lt (p := p k) (by rw [hd]; omega),
          coeff_eq_zero_of_degree_lt (lt_of_lt_of_le hq (by exact_mod_cast hm))]
        ring
    have e : q = C c * p k + (q - C c * p k) := by ring
    rw [e, hadd, hmul, hk k (by omega), ih (fun i hi => hk i (by omega)) hr]
    ring

/-- A Jacobi polynomial is orthogonal to every polynomial of smaller degree. -/
theorem jacobi_orth_lt (a b n : ℕ) {q : ℝ[X]} (hq : q.degree < n) :
    integ (-1) 1 (jw a b * (jacobi a b n * q)) = 0 := by
  have ht := jacobi_threeTerm (a := a) (b := b) (by linarith [Nat.cast_nonneg (α := ℝ) a])
    (by linarith [Nat.cast_nonneg (α := ℝ) b])
  refine zero_of_family (p := jacobi a b) (f := fun q => integ (-1) 1 (jw a b * (jacobi a b n * q))) ht.deg
    (fun n => (ht.lc n).ne') ?_ ?_ n (fun i hi => jacobi_orth a b (by omega)) hq
  · intro q r
    rw [← integ_add]; congr 1; ring
  · intro c q
    rw [← integ_C_mul]; congr 1; ring

/-- A rule that is exact below the number of its points for a weight is exact as far as the polynomial of the points is
orthogonal. -/
theorem quad_extend {N k : ℕ} {t c : ℕ → ℝ} {w ω : ℝ[X]} (hne : ω ≠ 0) (hdeg : ω.natDegree = N)
    (hr : ∀ i < N, ω.eval (t i) = 0) (ho : ∀ q : ℝ[X], q.degree < k → integ (-1) 1 (w * (ω * q)) = 0)
    (hc : ∀ p : ℝ[X], p.degree < N → ∑ i ∈ range N, c i * p.eval (t i) = integ (-1) 1 (w * p)) {p : ℝ[X]}
    (hp : p.degree < (N + k : ℕ)) : ∑ i ∈ range N, c i * p.eval (t i) = integ (-1) 1 (w * p) := by
  have hdeg' : ω.degree = (N : ℕ) := by rw [degree_eq_natDegree hne, hdeg]
  have hdiv := EuclideanDomain.div_add_mod p ω
  have hmod : (p % ω).degree < N := by rw [← hdeg']; exact degree_mod_lt p hne
  have hq : (p / ω).degree < k := by
    rcases eq_or_ne (p / ω) 0 with h0 | h0
    · rw [h0, degree_zero]; exact WithBot.bot_lt_coe k
    · have h1 : (ω * (p / ω)).degree < (N + k : ℕ) := by
        have : ω * (p / ω) = p - p % ω := by linear_combination hdiv
        rw [this]
        refine lt_of_le_of_lt (degree_sub_le _ _) (max_lt hp (lt_of_lt_of_le hmod ?_))
        exact_mod_cast (by omega : N ≤ N + k)
      rw [degree_mul, hdeg', degree_eq_natDegree h0] at h1
      rw [degree_eq_natDegree h0]
      have : N + (p / ω).natDegree < N + k := by exact_mod_cast h1
      exact_mod_cast (by omega : (p / ω).natDegree < k)
  have hI : integ (-1) 1 (w * p) = integ (-1) 1 (w * (p % ω)) := by
    conv_lhs => rw [← hdiv]
    rw [mul_add, integ_add, ho _ hq, zero_add]
  rw [hI, ← hc _ hmod]
  apply sum_congr rfl
  intro i hi
  conv_lhs => rw [← hdiv]
  rw [eval_add, eval_mul, hr i (mem_range.1 hi), zero_mul, zero_add]

theorem integ_comp_neg (p : ℝ[X]) : integ (-1) 1 (p.comp (-X)) = integ (-1) 1 p := by
  unfold integ
  simp only [eval_comp, eval_neg, eval_X]
  rw [intervalIntegral.integral_comp_neg (fun x => p.eval x)]
  simp

end Chords.Spec
