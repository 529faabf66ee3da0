import Verif.Props.ChebPos

/-! # The weights of the schemes are positive (for C184) -/

namespace Chords.Props
open Finset Polynomial Chords.Points Chords.Spec Chords.Bary Chords.Gauss

/-! ## Rules with the degree of their family -/

/-- A polynomial that is zero at `y` and positive on the rest of `[-1, 1]`. -/
noncomputable def touch (y : ℝ) : ℝ[X] := if y = -1 then X + 1 else if y = 1 then 1 - X else (X - C y) ^ 2

/-- Its degree. -/
noncomputable def touchDeg (y : ℝ) : ℕ := if y = -1 then 1 else if y = 1 then 1 else 2

theorem touch_deg (y : ℝ) : (touch y).natDegree ≤ touchDeg y := by
  unfold touch touchDeg
  split_ifs
  · compute_degree
  · compute_degree
  · refine natDegree_pow_le.trans ?_
    rw [natDegree_X_sub_C]

theorem touch_self (y : ℝ) : (touch y).eval y = 0 := by
  unfold touch
  split_ifs with h1 h2
  · simp [h1]
  · simp [h2]
  · simp

theorem touch_nonneg (y : ℝ) {x : ℝ} (h0 : -1 ≤ x) (h1 : x ≤ 1) : 0 ≤ (touch y).eval x := by
  unfold touch
  split_ifs
  · simp; linarith
  · simp; linarith
  · simp only [eval_pow, eval_sub, eval_X, eval_C]; positivity

theorem touch_pos {x y : ℝ} (h0 : -1 ≤ x) (h1 : x ≤ 1) (hxy : x ≠ y) : 0 < (touch y).eval x := by
  refine lt_of_le_of_ne (touch_nonneg y h0 h1) (Ne.symm ?_)
  unfold touch
  split_ifs with h1 h2
  · simp only [eval_add, eval_X, eval_one]
    intro h
    exact hxy (by rw [h1]; linarith)
  · simp only [eval_sub, eval_X, eval_one]
    intro h
    exact hxy (by rw [h2]; linarith)
  · simp only [eval_pow, eval_sub, eval_X, eval_C]
    exact pow_ne_zero _ (sub_ne_zero.2 hxy)

theorem touchDeg_pos (y : ℝ) : 1 ≤ touchDeg y := by unfold touchDeg; split_ifs <;> omega

theorem sum_arr (f : ℝ → ℕ) : ∀ L : List ℝ, ∑ i ∈ range L.length, f (arr L i) = (L.map f).sum
  | [] => by simp
  | x :: L => by
    rw [List.length_cons, sum_range_succ', List.map_cons, List.sum_cons, ← sum_arr f L, add_comm]
    rfl

/-- The degrees add up to the degree of exactness and one. -/
theorem touchDeg_sum {l r : Bool} {N : ℕ} {L : List ℝ} (h : Shape l r N L) :
    ∑ i ∈ range N, touchDeg (arr L i) + l.toNat + r.toNat = 2 * N := by
  have e := sum_arr touchDeg L
  rw [h.length] at e
  rw [e]
  obtain ⟨n, inner, h1, h2, rfl⟩ := h
  have hin : (inner.map touchDeg).sum = 2 * n := by
    have : inner.map touchDeg = List.replicate n 2 := by
      rw [List.eq_replicate_iff]
      refine ⟨by simp [h1.1], fun b hb => ?_⟩
      obtain ⟨x, hx, rfl⟩ := List.mem_map.1 hb
      have := h1.2.2 x hx
      unfold touchDeg
      rw [if_neg (by linarith [this.1]), if_neg (by linarith [this.2])]
    rw [this]
    simp [mul_comm]
  have a1 : touchDeg (-1) = 1 := by simp [touchDeg]
  have a2 : touchDeg 1 = 1 := by simp [touchDeg]
  cases l <;> cases r <;> simp [hin, a1, a2] <;> simp at h2 <;> omega

/-- A rule whose points have this shape and that is exact, against a power of `1 - τ`, below the degree `2N` less the number of
ends has positive weights. -/
theorem rule_pos_power {l r : Bool} {N : ℕ} {L : List ℝ} (h : Shape l r N L) {w : ℕ → ℝ} {e : ℕ}
    (hw : ∀ p : ℝ[X], p.degree < (2 * N - (l.toNat + r.toNat) : ℕ) → ∑ i ∈ range N, w i * p.eval (arr L i) 
      = ∫ x in (-1 : ℝ)..1, (1 - x) ^ e * p.eval x) :
    ∀ i < N, 0 < w i := by
  intro i hi
  have hlen := h.length
  have hget : ∀ k < N, arr L k ∈ L := fun k hk => by
    rw [arr, List.getD_eq_getElem?_getD, List.getElem?_eq_getElem (by omega), Option.getD_some]
    exact List.getElem_mem _
  have hne : ∀ k < N, k ≠ i → arr L k ≠ arr L i := by
    intro k hk hki e
    have hnd : L.Nodup := h.sorted.imp fun h => h.ne
    rw [arr, arr, List.getD_eq_getElem?_getD, List.getElem?_eq_getElem (by omega), Option.getD_some, List.getD_eq_getElem?_getD,
      List.getElem?_eq_getElem (by omega), Option.getD_some] at e
    exact hki ((List.Nodup.getElem_inj_iff hnd).1 e)
  obtain ⟨P, hP⟩ : ∃ P : ℝ[X], P = ∏ k ∈ (range N).erase i, touch (arr L k) := ⟨_, rfl⟩
  have hmem : i ∈ range N := mem_range.2 hi
  have hsum := touchDeg_sum h
  have hPd : P.degree < (2 * N - (l.toNat + r.toNat) : ℕ) := by
    refine lt_of_le_of_lt degree_le_natDegree (Nat.cast_lt.2 ?_)
    have h1 : P.natDegree ≤ ∑ k ∈ (range N).erase i, touchDeg (arr L k) := by
      rw [hP]
      exact (natDegree_prod_le _ _).trans (sum_le_sum fun k _ => touch_deg _)
    have h2 := add_sum_erase (range N) (fun k => touchDeg (arr L k)) hmem
    have h3 := touchDeg_pos (arr L i)
    omega
  have hPi : 0 < P.eval (arr L i) := by
    rw [hP, eval_prod]
    refine prod_pos fun k hk => ?_
    have hk' := mem_erase.1 hk
    have := h.mem _ (hget i hi)
    exact touch_pos this.1 this.2 (hne k (mem_range.1 hk'.2) hk'.1).symm
  have hE := hw P hPd
  have e1 : ∑ k ∈ range N, w k * P.eval (arr L k) = w i * P.eval (arr L i) := by
    refine sum_eq_single_of_mem i hmem fun k hk hki => ?_
    have : P.eval (arr L k) = 0 := by
      rw [hP, eval_prod]
      exact prod_eq_zero (mem_erase.2 ⟨hki, hk⟩) (touch_self _)
    rw [this, mul_zero]
  have hP0 : P ≠ 0 := fun h => by rw [h, eval_zero] at hPi; exact lt_irrefl _ hPi
  obtain ⟨y, hy, hy0⟩ : ∃ y ∈ Set.Ioo (-1 : ℝ) 1, P.eval y ≠ 0 := by
    by_contra hc
    push Not at hc
    exact hP0 (eq_zero_of_infinite_isRoot P ((Set.Ioo_infinite (by norm_num : (-1 : ℝ) < 1)).mono (fun x hx => hc x hx)))
  have hnn : ∀ x, -1 ≤ x → x ≤ 1 → 0 ≤ P.eval x := fun x h0 h1 => by
    rw [hP, eval_prod]
    exact prod_nonneg fun k _ => touch_nonneg _ h0 h1
  have hpos : 0 < ∫ x in (-1 : ℝ)..1, (1 - x) ^ e * P.eval x := by
    refine intervalIntegral.integral_pos (by norm_num) (by fun_prop) (fun x hx => ?_) ⟨y, ⟨hy.1.le, hy.2.le⟩, ?_⟩
    · exact mul_nonneg (pow_nonneg (by linarith [hx.2]) _) (hnn x hx.1.le hx.2)
    · exact mul_pos (pow_pos (by linarith [hy.2]) _) (lt_of_le_of_ne (hnn y hy.1.le hy.2.le) hy0.symm)
  rw [e1] at hE
  rw [← hE] at hpos
  exact (mul_pos_iff_of_pos_right hPi).1 hpos

theorem rule_pos {l r : Bool} {N : ℕ} {L : List ℝ} (h : Shape l r N L) {w : ℕ → ℝ}
    (hw : ∀ p : ℝ[X], p.degree < (2 * N - (l.toNat + r.toNat) : ℕ) → ∑ i ∈ range N, w i * p.eval (arr L i) = ∫ x in (-1 : ℝ)..1, p.eval x) :
    ∀ i < N, 0 < w i :=
  rule_pos_power h (e := 0) (by simpa using hw)

theorem shape_arr {l r : Bool} {N : ℕ} {L : List ℝ} (h : Shape l r N L) {i : ℕ} (hi : i < N) : -1 ≤ arr L i ∧ arr L i ≤ 1 := by
  refine h.mem _ ?_
  rw [arr, List.getD_eq_getElem?_getD, List.getElem?_eq_getElem (by rw [h.length]; omega), Option.getD_some]
  exact List.getElem_mem _

/-! ## Legendre polynomials are below one -/

theorem legendre_one (n : ℕ) : (legendre n).eval 1 = 1 := by
  induction n using Nat.twoStepInduction with
  | zero => simp [legendre]
  | one => simp [legendre]
  | more n h0 h1 =>
    have h := congrArg (eval 1) (legendre_rec n)
    simp only [eval_mul, eval_sub, eval_C, eval_X, h0, h1] at h
    have hn : (n : ℝ) + 2 ≠ 0 := by positivity
    have : ((n : ℝ) + 2) * ((legendre (n + 2)).eval 1 - 1) = 0 := by linarith
    rcases mul_eq_zero.1 this with h' | h'
    · exact absurd h' hn
    · linarith

theorem legendre_neg_one (n : ℕ) : (legendre n).eval (-1) = (-1) ^ n := by
  induction n using Nat.twoStepInduction with
  | zero => simp [legendre]
  | one => simp [legendre]
  | more n h0 h1 =>
    have h := congrArg (eval (-1)) (legendre_rec n)
    simp only [eval_mul, eval_sub, eval_C, eval_X, h0, h1] at h
    have hn : (n : ℝ) + 2 ≠ 0 := by positivity
    have : ((n : ℝ) + 2) * ((legendre (n + 2)).eval (-1) - (-1) ^ (n + 2)) = 0 := by
      rw [mul_sub, h]
      ring
    rcases mul_eq_zero.1 this with h' | h'
    · exact absurd h' hn
    · linarith

/-- The differential equation at a point. -/
theorem legendre_ode_at (n : ℕ) (x : ℝ) :
    -(2 * x) * (derivative (legendre n)).eval x + (1 - x ^ 2) * (derivative (derivative (legendre n))).eval x
      = -(n * (n + 1) * (legendre n).eval x) := by
  have h := congrArg (eval x) (legendre_ode n)
  simp only [derivative_mul, derivative_sub, derivative_one, derivative_X_pow, eval_add, eval_mul, eval_sub, eval_neg, eval_C, eval_pow,
    eval_X, eval_one, eval_zero] at h
  rw [← h]
  simp

theorem legendre_deriv_one (n : ℕ) : (derivative (legendre n)).eval 1 = n * (n + 1) / 2 := by
  have := legendre_ode_at n 1
  rw [legendre_one] at this
  linarith

theorem legendre_deriv_neg_one (n : ℕ) : (derivative (legendre n)).eval (-1) = -((-1) ^ n * (n * (n + 1) / 2)) := by
  have := legendre_ode_at n (-1)
  rw [legendre_neg_one] at this
  linarith

/-- Inside `(-1, 1)` a Legendre polynomial that is not constant is below one. -/
theorem legendre_lt_one {n : ℕ} (hn : 1 ≤ n) {x : ℝ} (h0 : -1 < x) (h1 : x < 1) : (legendre n).eval x < 1 := by
  obtain ⟨b, hb⟩ : ∃ b : ℝ, b = n * (n + 1) := ⟨_, rfl⟩
  have hn' : (0 : ℝ) < n := by exact_mod_cast hn
  have hb0 : 0 < b := by rw [hb]; positivity
  obtain ⟨F, hF⟩ : ∃ F : ℝ[X], F = C b * legendre n ^ 2 + (1 - X ^ 2) * derivative (legendre n) ^ 2 := ⟨_, rfl⟩
  have hd : ∀ y, (derivative F).eval y = 2 * y * (derivative (legendre n)).eval y ^ 2 := by
    intro y
    have h := legendre_ode_at n y
    rw [← hb] at h
    rw [hF]
    simp only [derivative_add, derivative_mul, derivative_sub, derivative_one, derivative_X_pow, derivative_C, derivative_pow, eval_add, eval_mul,
      eval_sub, eval_C, eval_pow, eval_X, eval_one, eval_zero]
    norm_num
    linear_combination 2 * (derivative (legendre n)).eval y * h
  have hi := fun a c => integ_derivative a c F
  simp only [integ, hd] at hi
  have F1 : F.eval 1 = b := by rw [hF]; simp [legendre_one]
  have Fm : F.eval (-1) = b := by
    rw [hF]
    simp [legendre_neg_one]
    rw [← pow_mul, mul_comm n 2, pow_mul]
    norm_num
  have hlt : F.eval x < b := by
    rcases le_or_gt 0 x with h | h
    · have hpos : 0 < ∫ y in x..1, 2 * y * (derivative (legendre n)).eval y ^ 2 := by
        refine intervalIntegral.integral_pos h1 (by fun_prop) (fun y hy => ?_) ⟨1, ⟨h1.le, le_rfl⟩, ?_⟩
        · have : 0 ≤ y := by linarith [hy.1]
          positivity
        · rw [legendre_deriv_one]
          positivity
      rw [hi, F1] at hpos
      linarith
    · have hpos : 0 < ∫ y in (-1 : ℝ)..x, -(2 * y * (derivative (legendre n)).eval y ^ 2) := by
        refine intervalIntegral.integral_pos h0 (by fun_prop) (fun y hy => ?_) ⟨-1, ⟨le_rfl, h0.le⟩, ?_⟩
        · have : 0 ≤ -y := by linarith [hy.2]
          nlinarith [sq_nonneg ((derivative (legendre n)).eval y)]
        · rw [legendre_deriv_neg_one]
          have : 0 < ((-1) ^ n * ((n : ℝ) * (n + 1) / 2)) ^ 2 := by
            rw [mul_pow, ← pow_mul, mul_comm n 2, pow_mul]
            norm_num
            positivity
          nlinarith
      rw [intervalIntegral.integral_neg, hi, Fm] at hpos
      linarith
  rw [hF] at hlt
  simp only [eval_add, eval_mul, eval_C, eval_pow, eval_sub, eval_one, eval_X] at hlt
  have hx : 0 ≤ (1 - x ^ 2) * (derivative (legendre n)).eval x ^ 2 := mul_nonneg (by nlinarith) (sq_nonneg _)
  have : (legendre n).eval x ^ 2 < 1 := by
    by_contra hc
    push Not at hc
    nlinarith
  nlinarith

/-! ## Jacobi schemes of order two -/

/-- What is left of `1 - P` without the factor `1 - τ`. -/
theorem quotient_exists {P : ℝ[X]} (h : P.eval 1 = 1) : ∃ g : ℝ[X], 1 - P = (1 - X) * g := by
  have : X - C 1 ∣ 1 - P := by
    rw [dvd_iff_isRoot, IsRoot, eval_sub, eval_one, h, sub_self]
  obtain ⟨g, hg⟩ := this
  refine ⟨-g, ?_⟩
  rw [hg, C_1]
  ring

theorem quotient_pos {P g : ℝ[X]} (h : 1 - P = (1 - X) * g) (hlt : ∀ x, -1 < x → x < 1 → P.eval x < 1) (hd : 0 < (derivative P).eval 1)
    {x : ℝ} (h0 : -1 < x) (h1 : x ≤ 1) : 0 < g.eval x := by
  rcases lt_or_eq_of_le h1 with h1 | rfl
  · have e := congrArg (eval x) h
    simp only [eval_sub, eval_one, eval_mul, eval_X] at e
    have := hlt x h0 h1
    by_contra hc
    push Not at hc
    nlinarith
  · have e := congrArg (eval 1) (congrArg derivative h)
    simp [derivative_mul] at e
    rw [← e]
    exact hd

theorem quotient_left {P g : ℝ[X]} (h : 1 - P = (1 - X) * g) : g.eval (-1) = (1 - P.eval (-1)) / 2 := by
  have e := congrArg (eval (-1)) h
  simp only [eval_sub, eval_one, eval_mul, eval_X] at e
  linarith

theorem quotient_deg {P g : ℝ[X]} {N : ℕ} (h : 1 - P = (1 - X) * g) (hP : P.natDegree ≤ N) : g.natDegree ≤ N - 1 := by
  by_cases hg : g = 0
  · simp [hg]
  have hX : (1 - X : ℝ[X]) ≠ 0 := fun h => by
    have := congrArg (eval 0) h
    simp at this
  have hX1 : (1 - X : ℝ[X]).natDegree = 1 := by
    rw [← natDegree_neg, neg_sub, show (1 : ℝ[X]) = C 1 from C_1.symm, natDegree_X_sub_C]
  have e := congrArg natDegree h
  rw [natDegree_mul hX hg, hX1] at e
  have : (1 - P).natDegree ≤ N := (natDegree_sub_le _ _).trans (by simpa using hP)
  omega

theorem degree_of_le {p : ℝ[X]} {m n : ℕ} (h : p.natDegree ≤ m) (hmn : m < n) : p.degree < n :=
  lt_of_le_of_lt degree_le_natDegree (Nat.cast_lt.2 (by omega))

theorem basis_natDegree {N : ℕ} {x : ℕ → ℝ} (hd : Distinct N x) {i : ℕ} (hi : i < N) : (Lagrange.basis (range N) x i).natDegree ≤ N - 1 := by
  have := Lagrange.degree_basis hd.injOn (mem_range.2 hi)
  rw [card_range] at this
  exact natDegree_le_of_degree_le (le_of_eq (by simpa using this))

theorem basis_sum {N : ℕ} {x : ℕ → ℝ} (hd : Distinct N x) {i : ℕ} (hi : i < N) (u : ℕ → ℝ) (q : ℝ[X]) :
    ∑ j ∈ range N, u j * (q * Lagrange.basis (range N) x i).eval (x j) = u i * q.eval (x i) := by
  rw [sum_eq_single_of_mem i (mem_range.2 hi) fun j hj hji => by
    rw [eval_mul, Lagrange.eval_basis_of_ne hji.symm hj, mul_zero, mul_zero], eval_mul, Lagrange.eval_basis_self hd.injOn (mem_range.2 hi), mul_one]

theorem basis_weight {N : ℕ} {x w : ℕ → ℝ} (hd : Distinct N x)
    (hw : ∀ p : ℝ[X], p.degree < N → ∑ i ∈ range N, w i * p.eval (x i) = ∫ x in (-1 : ℝ)..1, p.eval x) {i : ℕ} (hi : i < N) :
    w i = integ (-1) 1 (Lagrange.basis (range N) x i) := by
  have h1 := hw _ (degree_of_le (basis_natDegree hd hi) (by omega))
  have h2 := basis_sum hd hi w 1
  simp only [one_mul, eval_one, mul_one] at h2
  rw [← h2, h1, integ]

theorem integ_sub (a b : ℝ) (p q : ℝ[X]) : integ a b (p - q) = integ a b p - integ a b q := by
  have := integ_add a b (p - q) q
  rw [sub_add_cancel] at this
  linarith

/-- The weights for 1 at points with a rule against `1 - τ` that is exact below degree `2N - 1`. -/
theorem weight_quotient {N : ℕ} (hN : 1 ≤ N) {x c w : ℕ → ℝ} (hd : Distinct N x)
    (hc : ∀ p : ℝ[X], p.degree < (2 * N - 1 : ℕ) → ∑ i ∈ range N, c i * p.eval (x i) = ∫ x in (-1 : ℝ)..1, (1 - x) ^ 1 * p.eval x)
    (hw : ∀ p : ℝ[X], p.degree < N → ∑ i ∈ range N, w i * p.eval (x i) = ∫ x in (-1 : ℝ)..1, p.eval x) {g : ℝ[X]}
    (hg : 1 - legendre N = (1 - X) * g) {i : ℕ} (hi : i < N) : w i = c i * g.eval (x i) := by
  obtain ⟨l, hl⟩ : ∃ l, l = Lagrange.basis (range N) x i := ⟨_, rfl⟩
  have hld : l.natDegree ≤ N - 1 := by rw [hl]; exact basis_natDegree hd hi
  have hgd := quotient_deg hg (le_of_eq (legendre_threeTerm.deg N))
  have h1 := hc (g * l) (degree_of_le (natDegree_mul_le.trans (add_le_add hgd hld)) (by omega))
  rw [hl, basis_sum hd hi c g, ← hl] at h1
  rw [h1, basis_weight hd hw hi, ← hl]
  have e : ∀ y : ℝ, (1 - y) ^ 1 * (g * l).eval y = (l - legendre N * l).eval y := by
    intro y
    have := congrArg (eval y) hg
    simp only [eval_sub, eval_one, eval_mul, eval_X] at this ⊢
    linear_combination (-(l.eval y)) * this
  simp only [e]
  have := integ_sub (-1) 1 l (legendre N * l)
  rw [legendre_orth_lt N le_rfl (degree_of_le hld (by omega)), sub_zero] at this
  exact this.symm

/-- The same for Lobatto points, with a rule that is exact below degree `2N - 2`. -/
theorem weight_lobatto {N : ℕ} (hN : 2 ≤ N) {L : List ℝ} (hL : Shape true true N L) {c w : ℕ → ℝ} (hd : Distinct N (arr L))
    (hc : ∀ p : ℝ[X], p.degree < (2 * N - 2 : ℕ) → ∑ i ∈ range N, c i * p.eval (arr L i) = ∫ x in (-1 : ℝ)..1, (1 - x) ^ 1 * p.eval x)
    (hw : ∀ p : ℝ[X], p.degree < N → ∑ i ∈ range N, w i * p.eval (arr L i) = ∫ x in (-1 : ℝ)..1, p.eval x) :
    ∃ g : ℝ[X], (∀ x, -1 ≤ x → x ≤ 1 → 0 < g.eval x) ∧ ∀ i < N, w i = c i * g.eval (arr L i) := by
  -- the error in the next degree
  obtain ⟨κ, hκ, herr⟩ : ∃ κ : ℝ, 0 < κ ∧ ∀ p : ℝ[X], p.natDegree ≤ 2 * N - 2 →
      ∑ i ∈ range N, c i * p.eval (arr L i) = integ (-1) 1 ((1 - X) * p) + κ * p.coeff (2 * N - 2) := by
    have hLN := hL.length
    have hmem : ∀ i < N, arr L i ∈ L := fun k hk => by
      rw [arr, List.getD_eq_getElem?_getD, List.getElem?_eq_getElem (by omega), Option.getD_some]
      exact List.getElem_mem _
    obtain ⟨n, inner, h1, h2, h3⟩ := hL
    simp at h2
    obtain ⟨ρ, hρ⟩ : ∃ ρ : ℝ[X], ρ = ((inner : Multiset ℝ).map fun y => X - C y).prod := ⟨_, rfl⟩
    have hρm : ρ.Monic := by
      rw [hρ]
      exact monic_multiset_prod_of_monic _ _ fun y _ => monic_X_sub_C y
    have hρd : ρ.natDegree = n := by
      rw [hρ, natDegree_multiset_prod_X_sub_C_eq_card, Multiset.coe_card, h1.1]
    obtain ⟨M, hM⟩ : ∃ M : ℝ[X], M = (X ^ 2 - C 1) * (ρ * ρ) := ⟨_, rfl⟩
    have hqm : (X ^ 2 - C (1 : ℝ)).Monic := monic_X_pow_sub_C _ (by norm_num)
    have hMm : M.Monic := by rw [hM]; exact hqm.mul (hρm.mul hρm)
    have hMd : M.natDegree = 2 * N - 2 := by
      rw [hM, hqm.natDegree_mul (hρm.mul hρm), hρm.natDegree_mul hρm, natDegree_X_pow_sub_C, hρd]
      omega
    have hMz : ∀ i < N, M.eval (arr L i) = 0 := by
      intro i hi
      have := hmem i hi
      obtain ⟨y, hy⟩ : ∃ y, y = arr L i := ⟨_, rfl⟩
      rw [← hy] at this ⊢
      rw [h3] at this
      simp at this
      rw [hM]
      simp only [eval_mul, eval_sub, eval_pow, eval_X, eval_C]
      rcases this with h | h | h
      · rw [h]; norm_num
      · have : ρ.eval y = 0 := by
          have hr : ρ.roots = (inner : Multiset ℝ) := by rw [hρ, roots_multiset_prod_X_sub_C]
          have : y ∈ ρ.roots := by rw [hr]; exact Multiset.mem_coe.2 h
          exact (mem_roots'.1 this).2
        rw [this]; ring
      · rw [h]; norm_num
    obtain ⟨κ, hκ⟩ : ∃ κ : ℝ, κ = -integ (-1) 1 ((1 - X) * M) := ⟨_, rfl⟩
    refine ⟨κ, ?_, ?_⟩
    · have e : κ = ∫ x in (-1 : ℝ)..1, (1 - x) * ((1 - x ^ 2) * (ρ.eval x * ρ.eval x)) := by
        rw [hκ, integ, ← intervalIntegral.integral_neg]
        refine intervalIntegral.integral_congr fun x _ => ?_
        rw [hM]
        simp only [eval_mul, eval_sub, eval_one, eval_X, eval_pow, eval_C]
        ring
      rw [e]
      obtain ⟨y, hy, hy0⟩ : ∃ y ∈ Set.Ioo (-1 : ℝ) 1, ρ.eval y ≠ 0 := by
        by_contra hc
        push Not at hc
        exact hρm.ne_zero (eq_zero_of_infinite_isRoot ρ ((Set.Ioo_infinite (by norm_num : (-1 : ℝ) < 1)).mono (fun x hx => hc x hx)))
      refine intervalIntegral.integral_pos (by norm_num) (by fun_prop) (fun x hx => ?_) ⟨y, ⟨hy.1.le, hy.2.le⟩, ?_⟩
      · exact mul_nonneg (by linarith [hx.2]) (mul_nonneg (by nlinarith [hx.1, hx.2]) (mul_self_nonneg _))
      · exact mul_pos (by linarith [hy.2]) (mul_pos (by nlinarith [hy.1, hy.2]) (mul_self_pos.2 hy0))
    · intro p hp
      obtain ⟨a, ha⟩ : ∃ a, a = p.coeff (2 * N - 2) := ⟨_, rfl⟩
      have hq : (p - C a * M).degree < (2 * N - 2 : ℕ) := by
        rw [degree_lt_iff_coeff_zero]
        intro m hm
        rcases Nat.eq_or_lt_of_le hm with rfl | hm
        · have : M.coeff (2 * N - 2) = 1 := by rw [← hMd]; exact hMm
          rw [coeff_sub, coeff_C_mul, this, ha]
          ring
        · rw [coeff_sub, coeff_C_mul, coeff_eq_zero_of_natDegree_lt (by omega), coeff_eq_zero_of_natDegree_lt (by rw [hMd]; omega)]
          ring
      have e1 := hc _ hq
      have e2 : ∑ i ∈ range N, c i * (p - C a * M).eval (arr L i) = ∑ i ∈ range N, c i * p.eval (arr L i) :=
        sum_congr rfl fun i hi => by rw [eval_sub, eval_mul, hMz i (mem_range.1 hi)]; ring
      have e3 : (∫ x in (-1 : ℝ)..1, (1 - x) ^ 1 * (p - C a * M).eval x) = integ (-1) 1 ((1 - X) * p - C a * ((1 - X) * M)) := by
        rw [integ]
        refine intervalIntegral.integral_congr fun x _ => ?_
        simp only [eval_mul, eval_sub, eval_one, eval_X, eval_C]
        ring
      rw [e2, e3, integ_sub, integ_C_mul] at e1
      rw [e1, ← ha, hκ]
      ring
  -- the last coefficient
  obtain ⟨γ, hγ, hγe⟩ : ∃ γ : ℝ, 0 < γ ∧ ∀ q : ℝ[X], q.natDegree ≤ N - 1 → integ (-1) 1 (legendre (N - 1) * q) = γ * q.coeff (N - 1) := by
    have hlc := legendre_threeTerm.lc (N - 1)
    have hld := legendre_threeTerm.deg (N - 1)
    obtain ⟨a, ha⟩ : ∃ a, a = (legendre (N - 1)).leadingCoeff := ⟨_, rfl⟩
    rw [← ha] at hlc
    have hne : legendre (N - 1) ≠ 0 := fun h => by rw [h, leadingCoeff_zero] at ha; exact hlc.ne' ha
    refine ⟨integ (-1) 1 (legendre (N - 1) * legendre (N - 1)) / a, div_pos (integ_sq_pos hne) hlc, fun q hq => ?_⟩
    obtain ⟨b, hb⟩ : ∃ b, b = q.coeff (N - 1) / a := ⟨_, rfl⟩
    have hr : (q - C b * legendre (N - 1)).degree < (N - 1 : ℕ) := by
      rw [degree_lt_iff_coeff_zero]
      intro m hm
      rcases Nat.eq_or_lt_of_le hm with rfl | hm
      · have : (legendre (N - 1)).coeff (N - 1) = a := by rw [ha, leadingCoeff, hld]
        rw [coeff_sub, coeff_C_mul, this, hb, div_mul_cancel₀ _ hlc.ne', sub_self]
      · rw [coeff_sub, coeff_C_mul, coeff_eq_zero_of_natDegree_lt (by omega), coeff_eq_zero_of_natDegree_lt (by rw [hld]; omega)]
        ring
    have e : legendre (N - 1) * q = legendre (N - 1) * (q - C b * legendre (N - 1)) + C b * (legendre (N - 1) * legendre (N - 1)) := by ring
    rw [e, integ_add, legendre_orth_lt (N - 1) le_rfl hr, integ_C_mul, hb]
    ring
  obtain ⟨a, ha⟩ : ∃ a, a = (legendre N).leadingCoeff := ⟨_, rfl⟩
  have ha0 : 0 < a := by rw [ha]; exact legendre_threeTerm.lc N
  obtain ⟨θ, hθ⟩ : ∃ θ, θ = κ * a / (γ + κ * a) := ⟨_, rfl⟩
  have hden : 0 < γ + κ * a := by positivity
  have hθ0 : 0 < θ := by rw [hθ]; positivity
  have hθ1 : 0 < 1 - θ := by
    rw [hθ, show 1 - κ * a / (γ + κ * a) = γ / (γ + κ * a) by field_simp; ring]
    positivity
  have hbal : θ * γ = κ * ((1 - θ) * a) := by
    rw [hθ]
    field_simp
    ring
  obtain ⟨P, hP⟩ : ∃ P : ℝ[X], P = C θ * legendre (N - 1) + C (1 - θ) * legendre N := ⟨_, rfl⟩
  obtain ⟨g, hg⟩ := quotient_exists (P := P) (by rw [hP]; simp [legendre_one])
  have hPd : P.natDegree ≤ N := by
    rw [hP]
    refine (natDegree_add_le _ _).trans (max_le ?_ ?_)
    · refine (natDegree_C_mul_le _ _).trans ?_
      rw [legendre_threeTerm.deg]; omega
    · refine (natDegree_C_mul_le _ _).trans ?_
      rw [legendre_threeTerm.deg]
  have hgd := quotient_deg hg hPd
  have hgc : g.coeff (N - 1) = (1 - θ) * a := by
    have e := congrArg (fun q => q.coeff N) hg
    simp only [sub_mul, one_mul, coeff_sub] at e
    obtain ⟨n, rfl⟩ : ∃ n, N = n + 1 := ⟨N - 1, by omega⟩
    rw [coeff_X_mul, coeff_eq_zero_of_natDegree_lt (p := g) (by omega), hP, coeff_add, coeff_C_mul, coeff_C_mul,
      coeff_eq_zero_of_natDegree_lt (p := legendre (n + 1 - 1)) (by rw [legendre_threeTerm.deg]; omega)] at e
    have h1 : (legendre (n + 1)).coeff (n + 1) = a := by rw [ha, leadingCoeff, legendre_threeTerm.deg]
    have h2 : (1 : ℝ[X]).coeff (n + 1) = 0 := by rw [coeff_one]; simp
    rw [h1, h2] at e
    simp only [Nat.add_sub_cancel]
    linarith
  refine ⟨g, fun x h0 h1 => ?_, fun i hi => ?_⟩
  · rcases lt_or_eq_of_le h0 with h0 | rfl
    · refine quotient_pos hg (fun y y0 y1 => ?_) ?_ h0 h1
      · have := legendre_lt_one (n := N - 1) (by omega) y0 y1
        have := legendre_lt_one (n := N) (by omega) y0 y1
        rw [hP]
        simp only [eval_add, eval_mul, eval_C]
        nlinarith
      · have n1 : (0 : ℝ) ≤ ((N - 1 : ℕ) : ℝ) := Nat.cast_nonneg _
        have n0 : (0 : ℝ) < N := by exact_mod_cast (by omega : 0 < N)
        rw [hP, derivative_add, derivative_C_mul, derivative_C_mul]
        simp only [eval_add, eval_mul, eval_C, legendre_deriv_one]
        positivity
    · rw [quotient_left hg, hP]
      simp only [eval_add, eval_mul, eval_C, legendre_neg_one]
      obtain ⟨n, rfl⟩ : ∃ n, N = n + 1 := ⟨N - 1, by omega⟩
      simp only [Nat.add_sub_cancel, pow_succ]
      rcases neg_one_pow_eq_or ℝ n with h | h <;> rw [h] <;> linarith
  · obtain ⟨l, hl⟩ : ∃ l, l = Lagrange.basis (range N) (arr L) i := ⟨_, rfl⟩
    have hld : l.natDegree ≤ N - 1 := by rw [hl]; exact basis_natDegree hd hi
    have h1 := herr (g * l) (natDegree_mul_le.trans (by omega))
    have hco : (g * l).coeff (2 * N - 2) = g.coeff (N - 1) * l.coeff (N - 1) := by
      rw [show 2 * N - 2 = (N - 1) + (N - 1) by omega]
      exact coeff_mul_add_eq_of_natDegree_le hgd hld
    rw [hco, hgc, hl, basis_sum hd hi c g, ← hl] at h1
    rw [h1, basis_weight hd hw hi, ← hl]
    have e : (1 - X) * (g * l) = l - (C θ * (legendre (N - 1) * l) + C (1 - θ) * (legendre N * l)) := by
      rw [← mul_assoc, ← hg, hP]
      ring
    rw [e, integ_sub, integ_add, integ_C_mul, integ_C_mul, hγe l hld, legendre_orth_lt N le_rfl (degree_of_le hld (by omega))]
    linear_combination (l.coeff (N - 1)) * hbal

/-! ## The schemes -/

theorem lost_ends {scheme : String} (hs : scheme ∈ legendreSchemes ++ jacobiSchemes) :
    lost scheme = (decide (scheme ∈ withStart)).toNat + (decide (scheme ∈ withEnd)).toNat := by
  revert hs
  simp only [legendreSchemes, jacobiSchemes, List.cons_append, List.nil_append, List.mem_cons, List.not_mem_nil, or_false]
  rintro (rfl | rfl | rfl | rfl | rfl | rfl | rfl | rfl | rfl | rfl | rfl | rfl | rfl) <;> decide

theorem family_implemented {scheme : String} (hs : scheme ∈ legendreSchemes ++ jacobiSchemes) : scheme ∈ implemented := by
  revert hs
  simp only [legendreSchemes, jacobiSchemes, implemented_eq, List.cons_append, List.nil_append, List.mem_cons, List.not_mem_nil, or_false]
  tauto

/-- Legendre schemes, and Jacobi schemes of order one, which have the same points. -/
theorem pos_family {scheme : String} (hs : scheme ∈ legendreSchemes ++ jacobiSchemes) {order : ℕ} (ho : 1 ≤ order)
    (hj : scheme ∈ jacobiSchemes → order = 1) {N : ℕ} (hN : minPoints scheme ≤ N) {coll : List ℝ} (hcoll : collPoints N scheme order = .ok coll)
    {w : ℕ → ℝ} (hw : ∀ p : ℝ[X], p.degree < N → ∑ i ∈ range N, w i * p.eval (arr coll i) = ∫ x in (-1 : ℝ)..1, p.eval x) :
    ∀ i < N, 0 < w i := by
  obtain ⟨L, k1, k2⟩ := coll_shape (family_implemented hs) ho hN
  obtain ⟨L', g1, -, g3⟩ := C168_jacobi hs ho hN
  rw [hcoll] at k1 g1
  obtain rfl := Except.ok.inj k1
  obtain rfl := Except.ok.inj g1
  have e : (if scheme ∈ jacobiSchemes then order - 1 else 0) = 0 := by
    split_ifs with h
    · rw [hj h]
    · rfl
  rw [e] at g3
  have := g3 w (by simpa using hw)
  rw [lost_ends hs] at this
  exact rule_pos_power k2 this

/-- Jacobi schemes of order two, but for the first point of "JGR". -/
theorem pos_jacobi_two {scheme : String} (hs : scheme ∈ jacobiSchemes) {N : ℕ} (hN : minPoints scheme ≤ N) {coll : List ℝ}
    (hcoll : collPoints N scheme 2 = .ok coll)
    {w : ℕ → ℝ} (hw : ∀ p : ℝ[X], p.degree < N → ∑ i ∈ range N, w i * p.eval (arr coll i) = ∫ x in (-1 : ℝ)..1, p.eval x) :
    (∀ i < N, (scheme = "JGR" → i ≠ 0) → 0 < w i) ∧ (scheme = "JGR" → (Even N → w 0 = 0) ∧ (Odd N → 0 < w 0)) := by
  have hs' : scheme ∈ legendreSchemes ++ jacobiSchemes := List.mem_append_right _ hs
  obtain ⟨L, k1, k2⟩ := coll_shape (family_implemented hs') (order := 2) (by omega) hN
  obtain ⟨L', g1, ⟨c, g2⟩, g3⟩ := C168_jacobi hs' (order := 2) (by omega) hN
  obtain ⟨L'', d1, -, d2⟩ := coll_distinct (family_implemented hs') (order := 2) (by omega) hN
  rw [hcoll] at k1 g1 d1
  obtain rfl := Except.ok.inj k1
  obtain rfl := Except.ok.inj g1
  obtain rfl := Except.ok.inj d1
  simp only [hs, if_true] at g2 g3
  have hc := g3 c g2
  have hN1 : 1 ≤ N := le_trans (minPoints_pos scheme) hN
  have hcpos : ∀ i < N, 0 < c i := rule_pos_power k2 (by rw [← lost_ends hs']; exact hc)
  by_cases hL : scheme = "JGL"
  · subst hL
    have hN2 : 2 ≤ N := by simpa [minPoints] using hN
    have sh : Shape true true N coll := by simpa [withStart, withEnd] using k2
    obtain ⟨g, q1, q2⟩ := weight_lobatto hN2 sh d2 (c := c) (by simpa [lost] using hc) hw
    refine ⟨fun i hi _ => ?_, fun h => absurd h (by decide)⟩
    rw [q2 i hi]
    have := shape_arr sh hi
    exact mul_pos (hcpos i hi) (q1 _ this.1 this.2)
  · have hlost : lost scheme ≤ 1 := by
      revert hs hL
      simp only [jacobiSchemes, List.mem_cons, List.not_mem_nil, or_false]
      rintro (rfl | rfl | rfl | rfl | rfl | rfl) hL <;> first | decide | exact absurd rfl hL
    obtain ⟨g, hg⟩ := quotient_exists (legendre_one N)
    have hq : ∀ i < N, w i = c i * g.eval (arr coll i) := fun i hi =>
      weight_quotient hN1 d2 (fun p hp => hc p (hp.trans_le (by
        have : 2 * N - 1 ≤ 2 * N - lost scheme := by omega
        exact_mod_cast this))) hw hg hi
    have hgp : ∀ x, -1 < x → x ≤ 1 → 0 < g.eval x := fun x h0 h1 =>
      quotient_pos hg (fun y y0 y1 => legendre_lt_one hN1 y0 y1) (by
        have : (0 : ℝ) < N := by exact_mod_cast hN1
        rw [legendre_deriv_one]
        positivity) h0 h1
    have hlen := k2.length
    constructor
    · intro i hi h0
      rw [hq i hi]
      have hb := shape_arr k2 hi
      refine mul_pos (hcpos i hi) (hgp _ (lt_of_le_of_ne hb.1 fun e => ?_) hb.2)
      have hmem : (-1 : ℝ) ∈ coll := by
        rw [e, arr, List.getD_eq_getElem?_getD, List.getElem?_eq_getElem (by omega), Option.getD_some]
        exact List.getElem_mem _
      have hst : scheme ∈ withStart := by simpa using k2.left_mem.1 hmem
      have hJ : scheme = "JGR" := by
        revert hs hL hst
        simp only [jacobiSchemes, List.mem_cons, List.not_mem_nil, or_false]
        rintro (rfl | rfl | rfl | rfl | rfl | rfl) hL hst <;> first | rfl | exact absurd rfl hL | exact absurd hst (by decide)
      have h00 : arr coll 0 = -1 := by
        subst hJ
        simp [collPoints] at hcoll
        rw [← hcoll]
        simp [JGR, arr]
      exact h0 hJ (d2 i hi 0 (by omega) (by rw [← e, h00]))
    · rintro rfl
      have h00 : arr coll 0 = -1 := by
        simp [collPoints] at hcoll
        rw [← hcoll]
        simp [JGR, arr]
      have e := hq 0 (by omega)
      rw [h00, quotient_left hg, legendre_neg_one] at e
      refine ⟨fun h => ?_, fun h => ?_⟩
      · rw [e, h.neg_one_pow]; ring
      · rw [e, h.neg_one_pow]
        have := hcpos 0 (by omega)
        linarith

/-- Chebyshev schemes. -/
def chebSchemes : List String := ["CG", "CG_inv", "CG2", "CGR", "CGR_inv", "CGL"]

theorem pos_chebyshev {scheme : String} (hs : scheme ∈ chebSchemes) {order : ℕ} (ho : 1 ≤ order) {N : ℕ} (hN : minPoints scheme ≤ N)
    {coll : List ℝ} (hcoll : collPoints N scheme order = .ok coll)
    {w : ℕ → ℝ} (hw : ∀ p : ℝ[X], p.degree < N → ∑ i ∈ range N, w i * p.eval (arr coll i) = ∫ x in (-1 : ℝ)..1, p.eval x) :
    ∀ i < N, 0 < w i := by
  have hi : scheme ∈ implemented := by
    revert hs
    simp only [chebSchemes, implemented_eq, List.mem_cons, List.not_mem_nil, or_false]
    tauto
  obtain ⟨L, k1, k2⟩ := coll_shape hi ho hN
  obtain ⟨L', g1, c, g2, g3⟩ := C168_chebyshev hs order hN
  obtain ⟨L'', d1, -, d2⟩ := coll_distinct hi ho hN
  rw [hcoll] at k1 g1 d1
  obtain rfl := Except.ok.inj k1
  obtain rfl := Except.ok.inj g1
  obtain rfl := Except.ok.inj d1
  simp only [← chebInt_eq] at g3
  have hN1 : 1 ≤ N := le_trans (minPoints_pos scheme) hN
  rcases Nat.eq_or_lt_of_le hN1 with rfl | hN2
  · intro i hi'
    obtain rfl : i = 0 := by omega
    have := hw 1 (by rw [degree_one]; norm_num)
    simp at this
    rw [this]
    norm_num
  have hl : lost scheme ≤ 2 := by unfold lost; split_ifs <;> omega
  refine cheb_pos hN2 g2 (fun i hi => shape_arr k2 hi) d2 (fun p hp => g3 p (hp.trans_le (by
    have : 2 * N - 2 ≤ 2 * N - lost scheme := by omega
    exact_mod_cast this))) ?_ hw
  have hdeg : (Chebyshev.T ℝ ((N - 1 : ℕ) : ℤ) * Chebyshev.T ℝ ((N - 1 : ℕ) : ℤ)).degree ≤ (2 * N - 2 : ℕ) := by
    rw [degree_mul, Chebyshev.degree_T]
    simp only [Int.natAbs_natCast]
    have : N - 1 + (N - 1) ≤ 2 * N - 2 := by omega
    exact_mod_cast this
  by_cases hL : scheme = "CGL"
  · subst hL
    have hone : ∀ i < N, (Chebyshev.T ℝ ((N - 1 : ℕ) : ℤ)).eval (arr coll i) ^ 2 = 1 := by
      intro i hi
      have e : arr coll i = Real.cos (Real.pi - Real.pi * (i : ℝ) / ((N : ℝ) - 1)) := by
        simp [collPoints] at hcoll
        rw [← hcoll, CGL_eq hN2, arr_range_map N _ hi, Real.cos_pi_sub]
      have hN0 : (N : ℝ) - 1 ≠ 0 := by
        have : (1 : ℝ) < N := by exact_mod_cast hN2
        linarith
      rw [e, Chebyshev.T_real_cos]
      have : (((N - 1 : ℕ) : ℤ) : ℝ) * (Real.pi - Real.pi * (i : ℝ) / ((N : ℝ) - 1)) = ((N - 1 - i : ℕ) : ℝ) * Real.pi := by
        rw [Int.cast_natCast, Nat.cast_sub (by omega : i ≤ N - 1), Nat.cast_sub (by omega : 1 ≤ N), Nat.cast_one]
        field_simp
      rw [this, Real.cos_nat_mul_pi, ← pow_mul, mul_comm _ 2, pow_mul]
      norm_num
    rw [sum_congr rfl fun i hi => by rw [hone i (mem_range.1 hi), mul_one]]
    have := g3 1 (by
      rw [degree_one]
      have : 0 < 2 * N - lost "CGL" := by simp [lost]; omega
      exact_mod_cast this)
    simp only [eval_one, mul_one] at this
    rw [this, chebInt]
    have e := Chebyshev.integral_eval_T_real_measureT_zero
    simp only [Chebyshev.T_zero] at e
    rw [e]
    linarith [Real.pi_pos]
  · have hl1 : lost scheme ≤ 1 := by
      revert hs hL
      simp only [chebSchemes, List.mem_cons, List.not_mem_nil, or_false]
      rintro (rfl | rfl | rfl | rfl | rfl | rfl) hL <;> first | decide | exact absurd rfl hL
    have := g3 _ (hdeg.trans_lt (by
      have : 2 * N - 2 < 2 * N - lost scheme := by omega
      exact_mod_cast this))
    rw [chebInt] at this
    simp only [eval_mul] at this
    rw [Chebyshev.integral_T_real_mul_self_measureT_of_ne_zero (by omega)] at this
    rw [← this]
    exact le_of_eq (sum_congr rfl fun i _ => by ring)

/-- "LGLm". -/
theorem pos_LGLm {N : ℕ} (hN : 1 ≤ N) {w : ℕ → ℝ}
    (hw : ∀ p : ℝ[X], p.degree < N → ∑ i ∈ range N, w i * p.eval (arr (LGLm N) i) = ∫ x in (-1 : ℝ)..1, p.eval x) : ∀ i < N, 0 < w i := by
  intro i hi
  have sh := LGLm_shape N
  have hd : Distinct N (arr (LGLm N)) := by
    have := distinct_arr sh.sorted
    rwa [sh.length] at this
  have hmid : ∀ j < N, arr (LGL (N + 2)) (j + 1) = arr (LGLm N) j := by
    intro j hj
    have hlen : (realRoots (derivative (legendre (N + 1)))).length = N := (legendre_deriv_roots N).1
    have e1 : LGLm N = realRoots (derivative (legendre (N + 1))) := by simp [LGLm, LGL]
    have e2 : LGL (N + 2) = -1 :: (realRoots (derivative (legendre (N + 1))) ++ [1]) := by simp [LGL]
    rw [e1, e2, arr, arr, List.getD_cons_succ, List.getD_eq_getElem?_getD, List.getElem?_append_left (by omega), List.getD_eq_getElem?_getD]
  have h0 : arr (LGL (N + 2)) 0 = -1 := by simp [LGL, arr]
  have h1 : arr (LGL (N + 2)) (N + 1) = 1 := by
    have hlen : (realRoots (derivative (legendre (N + 1)))).length = N := (legendre_deriv_roots N).1
    have e2 : LGL (N + 2) = -1 :: (realRoots (derivative (legendre (N + 1))) ++ [1]) := by simp [LGL]
    rw [e2, arr, List.getD_cons_succ, List.getD_eq_getElem?_getD, List.getElem?_append_right (by omega), hlen]
    simp
  obtain ⟨L, lam, c1, -, c3⟩ := C168_weights (scheme := "LGL") (by decide) (order := 2) (by omega) (N := N + 2) (by simp [minPoints])
  have hLe : L = LGL (N + 2) := by
    simp [collPoints] at c1
    exact c1.symm
  subst hLe
  rw [show 2 * (N + 2) - lost "LGL" = 2 * N + 2 by rw [show lost "LGL" = 2 by decide]; omega] at c3
  have hlam : ∀ j < N + 2, 0 < lam j := rule_pos (LGL_shape (by omega)) (by
    intro p hp
    exact c3 p (by rwa [show 2 * (N + 2) - (true.toNat + true.toNat) = 2 * N + 2 by simp; omega] at hp))
  obtain ⟨k, k1, k2, k3⟩ : ∃ k, N ≤ k ∧ k ≤ N + 1 ∧ Even k := by
    rcases Nat.even_or_odd N with h | h
    · exact ⟨N, le_rfl, by omega, h⟩
    · exact ⟨N + 1, by omega, le_rfl, h.add_one⟩
  obtain ⟨l, hl⟩ : ∃ l, l = Lagrange.basis (range N) (arr (LGLm N)) i := ⟨_, rfl⟩
  have hld : l.natDegree ≤ N - 1 := by rw [hl]; exact basis_natDegree hd hi
  have e := c3 ((1 - legendre k) * l) (degree_of_le (m := k + (N - 1)) (natDegree_mul_le.trans (add_le_add
    ((natDegree_sub_le _ _).trans (by rw [legendre_threeTerm.deg]; simp)) hld)) (by omega))
  rw [sum_range_succ, sum_range_succ', h0, h1] at e
  have z1 : ((1 - legendre k) * l).eval 1 = 0 := by simp [legendre_one]
  have z0 : ((1 - legendre k) * l).eval (-1) = 0 := by simp [legendre_neg_one, k3.neg_one_pow]
  rw [z0, z1, mul_zero, mul_zero, add_zero, add_zero, sum_congr rfl fun j hj => by rw [hmid j (mem_range.1 hj)], hl,
    basis_sum hd hi (fun j => lam (j + 1)), ← hl] at e
  have e' : integ (-1) 1 ((1 - legendre k) * l) = w i := by
    rw [sub_mul, one_mul, integ_sub, legendre_orth_lt k le_rfl (degree_of_le hld (by omega)), sub_zero, basis_weight hd hw hi, hl]
  rw [integ, ← e] at e'
  rw [← e']
  have hin := sh.mem (arr (LGLm N) i) (by
    rw [arr, List.getD_eq_getElem?_getD, List.getElem?_eq_getElem (by rw [sh.length]; omega), Option.getD_some]
    exact List.getElem_mem _)
  have hme : arr (LGLm N) i ∈ LGLm N := by
    rw [arr, List.getD_eq_getElem?_getD, List.getElem?_eq_getElem (by rw [sh.length]; omega), Option.getD_some]
    exact List.getElem_mem _
  have n0 : arr (LGLm N) i ≠ -1 := fun h => by
    have := sh.left_mem.1 (h ▸ hme)
    simp at this
  have n1 : arr (LGLm N) i ≠ 1 := fun h => by
    have := sh.right_mem.1 (h ▸ hme)
    simp at this
  have := legendre_lt_one (n := k) (by omega) (lt_of_le_of_ne hin.1 n0.symm) (lt_of_le_of_ne hin.2 n1)
  refine mul_pos (hlam _ (by omega)) ?_
  rw [eval_sub, eval_one]
  linarith

end Chords.Props
