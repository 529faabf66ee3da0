import Mathlib.Analysis.SpecialFunctions.Integrals.Basic
import Mathlib.Topology.Algebra.Order.Floor
import Mathlib.Analysis.SpecificLimits.Normed
import Verif.Lemmas.Conv
import Verif.Props.Costs
import Verif.Props.CostExact
import Verif.Props.CostPos

/-! # C183: the costs of smooth trajectories approach their integrals -/

namespace Chords.Conv
open Finset Polynomial Chords.Points Chords.Spec Chords.Bary Chords.Gauss Chords.TimeScale Chords.Props

/-! ## One interval -/

/-- A smooth function on a part of the horizon. -/
theorem Tower.part {D : ℕ → ℝ → ℝ} {n : ℕ} {T : ℝ} (hD : Tower D n T) {a h : ℝ} (ha : 0 ≤ a) (hT : a + h ≤ T) :
    Tower (fun k s => D k (a + s)) n h := by
  intro k hk s hs
  have h1 := hD k hk (a + s) ⟨by linarith [hs.1], by linarith [hs.2]⟩
  have h2 : HasDerivWithinAt (fun s : ℝ => a + s) 1 (Set.Icc 0 h) s := ((hasDerivAt_id s).const_add a).hasDerivWithinAt
  have := h1.comp s h2 (fun x hx => ⟨by linarith [hx.1], by linarith [hx.2]⟩)
  simpa [Function.comp_def] using this

theorem Tower.continuousOn {D : ℕ → ℝ → ℝ} {n : ℕ} {T : ℝ} (hn : 1 ≤ n) (hD : Tower D n T) : ContinuousOn (D 0) (Set.Icc 0 T) :=
  fun s hs => (hD 0 (by omega) s hs).continuousWithinAt

/-- A rule on `[-1, 1]` that is exact below degree `n`, moved to an interval of length `h`, with values that are `ε` away. -/
theorem rule_error {ι : Type} {S : Finset ι} {w c : ι → ℝ} {n : ℕ} (hn : 1 ≤ n) (hc : ∀ k ∈ S, c k ∈ Set.Icc (-1 : ℝ) 1)
    (hw : ∀ p : ℝ[X], p.degree < n → ∑ k ∈ S, w k * p.eval (c k) = ∫ x in (-1 : ℝ)..1, p.eval x) {Λ : ℝ} (hΛ : ∑ k ∈ S, |w k| ≤ Λ)
    {D : ℕ → ℝ → ℝ} {T K : ℝ} (hD : Tower D n T) (hK : ∀ s ∈ Set.Icc (0 : ℝ) T, |D n s| ≤ K) {a h : ℝ} (ha : 0 ≤ a) (hh : 0 ≤ h)
    (hT : a + h ≤ T) {v : ι → ℝ} {ε : ℝ} (hε : 0 ≤ ε) (hv : ∀ k ∈ S, |v k - D 0 (tauToT (c k) a (a + h))| ≤ ε) :
    |h * ∑ k ∈ S, w k * v k - 2 * ∫ t in a..(a + h), D 0 t| ≤ h * (Λ * ε + (Λ + 2) * (K * h ^ n / (Nat.factorial n : ℝ))) := by
  obtain ⟨R, hR⟩ : ∃ R, R = K * h ^ n / (Nat.factorial n : ℝ) := ⟨_, rfl⟩
  rw [← hR]
  have hK0 : 0 ≤ K := (abs_nonneg _).trans (hK 0 ⟨le_rfl, by linarith⟩)
  have hR0 : 0 ≤ R := by rw [hR]; positivity
  obtain ⟨P, hP⟩ : ∃ P : ℝ[X], P = ∑ i ∈ range n, C (D i a / (Nat.factorial i : ℝ)) * (X - C a) ^ i := ⟨_, rfl⟩
  have hPd : P.natDegree ≤ n - 1 := by
    rw [hP]
    refine natDegree_sum_le_of_forall_le _ _ fun i hi => ?_
    refine (natDegree_C_mul_le _ _).trans (natDegree_pow_le.trans ?_)
    rw [natDegree_X_sub_C]
    have := mem_range.1 hi
    omega
  have hPe : ∀ t ∈ Set.Icc a (a + h), |D 0 t - P.eval t| ≤ R := by
    intro t ht
    have := taylor (n := n) (K := K) (hD.part ha hT) (fun s hs => hK _ ⟨by linarith [hs.1], by linarith [hs.2]⟩) (t - a)
      ⟨by linarith [ht.1], by linarith [ht.2]⟩
    simp only [add_zero, add_sub_cancel, Real.norm_eq_abs, smul_eq_mul] at this
    have e : P.eval t = ∑ i ∈ range n, (t - a) ^ i / (Nat.factorial i : ℝ) * D i a := by
      rw [hP, eval_finsetSum]
      refine sum_congr rfl fun i _ => ?_
      simp only [eval_mul, eval_C, eval_pow, eval_sub, eval_X]
      ring
    rw [e]
    refine this.trans ?_
    rw [hR]
    have h1 : (t - a) ^ n ≤ h ^ n := pow_le_pow_left₀ (by linarith [ht.1]) (by linarith [ht.2]) n
    gcongr
  obtain ⟨q, q1, q2, q3⟩ := integ_time a (a + h) P
  have hqd : q.degree < n := degree_lt_of_natDegree (by omega)
  have hq := hw q hqd
  have e0 : 2 * ∫ t in a..(a + h), P.eval t = h * ∑ k ∈ S, w k * P.eval (tauToT (c k) a (a + h)) := by
    have : (∫ t in a..(a + h), P.eval t) = (a + h - a) / 2 * ∫ x in (-1 : ℝ)..1, q.eval x := q3
    rw [this, ← hq, sum_congr rfl fun k _ => by rw [q2 (c k)]]
    ring
  have hci : IntervalIntegrable (D 0) MeasureTheory.volume a (a + h) :=
    ((hD.continuousOn hn).mono (by
      rw [Set.uIcc_of_le (by linarith)]
      exact Set.Icc_subset_Icc ha hT)).intervalIntegrable
  have e1 : |∫ t in a..(a + h), (P.eval t - D 0 t)| ≤ R * h := by
    have := intervalIntegral.norm_integral_le_of_norm_le_const (a := a) (b := a + h) (C := R) (f := fun t => P.eval t - D 0 t) (fun t ht => by
      rw [Set.uIoc_of_le (by linarith)] at ht
      rw [Real.norm_eq_abs, abs_sub_comm]
      exact hPe t ⟨ht.1.le, ht.2⟩)
    rwa [Real.norm_eq_abs, add_sub_cancel_left, abs_of_nonneg hh] at this
  rw [intervalIntegral.integral_sub (P.continuous.intervalIntegrable _ _) hci] at e1
  have e2 : |∑ k ∈ S, w k * (v k - P.eval (tauToT (c k) a (a + h)))| ≤ Λ * (ε + R) := by
    refine (abs_sum_le_sum_abs _ _).trans ?_
    refine le_trans (sum_le_sum (g := fun k => |w k| * (ε + R)) fun k hk => ?_) ?_
    · rw [abs_mul]
      refine mul_le_mul_of_nonneg_left ?_ (abs_nonneg _)
      have hck := hc k hk
      have h1 := hPe (tauToT (c k) a (a + h)) ⟨by unfold tauToT; nlinarith [hck.1], by unfold tauToT; nlinarith [hck.2]⟩
      have h2 := hv k hk
      have : v k - P.eval (tauToT (c k) a (a + h))
        = (v k - D 0 (tauToT (c k) a (a + h))) + (D 0 (tauToT (c k) a (a + h)) - P.eval (tauToT (c k) a (a + h))) := by ring
      rw [this]
      exact (abs_add_le _ _).trans (add_le_add h2 h1)
    · rw [← sum_mul]
      exact mul_le_mul_of_nonneg_right hΛ (by linarith)
  have e3 : h * ∑ k ∈ S, w k * v k - 2 * ∫ t in a..(a + h), D 0 t
      = h * ∑ k ∈ S, w k * (v k - P.eval (tauToT (c k) a (a + h))) + 2 * ((∫ t in a..(a + h), P.eval t) - ∫ t in a..(a + h), D 0 t) := by
    simp only [mul_sub, sum_sub_distrib]
    rw [e0]
    ring
  rw [e3]
  refine (abs_add_le _ _).trans ?_
  rw [abs_mul, abs_mul, abs_of_nonneg hh, abs_two]
  nlinarith [mul_le_mul_of_nonneg_left e2 hh]

/-! ## Intervals of equal length -/

theorem composite_error {ι : Type} {S : Finset ι} {w c : ι → ℝ} {n : ℕ} (hn : 1 ≤ n) (hc : ∀ k ∈ S, c k ∈ Set.Icc (-1 : ℝ) 1)
    (hw : ∀ p : ℝ[X], p.degree < n → ∑ k ∈ S, w k * p.eval (c k) = ∫ x in (-1 : ℝ)..1, p.eval x) (hΛ : ∑ k ∈ S, |w k| ≤ 2)
    {D : ℕ → ℝ → ℝ} {T K : ℝ} (hD : Tower D n T) (hK : ∀ s ∈ Set.Icc (0 : ℝ) T, |D n s| ≤ K) {N : ℕ} (hN : 0 < N) (hT : 0 ≤ T)
    {v : ℕ → ι → ℝ} {ε : ℝ} (hε : 0 ≤ ε) (hv : ∀ i < N, ∀ k ∈ S, |v i k - D 0 ((i + (c k + 1) / 2) * (T / N))| ≤ ε) :
    |T / N / 2 * ∑ i ∈ range N, ∑ k ∈ S, w k * v i k - ∫ t in (0 : ℝ)..T, D 0 t|
      ≤ T * (ε + 2 * (K * (T / N) ^ n / (Nat.factorial n : ℝ))) := by
  obtain ⟨h, hh⟩ : ∃ h, h = T / N := ⟨_, rfl⟩
  rw [← hh]
  simp only [← hh] at hv
  have hN' : (0 : ℝ) < N := by exact_mod_cast hN
  have hTN : T = N * h := by rw [hh]; field_simp
  have hh0 : 0 ≤ h := by rw [hh]; positivity
  have hle : ∀ k, k ≤ N → (k : ℝ) * h ≤ T := fun k hk => by
    rw [hTN]
    exact mul_le_mul_of_nonneg_right (by exact_mod_cast hk) hh0
  have hint : ∀ k < N, IntervalIntegrable (D 0) MeasureTheory.volume ((k : ℕ) * h) (((k + 1 : ℕ) : ℝ) * h) := by
    intro k hk
    refine ((hD.continuousOn hn).mono ?_).intervalIntegrable
    rw [Set.uIcc_of_le (by push_cast; nlinarith)]
    exact Set.Icc_subset_Icc (by positivity) (hle _ hk)
  have hsum := intervalIntegral.sum_integral_adjacent_intervals (μ := MeasureTheory.volume) (f := D 0)
    (a := fun k : ℕ => (k : ℝ) * h) (n := N) hint
  simp only [Nat.cast_zero, zero_mul, ← hTN] at hsum
  rw [← hsum, mul_sum, ← sum_sub_distrib]
  refine (abs_sum_le_sum_abs _ _).trans ?_
  refine (sum_le_card_nsmul _ _ (h * (ε + 2 * (K * h ^ n / (Nat.factorial n : ℝ)))) fun i hi => ?_).trans (le_of_eq ?_)
  · have hi := mem_range.1 hi
    have e1 : ((i + 1 : ℕ) : ℝ) * h = i * h + h := by push_cast; ring
    have := rule_error hn hc hw hΛ hD hK (a := i * h) (by positivity) hh0 (by rw [← e1]; exact hle _ hi) (v := v i) hε (fun k hk => by
      have := hv i hi k hk
      rwa [show tauToT (c k) (i * h) (i * h + h) = (i + (c k + 1) / 2) * h by unfold tauToT; ring])
    rw [e1, show h / 2 * ∑ k ∈ S, w k * v i k - ∫ t in (i * h)..(i * h + h), D 0 t
      = (h * ∑ k ∈ S, w k * v i k - 2 * ∫ t in (i * h)..(i * h + h), D 0 t) / 2 by ring, abs_div, abs_two]
    linarith
  · rw [card_range, nsmul_eq_mul, hTN]
    ring

/-! ## The rules of the equispaced problems -/

theorem deg_four {p : ℝ[X]} (hp : p.degree < (4 : ℕ)) (t : ℝ) :
    p.eval t = p.coeff 0 + p.coeff 1 * t + p.coeff 2 * t ^ 2 + p.coeff 3 * t ^ 3 := by
  have hd : p.natDegree < 4 := by
    have := natDegree_lt_of_degree (by norm_num) hp
    omega
  rw [eval_eq_sum_range' hd]
  simp [sum_range_succ]

theorem simpson_rule (p : ℝ[X]) (hp : p.degree < (4 : ℕ)) :
    ∑ k, (![1 / 3, 4 / 3, 1 / 3] : Fin 3 → ℝ) k * p.eval ((![-1, 0, 1] : Fin 3 → ℝ) k) = ∫ x in (-1 : ℝ)..1, p.eval x := by
  simp only [deg_four hp, Fin.sum_univ_three]
  rw [Costs.cubic_integral]
  simp
  ring

theorem radau_rule (p : ℝ[X]) (hp : p.degree < (3 : ℕ)) :
    ∑ k, (![3 / 18, 25 / 18, 8 / 18] : Fin 3 → ℝ) k * p.eval ((![-1, -1 / 5, 1] : Fin 3 → ℝ) k) = ∫ x in (-1 : ℝ)..1, p.eval x := by
  have h4 : p.degree < (4 : ℕ) := hp.trans (by norm_num)
  have h3 : p.coeff 3 = 0 := coeff_eq_zero_of_degree_lt hp
  simp only [deg_four h4, Fin.sum_univ_three]
  rw [Costs.cubic_integral, h3]
  simp
  ring

theorem trapezoid_rule (p : ℝ[X]) (hp : p.degree < (2 : ℕ)) :
    ∑ k, (![1, 1] : Fin 2 → ℝ) k * p.eval ((![-1, 1] : Fin 2 → ℝ) k) = ∫ x in (-1 : ℝ)..1, p.eval x := by
  have h4 : p.degree < (4 : ℕ) := hp.trans (by norm_num)
  have h2 : p.coeff 2 = 0 := coeff_eq_zero_of_degree_lt hp
  have h3 : p.coeff 3 = 0 := coeff_eq_zero_of_degree_lt (hp.trans (by norm_num))
  simp only [deg_four h4, Fin.sum_univ_two]
  rw [Costs.cubic_integral, h2, h3]
  simp
  ring

/-- Bounds for the columns give one for their sum. -/
theorem columns {m : ℕ} {a b : Fin m → ℝ} {e : ℝ} (h : ∀ j, |a j - b j| ≤ e) : |∑ j, a j - ∑ j, b j| ≤ m * e := by
  rw [← sum_sub_distrib]
  refine (abs_sum_le_sum_abs _ _).trans ((sum_le_card_nsmul _ _ e fun j _ => h j).trans (le_of_eq ?_))
  simp

open Chords.Costs in
/-- C183, `quad_cost` with midpoints in equispaced problems: order four. The values (or their squares) may be `ε` away from
those of the functions. -/
theorem C183_quad_cost {m : ℕ} {T : ℝ} (hT : 0 ≤ T) {N : ℕ} (hN : 0 < N) {arr arr_c : ℕ → Fin m → ℝ} {squared : Bool}
    {D : Fin m → ℕ → ℝ → ℝ} (hD : ∀ j, Tower (D j) 4 T) {K : ℝ} (hK : ∀ j, ∀ s ∈ Set.Icc (0 : ℝ) T, |D j 4 s| ≤ K) {ε : ℝ} (hε : 0 ≤ ε)
    (h0 : ∀ i ≤ N, ∀ j, |entry squared (arr i j) - D j 0 (i * (T / N))| ≤ ε)
    (hc : ∀ i < N, ∀ j, |entry squared (arr_c i j) - D j 0 ((i + 1 / 2) * (T / N))| ≤ ε) :
    |quadCost T N (N + 1) arr (some (N, arr_c)) squared - ∑ j, ∫ t in (0 : ℝ)..T, D j 0 t|
      ≤ m * (T * (ε + K * (T / N) ^ 4 / 12)) := by
  have hN' : (N : ℝ) ≠ 0 := by exact_mod_cast hN.ne'
  simp only [quadCost, sum2, Finset.mul_sum, if_sqArr]
  refine columns fun j => ?_
  have := composite_error (S := univ) (by norm_num) (fun k _ => by fin_cases k <;> simp) simpson_rule
    (by simp [Fin.sum_univ_three]; norm_num) (hD j) (hK j) hN hT
    (v := fun i => ![entry squared (arr i j), entry squared (arr_c i j), entry squared (arr (i + 1) j)]) hε (fun i hi k _ => by
      fin_cases k
      · simpa using h0 i hi.le j
      · simpa using hc i hi j
      · simpa [show (i : ℝ) + (1 + 1) / 2 = i + 1 by ring] using h0 (i + 1) hi j)
  have e : T * ((4 * sum1 (fun i j => entry squared (arr_c i j)) 0 N j + sum1 (fun i j => entry squared (arr i j)) 0 (N + 1) j
      + sum1 (fun i j => entry squared (arr i j)) 1 (N + 1 - 1) j) / (6 * N))
      = T / N / 2 * ∑ i ∈ range N, ∑ k, (![1 / 3, 4 / 3, 1 / 3] : Fin 3 → ℝ) k
        * (![entry squared (arr i j), entry squared (arr_c i j), entry squared (arr (i + 1) j)] : Fin 3 → ℝ) k := by
    simp only [sum1, Nat.add_sub_cancel]
    rw [add_assoc, ends_sum (fun i => entry squared (arr i j)) hN, ← Finset.range_eq_Ico, Finset.mul_sum, ← Finset.sum_add_distrib,
      Finset.sum_div, Finset.mul_sum, Finset.mul_sum]
    refine Finset.sum_congr rfl fun i _ => ?_
    simp [Fin.sum_univ_three]
    field_simp
    ring
  rw [e]
  refine this.trans (le_of_eq ?_)
  simp only [show Nat.factorial 4 = 24 from rfl]
  push_cast
  ring

open Chords.Costs in
/-- C183, `quad_cost` without midpoints: it approaches *twice* the integral, with order two. -/
theorem C183_quad_cost_no_midpoints_partial {m : ℕ} {T : ℝ} (hT : 0 ≤ T) {N : ℕ} (hN : 0 < N) {arr : ℕ → Fin m → ℝ} {squared : Bool}
    {D : Fin m → ℕ → ℝ → ℝ} (hD : ∀ j, Tower (D j) 2 T) {K : ℝ} (hK : ∀ j, ∀ s ∈ Set.Icc (0 : ℝ) T, |D j 2 s| ≤ K) {ε : ℝ} (hε : 0 ≤ ε)
    (h0 : ∀ i ≤ N, ∀ j, |entry squared (arr i j) - D j 0 (i * (T / N))| ≤ ε) :
    |quadCost T N (N + 1) arr none squared - 2 * ∑ j, ∫ t in (0 : ℝ)..T, D j 0 t| ≤ m * (2 * (T * (ε + K * (T / N) ^ 2))) := by
  have hN' : (N : ℝ) ≠ 0 := by exact_mod_cast hN.ne'
  simp only [quadCost, sum2, Finset.mul_sum, if_sqArr]
  refine columns fun j => ?_
  have := composite_error (S := univ) (by norm_num) (fun k _ => by fin_cases k <;> simp) trapezoid_rule
    (by simp [Fin.sum_univ_two]; norm_num) (hD j) (hK j) hN hT
    (v := fun i => ![entry squared (arr i j), entry squared (arr (i + 1) j)]) hε (fun i hi k _ => by
      fin_cases k
      · simpa using h0 i hi.le j
      · simpa [show (i : ℝ) + (1 + 1) / 2 = i + 1 by ring] using h0 (i + 1) hi j)
  have e : T * ((sum1 (fun i j => entry squared (arr i j)) 0 (N + 1) j + sum1 (fun i j => entry squared (arr i j)) 1 (N + 1 - 1) j) / N)
      = 2 * (T / N / 2 * ∑ i ∈ range N, ∑ k, (![1, 1] : Fin 2 → ℝ) k
        * (![entry squared (arr i j), entry squared (arr (i + 1) j)] : Fin 2 → ℝ) k) := by
    simp only [sum1, Nat.add_sub_cancel]
    rw [ends_sum (fun i => entry squared (arr i j)) hN]
    simp [Fin.sum_univ_two]
    field_simp
  rw [e, ← mul_sub, abs_mul, abs_two]
  refine mul_le_mul_of_nonneg_left (this.trans (le_of_eq ?_)) (by norm_num)
  simp only [show Nat.factorial 2 = 2 from rfl]
  push_cast
  ring

open Chords.Costs in
/-- C183, `u_sq_cost` of the schemes without "parab": order two. -/
theorem C183_u_sq_cost_trapezoid {m : ℕ} {scheme : String} (hs : pyIn "parab" scheme = false) {T : ℝ} (hT : 0 ≤ T) {N : ℕ} (hN : 0 < N)
    {a : Controls m} {D : Fin m → ℕ → ℝ → ℝ} (hD : ∀ j, Tower (D j) 2 T) {K : ℝ} (hK : ∀ j, ∀ s ∈ Set.Icc (0 : ℝ) T, |D j 2 s| ≤ K)
    {ε : ℝ} (hε : 0 ≤ ε) (h0 : ∀ i ≤ N, ∀ j, |a.u i j ^ 2 - D j 0 (i * (T / N))| ≤ ε) :
    |uSqCost scheme T N a - ∑ j, ∫ t in (0 : ℝ)..T, D j 0 t| ≤ m * (T * (ε + K * (T / N) ^ 2)) := by
  have := C183_quad_cost_no_midpoints_partial hT hN (arr := a.u) (squared := true) hD hK hε (by simpa [entry] using h0)
  have e : quadCost T N (N + 1) a.u none true = 2 * uSqCost scheme T N a := by
    simp only [quadCost, uSqCost, hs, sum2, if_true, Bool.false_eq_true, if_false, Finset.mul_sum]
    refine Finset.sum_congr rfl fun j _ => ?_
    ring
  rw [e, ← mul_sub, abs_mul, abs_two] at this
  linarith

open Chords.Costs in
/-- C183, `u_sq_cost` of the schemes with midpoints: order four. -/
theorem C183_u_sq_cost_simpson {m : ℕ} {scheme : String} (hs : pyIn "parab" scheme = true)
    (hj : pyIn "j" scheme = false ∨ scheme = "hsj_parab_mod") {T : ℝ} (hT : 0 ≤ T) {N : ℕ} (hN : 0 < N)
    {a : Controls m} {D : Fin m → ℕ → ℝ → ℝ} (hD : ∀ j, Tower (D j) 4 T) {K : ℝ} (hK : ∀ j, ∀ s ∈ Set.Icc (0 : ℝ) T, |D j 4 s| ≤ K)
    {ε : ℝ} (hε : 0 ≤ ε) (h0 : ∀ i ≤ N, ∀ j, |a.u i j ^ 2 - D j 0 (i * (T / N))| ≤ ε)
    (hc : ∀ i < N, ∀ j, |(if scheme = "hsj_parab_mod" then a.u_j else a.u_c) i j ^ 2 - D j 0 ((i + 1 / 2) * (T / N))| ≤ ε) :
    |uSqCost scheme T N a - ∑ j, ∫ t in (0 : ℝ)..T, D j 0 t| ≤ m * (T * (ε + K * (T / N) ^ 4 / 12)) := by
  have := C183_quad_cost hT hN (arr := a.u) (arr_c := if scheme = "hsj_parab_mod" then a.u_j else a.u_c) (squared := true) hD hK hε
    (by simpa [entry] using h0) (by simpa [entry] using hc)
  have hb : (pyIn "j" scheme && decide (scheme ≠ "hsj_parab_mod")) = false := by
    rcases hj with h | h <;> simp [h]
  have e : uSqCost scheme T N a = quadCost T N (N + 1) a.u (some (N, if scheme = "hsj_parab_mod" then a.u_j else a.u_c)) true := by
    simp only [uSqCost, hs, if_true, hb, Bool.false_eq_true, if_false, quadCost]
  rw [e]
  exact this

open Chords.Costs in
/-- C183, `u_sq_cost` of "hsj_parab": the middle values are those at two fifths of the intervals; order three. -/
theorem C183_u_sq_cost_radau {m : ℕ} {scheme : String} (hs : pyIn "parab" scheme = true) (hj : pyIn "j" scheme = true)
    (hm : scheme ≠ "hsj_parab_mod") {T : ℝ} (hT : 0 ≤ T) {N : ℕ} (hN : 0 < N)
    {a : Controls m} {D : Fin m → ℕ → ℝ → ℝ} (hD : ∀ j, Tower (D j) 3 T) {K : ℝ} (hK : ∀ j, ∀ s ∈ Set.Icc (0 : ℝ) T, |D j 3 s| ≤ K)
    {ε : ℝ} (hε : 0 ≤ ε) (h0 : ∀ i ≤ N, ∀ j, |a.u i j ^ 2 - D j 0 (i * (T / N))| ≤ ε)
    (hc : ∀ i < N, ∀ j, |a.u_c i j ^ 2 - D j 0 ((i + 2 / 5) * (T / N))| ≤ ε) :
    |uSqCost scheme T N a - ∑ j, ∫ t in (0 : ℝ)..T, D j 0 t| ≤ m * (T * (ε + K * (T / N) ^ 3 / 3)) := by
  have hN' : (N : ℝ) ≠ 0 := by exact_mod_cast hN.ne'
  have hb : (pyIn "j" scheme && decide (scheme ≠ "hsj_parab_mod")) = true := by simp [hj, hm]
  simp only [uSqCost, hs, hb, hm, if_true, if_false, sum2, Finset.mul_sum]
  refine columns fun j => ?_
  have := composite_error (S := univ) (by norm_num) (fun k _ => by fin_cases k <;> constructor <;> norm_num) radau_rule
    (by simp [Fin.sum_univ_three]; norm_num) (hD j) (hK j) hN hT
    (v := fun i => ![a.u i j ^ 2, a.u_c i j ^ 2, a.u (i + 1) j ^ 2]) hε (fun i hi k _ => by
      fin_cases k
      · simpa using h0 i hi.le j
      · simpa [show (i : ℝ) + (-1 / 5 + 1) / 2 = i + 2 / 5 by ring] using hc i hi j
      · simpa [show (i : ℝ) + (1 + 1) / 2 = i + 1 by ring] using h0 (i + 1) hi j)
  have e : T * ((25 * sum1 (sqArr a.u_c) 0 N j + 3 * sum1 (sqArr a.u) 0 (N + 1 - 1) j + 8 * sum1 (sqArr a.u) 1 (N + 1) j) / (36 * N))
      = T / N / 2 * ∑ i ∈ range N, ∑ k, (![3 / 18, 25 / 18, 8 / 18] : Fin 3 → ℝ) k
        * (![a.u i j ^ 2, a.u_c i j ^ 2, a.u (i + 1) j ^ 2] : Fin 3 → ℝ) k := by
    simp only [sum1, Nat.add_sub_cancel, sqArr]
    rw [shift_sum (fun i => a.u i j ^ 2), ← Finset.range_eq_Ico, Finset.mul_sum, Finset.mul_sum, Finset.mul_sum, ← Finset.sum_add_distrib,
      ← Finset.sum_add_distrib, Finset.sum_div, Finset.mul_sum, Finset.mul_sum]
    refine Finset.sum_congr rfl fun i _ => ?_
    simp [Fin.sum_univ_three]
    field_simp
    ring
  rw [e]
  refine this.trans (le_of_eq ?_)
  simp only [show Nat.factorial 3 = 6 from rfl]
  push_cast
  ring

theorem weights3 {s : ℝ} (s0 : 0 ≤ s) (s1 : s ≤ 1) : |(1 - s) * (1 - 2 * s)| ≤ 1 ∧ |4 * s * (1 - s)| ≤ 1 ∧ |s * (2 * s - 1)| ≤ 1 := by
  refine ⟨?_, ?_, ?_⟩ <;> rw [abs_le] <;> constructor <;> nlinarith [sq_nonneg (2 * s - 1), mul_nonneg s0 (sub_nonneg.2 s1)]

/-- The square of the parabola through three values, on one interval. -/
theorem parabola_error {D : ℕ → ℝ → ℝ} {T K B : ℝ} (hD : Tower D 3 T) (hK : ∀ s ∈ Set.Icc (0 : ℝ) T, |D 3 s| ≤ K)
    (hB : ∀ s ∈ Set.Icc (0 : ℝ) T, |D 0 s| ≤ B) {a h : ℝ} (ha : 0 ≤ a) (hh : 0 < h) (hT : a + h ≤ T) {ε : ℝ} (hε : 0 ≤ ε)
    {y₀ y₁ y₂ b c : ℝ} (e0 : |y₀ - D 0 a| ≤ ε) (e1 : |y₁ - D 0 (a + h / 2)| ≤ ε) (e2 : |y₂ - D 0 (a + h)| ≤ ε)
    (q1 : y₁ = y₀ + b * (h / 2) + c * (h / 2) ^ 2) (q2 : y₂ = y₀ + b * h + c * h ^ 2) :
    |(∫ t in (0 : ℝ)..h, (y₀ + b * t + c * t ^ 2) ^ 2) - ∫ t in a..(a + h), D 0 t ^ 2|
      ≤ h * ((3 * ε + 2 * K * h ^ 3 / 3) * (2 * B + (3 * ε + 2 * K * h ^ 3 / 3))) := by
  obtain ⟨R, hR⟩ : ∃ R, R = K * h ^ 3 / 6 := ⟨_, rfl⟩
  obtain ⟨δ, hδ⟩ : ∃ δ, δ = 3 * ε + 2 * K * h ^ 3 / 3 := ⟨_, rfl⟩
  rw [← hδ]
  have hδR : δ = 3 * (ε + R) + R := by rw [hδ, hR]; ring
  have hK0 : 0 ≤ K := (abs_nonneg _).trans (hK 0 ⟨le_rfl, by linarith⟩)
  have hR0 : 0 ≤ R := by rw [hR]; positivity
  have hδ0 : 0 ≤ δ := by rw [hδR]; positivity
  obtain ⟨P, hP⟩ : ∃ P : ℝ → ℝ, P = fun s => D 0 a + s * D 1 a + s ^ 2 / 2 * D 2 a := ⟨_, rfl⟩
  have hPe : ∀ s ∈ Set.Icc (0 : ℝ) h, |D 0 (a + s) - P s| ≤ R := by
    intro s hs
    have := (taylor3 (hD.part ha hT) (K := K) (fun s hs => hK _ ⟨by linarith [hs.1], by linarith [hs.2]⟩) hs).1
    simp only [add_zero, Real.norm_eq_abs, smul_eq_mul] at this
    rw [hP]
    refine this.trans ?_
    rw [hR]
    have : s ^ 3 ≤ h ^ 3 := pow_le_pow_left₀ hs.1 hs.2 3
    gcongr
  have f0 : |y₀ - P 0| ≤ ε + R := by
    have := hPe 0 ⟨le_rfl, hh.le⟩
    rw [add_zero] at this
    calc _ = |(y₀ - D 0 a) + (D 0 a - P 0)| := by ring_nf
      _ ≤ _ := (abs_add_le _ _).trans (add_le_add e0 this)
  have f1 : |y₁ - P (h / 2)| ≤ ε + R := by
    have := hPe (h / 2) ⟨by linarith, by linarith⟩
    calc _ = |(y₁ - D 0 (a + h / 2)) + (D 0 (a + h / 2) - P (h / 2))| := by ring_nf
      _ ≤ _ := (abs_add_le _ _).trans (add_le_add e1 this)
  have f2 : |y₂ - P h| ≤ ε + R := by
    have := hPe h ⟨hh.le, le_rfl⟩
    calc _ = |(y₂ - D 0 (a + h)) + (D 0 (a + h) - P h)| := by ring_nf
      _ ≤ _ := (abs_add_le _ _).trans (add_le_add e2 this)
  have hq : ∀ t ∈ Set.Icc (0 : ℝ) h, |y₀ + b * t + c * t ^ 2 - D 0 (a + t)| ≤ δ := by
    intro t ht
    obtain ⟨s, hs⟩ : ∃ s, s = t / h := ⟨_, rfl⟩
    have hts : t = s * h := by rw [hs]; field_simp
    have s0 : 0 ≤ s := by rw [hs]; exact div_nonneg ht.1 hh.le
    have s1 : s ≤ 1 := by rw [hs, div_le_one hh]; exact ht.2
    have key : y₀ + b * t + c * t ^ 2 - P t
        = ((1 - s) * (1 - 2 * s)) * (y₀ - P 0) + (4 * s * (1 - s)) * (y₁ - P (h / 2)) + (s * (2 * s - 1)) * (y₂ - P h) := by
      rw [q1, q2, hP, hts]
      ring
    have l1 := (weights3 s0 s1).1
    have l2 := (weights3 s0 s1).2.1
    have l3 := (weights3 s0 s1).2.2
    have m1 : ∀ {x y : ℝ}, |x| ≤ 1 → |y| ≤ ε + R → |x * y| ≤ ε + R := fun {x y} hx hy => by
      rw [abs_mul]
      exact (mul_le_mul hx hy (abs_nonneg _) (by norm_num)).trans (le_of_eq (one_mul _))
    have hk : |y₀ + b * t + c * t ^ 2 - P t| ≤ 3 * (ε + R) := by
      rw [key]
      refine (abs_add_three _ _ _).trans ?_
      linarith [m1 l1 f0, m1 l2 f1, m1 l3 f2]
    have hp := hPe t ht
    rw [abs_sub_comm] at hp
    calc _ = |(y₀ + b * t + c * t ^ 2 - P t) + (P t - D 0 (a + t))| := by ring_nf
      _ ≤ _ := (abs_add_le _ _).trans (by rw [hδR]; exact add_le_add hk hp)
  have hsub : (∫ t in a..(a + h), D 0 t ^ 2) = ∫ t in (0 : ℝ)..h, D 0 (a + t) ^ 2 := by
    have := intervalIntegral.integral_comp_add_left (a := 0) (b := h) (fun t => D 0 t ^ 2) a
    rw [this, add_zero]
  have hc1 : IntervalIntegrable (fun t => D 0 (a + t) ^ 2) MeasureTheory.volume 0 h := by
    refine (((hD.part ha hT).continuousOn (by norm_num)).mono ?_ |>.pow 2).intervalIntegrable
    rw [Set.uIcc_of_le hh.le]
  rw [hsub, ← intervalIntegral.integral_sub ((by fun_prop : Continuous fun t : ℝ => (y₀ + b * t + c * t ^ 2) ^ 2).intervalIntegrable _ _) hc1]
  have := intervalIntegral.norm_integral_le_of_norm_le_const (a := 0) (b := h) (C := δ * (2 * B + δ))
    (f := fun t => (y₀ + b * t + c * t ^ 2) ^ 2 - D 0 (a + t) ^ 2) (fun t ht => by
      rw [Set.uIoc_of_le hh.le] at ht
      have h1 := hq t ⟨ht.1.le, ht.2⟩
      have h2 := hB (a + t) ⟨by linarith [ht.1], by linarith [ht.2]⟩
      rw [Real.norm_eq_abs, show (y₀ + b * t + c * t ^ 2) ^ 2 - D 0 (a + t) ^ 2
        = (y₀ + b * t + c * t ^ 2 - D 0 (a + t)) * (2 * D 0 (a + t) + (y₀ + b * t + c * t ^ 2 - D 0 (a + t))) by ring, abs_mul]
      refine mul_le_mul h1 ((abs_add_le _ _).trans ?_) (abs_nonneg _) hδ0
      rw [abs_mul, abs_two]
      linarith)
  rw [Real.norm_eq_abs, sub_zero, abs_of_pos hh] at this
  linarith

open Chords.Costs in
/-- C183, `sq_cost` with midpoints in equispaced problems: order three. -/
theorem C183_sq_cost {m : ℕ} {T : ℝ} (hT : 0 < T) {N : ℕ} (hN : 0 < N) {arr arr_c dflt : ℕ → Fin m → ℝ}
    {D : Fin m → ℕ → ℝ → ℝ} (hD : ∀ j, Tower (D j) 3 T) {K B : ℝ} (hK : ∀ j, ∀ s ∈ Set.Icc (0 : ℝ) T, |D j 3 s| ≤ K)
    (hB : ∀ j, ∀ s ∈ Set.Icc (0 : ℝ) T, |D j 0 s| ≤ B) {ε : ℝ} (hε : 0 ≤ ε)
    (h0 : ∀ i ≤ N, ∀ j, |arr i j - D j 0 (i * (T / N))| ≤ ε)
    (hc : ∀ i < N, ∀ j, |arr_c i j - D j 0 ((i + 1 / 2) * (T / N))| ≤ ε) :
    ∃ v, sqCost T N (N + 1) arr (some (N, arr_c)) dflt = some v ∧ |v - ∑ j, ∫ t in (0 : ℝ)..T, D j 0 t ^ 2|
      ≤ m * (T * ((3 * ε + 2 * K * (T / N) ^ 3 / 3) * (2 * B + (3 * ε + 2 * K * (T / N) ^ 3 / 3)))) := by
  obtain ⟨h, hh⟩ : ∃ h, h = T / N := ⟨_, rfl⟩
  rw [← hh]
  simp only [← hh] at h0 hc
  have hN' : (0 : ℝ) < N := by exact_mod_cast hN
  have hTN : T = N * h := by rw [hh]; field_simp
  have hh0 : 0 < h := by rw [hh]; positivity
  have hle : ∀ k, k ≤ N → (k : ℝ) * h ≤ T := fun k hk => by
    rw [hTN]
    exact mul_le_mul_of_nonneg_right (by exact_mod_cast hk) hh0.le
  refine ⟨∑ j, ∑ i ∈ range N, exactSq arr arr_c h i j, ?_, columns fun j => ?_⟩
  · simp only [sqCost, Nat.add_sub_cancel, broadcastOk, beq_self_eq_true, Bool.true_or, if_true, sum2, sum1, ← Finset.range_eq_Ico, ← hh]
  have hint : ∀ k < N, IntervalIntegrable (fun t => D j 0 t ^ 2) MeasureTheory.volume ((k : ℕ) * h) (((k + 1 : ℕ) : ℝ) * h) := by
    intro k hk
    refine ((((hD j).continuousOn (by norm_num)).mono ?_).pow 2).intervalIntegrable
    rw [Set.uIcc_of_le (by push_cast; nlinarith)]
    exact Set.Icc_subset_Icc (by positivity) (hle _ hk)
  have hsum := intervalIntegral.sum_integral_adjacent_intervals (μ := MeasureTheory.volume) (f := fun t => D j 0 t ^ 2)
    (a := fun k : ℕ => (k : ℝ) * h) (n := N) hint
  simp only [Nat.cast_zero, zero_mul, ← hTN] at hsum
  rw [← hsum, ← sum_sub_distrib]
  refine (abs_sum_le_sum_abs _ _).trans ?_
  refine (sum_le_card_nsmul _ _ (h * ((3 * ε + 2 * K * h ^ 3 / 3) * (2 * B + (3 * ε + 2 * K * h ^ 3 / 3)))) fun i hi => ?_).trans (le_of_eq ?_)
  · have hi := mem_range.1 hi
    have e1 : ((i + 1 : ℕ) : ℝ) * h = i * h + h := by push_cast; ring
    obtain ⟨b, hb⟩ : ∃ b, b = (-3 * arr i j + 4 * arr_c i j - arr (i + 1) j) / h := ⟨_, rfl⟩
    obtain ⟨c, hc'⟩ : ∃ c, c = 2 * (arr i j - 2 * arr_c i j + arr (i + 1) j) / h ^ 2 := ⟨_, rfl⟩
    have q1 : arr_c i j = arr i j + b * (h / 2) + c * (h / 2) ^ 2 := by rw [hb, hc']; field_simp; ring
    have q2 : arr (i + 1) j = arr i j + b * h + c * h ^ 2 := by rw [hb, hc']; field_simp; ring
    rw [C17_exact arr arr_c h i j (arr i j) b c rfl q1 q2, e1]
    refine parabola_error (hD j) (hK j) (hB j) (a := i * h) (by positivity) hh0 (by rw [← e1]; exact hle _ hi) hε (h0 i hi.le j) ?_ ?_ q1 q2
    · have := hc i hi j
      rwa [show ((i : ℝ) + 1 / 2) * h = i * h + h / 2 by ring] at this
    · have := h0 (i + 1) hi j
      rwa [e1] at this
  · rw [card_range, nsmul_eq_mul, hTN]
    ring

/-! ## Collocation points -/

/-- The degree below which the weights of a scheme are exact: `2N` less the ends among the points for the Legendre schemes, `N` for
the other ones. -/
def exactDeg (scheme : String) (N : ℕ) : ℕ := if scheme ∈ legendreSchemes then 2 * N - lost scheme else N

/-- The weights and points of a scheme as a rule on `[-1, 1]`. -/
theorem scheme_rule {scheme : String} (hs : scheme ∈ implemented) {order : ℕ} (ho : 1 ≤ order) (hj : scheme ∈ jacobiSchemes → order ≤ 2)
    {N : ℕ} (hN : minPoints scheme ≤ N) :
    ∃ coll w, collPoints N scheme order = .ok coll ∧ getWeights N scheme order "u" = .ok w ∧
      (∀ i ∈ range N, arr coll i ∈ Set.Icc (-1 : ℝ) 1) ∧ ∑ i ∈ range N, |w i| ≤ 2 ∧
      ∀ p : ℝ[X], p.degree < exactDeg scheme N → ∑ i ∈ range N, w i * p.eval (arr coll i) = ∫ x in (-1 : ℝ)..1, p.eval x := by
  obtain ⟨coll, w, h1, h2, h3⟩ : ∃ coll w, collPoints N scheme order = .ok coll ∧ getWeights N scheme order "u" = .ok w ∧
      ∀ p : ℝ[X], p.degree < exactDeg scheme N → ∑ i ∈ range N, w i * p.eval (arr coll i) = ∫ x in (-1 : ℝ)..1, p.eval x := by
    unfold exactDeg
    split_ifs with hl
    · exact C168_weights hl ho hN
    · obtain ⟨coll, w, h1, h2, -, h3⟩ := C28_u hs ho hN
      exact ⟨coll, w, h1, h2, h3⟩
  obtain ⟨coll', w', k1, k2, k3, k4⟩ := C184_weights hs ho hj hN
  rw [h1] at k1
  obtain rfl := Except.ok.inj k1
  rw [h2] at k2
  obtain rfl := Except.ok.inj k2
  refine ⟨coll, w, h1, h2, fun i hi => (k3 i (mem_range.1 hi)).2.2, ?_, h3⟩
  rw [sum_congr rfl fun i hi => abs_of_nonneg (k3 i (mem_range.1 hi)).1, k4]

open Chords.PsCost in
/-- C183 for the three kinds of pseudospectral problems, with the Jacobi schemes up to order two: the cost of the controls
approaches twice the integral (the factor is that of C67), as the horizon to the power `n`, for any `n` up to the number of points,
and up to `2N` less the ends among them (the order of a Gauss rule) with the Legendre schemes. -/
theorem C183_pseudospectral_partial {scheme : String} (hs : scheme ∈ implemented) {order : ℕ} (ho : 1 ≤ order)
    (hj : scheme ∈ jacobiSchemes → order ≤ 2) {N : ℕ}
    (hN : minPoints scheme ≤ N) (n_arr : ℕ) {n : ℕ} (hn : 1 ≤ n) (hn2 : n ≤ exactDeg scheme N) {T : ℝ} (hT : 0 ≤ T) (t0 : ℝ) (m : ℕ) :
    ∃ coll, collPoints N scheme order = .ok coll ∧ ∀ (a : ℕ → ℕ → ℝ) (D : ℕ → ℕ → ℝ → ℝ) (K ε : ℝ), 0 ≤ ε → (∀ c < m, Tower (D c) n T) →
      (∀ c < m, ∀ s ∈ Set.Icc (0 : ℝ) T, |D c n s| ≤ K) →
      (∀ i < N, ∀ c < m, |a i c ^ 2 - D c 0 (tauToT (arr coll i) t0 (t0 + T) - t0)| ≤ ε) →
      ∃ v, uSqCost scheme N n_arr order t0 (t0 + T) m a = .ok v ∧
        |v - 2 * ∑ c ∈ range m, ∫ t in (0 : ℝ)..T, D c 0 t| ≤ m * (T * (2 * ε + 4 * (K * T ^ n / (Nat.factorial n : ℝ)))) := by
  obtain ⟨coll, w, h1, h2, h3, h4, h5⟩ := scheme_rule hs ho hj hN
  refine ⟨coll, h1, fun a D K ε hε hD hK ha => ⟨T * ∑ c ∈ range m, ∑ i ∈ range N, w i * a i c ^ 2, ?_, ?_⟩⟩
  · simp only [uSqCost, quadCost, PsCost.quadIntCas, if_true, h2, bind, Except.bind, pure, Except.pure, add_sub_cancel_left]
  rw [mul_sum, mul_sum, ← sum_sub_distrib]
  refine (abs_sum_le_sum_abs _ _).trans ((sum_le_card_nsmul _ _ (T * (2 * ε + 4 * (K * T ^ n / (Nat.factorial n : ℝ)))) fun c hc => ?_).trans
    (le_of_eq (by simp)))
  have hc := mem_range.1 hc
  have := rule_error hn h3 (fun p hp => h5 p (hp.trans_le (by exact_mod_cast hn2))) h4 (hD c hc) (hK c hc) (a := 0) le_rfl hT (by rw [zero_add])
    (v := fun i => a i c ^ 2) hε (fun i hi => by
      have := ha i (mem_range.1 hi) c hc
      rwa [show tauToT (arr coll i) t0 (t0 + T) - t0 = tauToT (arr coll i) 0 (0 + T) by unfold tauToT; ring] at this)
  simp only [zero_add] at this
  norm_num at this
  exact this

open Chords.PsCost in
/-- C183 for node based problems with any scheme and any order: there is a constant of the scheme, the order and the number of
points for which the cost approaches twice the integral as the horizon to the power `n`, for any `n` up to the number of points. -/
theorem C183_orders_partial {scheme : String} (hs : scheme ∈ implemented) {order : ℕ} (ho : 1 ≤ order) {N : ℕ} (hN : minPoints scheme ≤ N) :
    ∃ Λ coll, collPoints N scheme order = .ok coll ∧ ∀ (n_arr n : ℕ), 1 ≤ n → n ≤ N → ∀ T : ℝ, 0 ≤ T → ∀ (t0 : ℝ) (m : ℕ)
      (a : ℕ → ℕ → ℝ) (D : ℕ → ℕ → ℝ → ℝ) (K ε : ℝ), 0 ≤ ε → (∀ c < m, Tower (D c) n T) →
      (∀ c < m, ∀ s ∈ Set.Icc (0 : ℝ) T, |D c n s| ≤ K) →
      (∀ i < N, ∀ c < m, |a i c ^ 2 - D c 0 (tauToT (arr coll i) t0 (t0 + T) - t0)| ≤ ε) →
      ∃ v, uSqCost scheme N n_arr order t0 (t0 + T) m a = .ok v ∧
        |v - 2 * ∑ c ∈ range m, ∫ t in (0 : ℝ)..T, D c 0 t| ≤ m * (T * (Λ * ε + (Λ + 2) * (K * T ^ n / (Nat.factorial n : ℝ)))) := by
  obtain ⟨coll, w, h1, h2, -, h5⟩ := C28_u hs ho hN
  obtain ⟨L, k1, k2⟩ := coll_shape hs ho hN
  rw [h1] at k1
  obtain rfl := Except.ok.inj k1
  refine ⟨∑ i ∈ range N, |w i|, coll, h1, fun n_arr n hn hn2 T hT t0 m a D K ε hε hD hK ha => ⟨T * ∑ c ∈ range m, ∑ i ∈ range N, w i * a i c ^ 2, ?_, ?_⟩⟩
  · simp only [uSqCost, quadCost, PsCost.quadIntCas, if_true, h2, bind, Except.bind, pure, Except.pure, add_sub_cancel_left]
  rw [mul_sum, mul_sum, ← sum_sub_distrib]
  refine (abs_sum_le_sum_abs _ _).trans ((sum_le_card_nsmul _ _
    (T * ((∑ i ∈ range N, |w i|) * ε + ((∑ i ∈ range N, |w i|) + 2) * (K * T ^ n / (Nat.factorial n : ℝ)))) fun c hc => ?_).trans (le_of_eq (by simp)))
  have hc := mem_range.1 hc
  have := rule_error hn (fun i hi => shape_arr k2 (mem_range.1 hi)) (fun p hp => h5 p (hp.trans_le (by exact_mod_cast hn2))) le_rfl (hD c hc) (hK c hc)
    (a := 0) le_rfl hT (by rw [zero_add]) (v := fun i => a i c ^ 2) hε (fun i hi => by
      have := ha i (mem_range.1 hi) c hc
      rwa [show tauToT (arr coll i) t0 (t0 + T) - t0 = tauToT (arr coll i) 0 (0 + T) by unfold tauToT; ring] at this)
  simpa only [zero_add] using this

/-- Jacobi points of order three. -/
example : "JG" ∈ implemented ∧ 1 ≤ 3 ∧ minPoints "JG" ≤ 4 := by decide

/-- C183 for segmented problems: the cost of the controls approaches twice the integral over the horizon, with the longest segment
to the power `n`, for any `n` up to the points of every segment, and up to twice their number less the ends among them with the
Legendre schemes. -/
theorem C183_segments_partial {m : ℕ} {scheme : String} (hs : scheme ∈ implemented) {W : Ph.Weights}
    (hW : ∀ p, minPoints scheme ≤ p → ∃ w, getWeights p scheme 2 "u" = .ok w ∧ ∀ i < p, W p scheme 2 "u" i = w i)
    {ps : List ℕ} {h : List ℝ} (hlen : ps.length = h.length) (hp : ∀ p ∈ ps, minPoints scheme ≤ p) {n : ℕ} (hn : 1 ≤ n)
    (hn2 : ∀ p ∈ ps, n ≤ exactDeg scheme p) {H : ℝ} (hh : ∀ d ∈ h, 0 ≤ d ∧ d ≤ H)
    {u : ℕ → Fin m → ℝ} {rows : ℕ → ℕ} (hrows : ∀ i < ps.sum, ((Ph.segRows 1 ps).map (·.1)).flatten[i]? = some (rows i))
    {D : Fin m → ℕ → ℝ → ℝ} (hD : ∀ j, Tower (D j) n h.sum) {K : ℝ} (hK : ∀ j, ∀ s ∈ Set.Icc (0 : ℝ) h.sum, |D j n s| ≤ K)
    {ε : ℝ} (hε : 0 ≤ ε)
    (ha : ∀ k < ps.length, ∃ coll, collPoints (ps.getD k 0) scheme = .ok coll ∧ ∀ i < ps.getD k 0, ∀ j,
        |u (rows ((ps.take k).sum + i)) j ^ 2 - D j 0 (tauToT (arr coll i) (h.take k).sum (h.take (k + 1)).sum)| ≤ ε) :
    ∃ v, Ph.uSqCost W scheme ps h u = .ok v ∧
      |v - 2 * ∑ j, ∫ t in (0 : ℝ)..h.sum, D j 0 t| ≤ m * (h.sum * (2 * ε + 4 * (K * H ^ n / (Nat.factorial n : ℝ)))) := by
  refine ⟨_, Ph.C35_u_sq_cost W scheme ps h u rows hrows, ?_⟩
  obtain ⟨B, hB⟩ : ∃ B, B = 2 * ε + 4 * (K * H ^ n / (Nat.factorial n : ℝ)) := ⟨_, rfl⟩
  obtain ⟨T, hT⟩ : ∃ T, T = h.sum := ⟨_, rfl⟩
  rw [← hB]
  rw [← hT] at hD hK
  have key : ∀ (ps : List ℕ) (h : List ℝ), ps.length = h.length → (∀ p ∈ ps, minPoints scheme ≤ p) → (∀ p ∈ ps, n ≤ exactDeg scheme p) →
      (∀ d ∈ h, 0 ≤ d ∧ d ≤ H) → ∀ (off : ℕ) (t : ℝ) (a : ℕ → Fin m → ℝ), 0 ≤ t → t + h.sum ≤ T →
      (∀ k < ps.length, ∃ coll, collPoints (ps.getD k 0) scheme = .ok coll ∧ ∀ i < ps.getD k 0, ∀ j,
        |a (off + (ps.take k).sum + i) j ^ 2 - D j 0 (tauToT (arr coll i) (t + (h.take k).sum) (t + (h.take (k + 1)).sum))| ≤ ε) →
      |Ph.segmentSquares (fun p i => W p scheme 2 "u" i) a off ps h - 2 * ∑ j, ∫ s in t..(t + h.sum), D j 0 s| ≤ m * (h.sum * B) := by
    intro ps
    induction ps with
    | nil =>
      intro h hlen _ _ _ off t a _ _ _
      obtain rfl : h = [] := List.length_eq_zero_iff.1 (by simpa using hlen.symm)
      simp [Ph.segmentSquares]
    | cons p ps ih =>
      intro h hlen hp hn2 hh off t a ht hT ha
      cases h with
      | nil => simp at hlen
      | cons d h =>
        have hd := hh d (by simp)
        have hs0 : 0 ≤ h.sum := List.sum_nonneg fun x hx => (hh x (by simp [hx])).1
        rw [List.sum_cons] at hT ⊢
        have i1 := ih h (by simpa using hlen) (fun q hq => hp q (by simp [hq])) (fun q hq => hn2 q (by simp [hq])) (fun q hq => hh q (by simp [hq]))
          (off + p) (t + d) a (by linarith [hd.1]) (by linarith) (fun k hk => by
            obtain ⟨coll, c1, c2⟩ := ha (k + 1) (by simpa using hk)
            refine ⟨coll, by simpa using c1, fun i hi j => ?_⟩
            have := c2 i (by simpa using hi) j
            simpa [add_assoc] using this)
        obtain ⟨w, w1, w2⟩ := hW p (hp p (by simp))
        obtain ⟨coll, w', k1, k2, k3, k4, k5⟩ := scheme_rule hs (order := 2) (by omega) (fun _ => le_rfl) (hp p (by simp))
        rw [w1] at k2
        obtain rfl := Except.ok.inj k2
        obtain ⟨coll', c1, c2⟩ := ha 0 (by simp)
        simp only [List.getD_cons_zero] at c1 c2
        rw [k1] at c1
        obtain rfl := Except.ok.inj c1
        have hnp := hn2 p (by simp)
        have one : ∀ j, |d * ∑ i ∈ range p, W p scheme 2 "u" i * a (off + i) j ^ 2 - 2 * ∫ s in t..(t + d), D j 0 s| ≤ d * B := by
          intro j
          have := rule_error hn k3 (fun q hq => k5 q (hq.trans_le (by exact_mod_cast hnp))) k4 (hD j) (hK j) (a := t) ht hd.1 (by linarith)
            (v := fun i => a (off + i) j ^ 2) hε (fun i hi => by simpa using c2 i (mem_range.1 hi) j)
          rw [sum_congr rfl fun i hi => by rw [w2 i (mem_range.1 hi)]]
          refine this.trans (mul_le_mul_of_nonneg_left ?_ hd.1)
          have hK0 : 0 ≤ K := (abs_nonneg _).trans (hK j 0 ⟨le_rfl, by linarith [hd.1]⟩)
          have : d ^ n ≤ H ^ n := pow_le_pow_left₀ hd.1 hd.2 n
          rw [hB]
          norm_num
          gcongr
        have hci : ∀ j, ∀ x y, 0 ≤ x → x ≤ y → y ≤ T → IntervalIntegrable (D j 0) MeasureTheory.volume x y := fun j x y hx hxy hy =>
          (((hD j).continuousOn hn).mono (by
            rw [Set.uIcc_of_le hxy]
            exact Set.Icc_subset_Icc hx hy)).intervalIntegrable
        have hsplit : ∀ j, (∫ s in t..(t + (d + h.sum)), D j 0 s) = (∫ s in t..(t + d), D j 0 s) + ∫ s in (t + d)..(t + d + h.sum), D j 0 s := by
          intro j
          rw [intervalIntegral.integral_add_adjacent_intervals (hci j _ _ ht (by linarith [hd.1]) (by linarith))
            (hci j _ _ (by linarith [hd.1]) (by linarith) (by linarith)), add_assoc]
        have two := columns one
        rw [Ph.segmentSquares]
        simp only [hsplit, sum_add_distrib]
        simp only [← mul_sum] at two
        have : d * (∑ j, ∑ i ∈ range p, W p scheme 2 "u" i * a (off + i) j ^ 2) + Ph.segmentSquares (fun p i => W p scheme 2 "u" i) a (off + p) ps h
            - 2 * ((∑ j, ∫ s in t..(t + d), D j 0 s) + ∑ j, ∫ s in (t + d)..(t + d + h.sum), D j 0 s)
            = (d * (∑ j, ∑ i ∈ range p, W p scheme 2 "u" i * a (off + i) j ^ 2) - 2 * ∑ j, ∫ s in t..(t + d), D j 0 s)
              + (Ph.segmentSquares (fun p i => W p scheme 2 "u" i) a (off + p) ps h - 2 * ∑ j, ∫ s in (t + d)..(t + d + h.sum), D j 0 s) := by ring
        rw [this]
        refine (abs_add_le _ _).trans ?_
        linarith
  have := key ps h hlen hp hn2 hh 0 0 (fun i => u (rows i)) le_rfl (by rw [zero_add, hT]) (by simpa only [zero_add] using ha)
  simpa using this

open Chords.PsCost in
/-- Bottom-up and top-down problems have the cost of node based problems of order two, so the theorems on these hold for them. -/
theorem C183_bu (scheme : String) (N n_arr : ℕ) (t0 t1 : ℝ) (m : ℕ) (a : ℕ → ℕ → ℝ) :
    buUSqCost scheme N t0 t1 m a = uSqCost scheme N n_arr 2 t0 t1 m a := by
  simp only [buUSqCost, uSqCost, quadCost, if_true, bind, Except.bind]

open Chords.PsCost Filter Topology in
/-- C183 with more and more points: for controls whose squares have derivatives that grow no faster than a power, the cost tends
to twice the integral. -/
theorem C183_points_partial {scheme : String} (hs : scheme ∈ implemented) {order : ℕ} (ho : 1 ≤ order) (hj : scheme ∈ jacobiSchemes → order ≤ 2) {T : ℝ} (hT : 0 ≤ T) (t0 : ℝ) (m : ℕ)
    {D : ℕ → ℕ → ℝ → ℝ} (hD : ∀ c < m, ∀ n, Tower (D c) n T) {K M : ℝ} (hM : 0 ≤ M) (hK : ∀ c < m, ∀ n, ∀ s ∈ Set.Icc (0 : ℝ) T, |D c n s| ≤ K * M ^ n)
    {n_arr : ℕ → ℕ} {a : ℕ → ℕ → ℕ → ℝ} {v : ℕ → ℝ} (hv : ∀ N, 2 ≤ N → uSqCost scheme N (n_arr N) order t0 (t0 + T) m (a N) = .ok (v N))
    (ha : ∀ N, 2 ≤ N → ∀ coll, collPoints N scheme order = .ok coll → ∀ i < N, ∀ c < m, a N i c ^ 2 = D c 0 (tauToT (arr coll i) t0 (t0 + T) - t0)) :
    Tendsto v atTop (𝓝 (2 * ∑ c ∈ range m, ∫ t in (0 : ℝ)..T, D c 0 t)) := by
  have hl : lost scheme ≤ 2 := by unfold lost; split_ifs <;> omega
  have hm : minPoints scheme ≤ 2 := by unfold minPoints; split_ifs <;> omega
  have hge : ∀ N, 2 ≤ N → N ≤ exactDeg scheme N := by intro N hN; unfold exactDeg; split_ifs <;> omega
  have bound : ∀ N, 2 ≤ N → |v N - 2 * ∑ c ∈ range m, ∫ t in (0 : ℝ)..T, D c 0 t|
      ≤ m * (T * (4 * (K * ((M * T) ^ (exactDeg scheme N) / (Nat.factorial (exactDeg scheme N) : ℝ))))) := by
    intro N hN
    obtain ⟨coll, c1, c2⟩ := C183_pseudospectral_partial hs ho hj (hm.trans hN) (n_arr N) (n := exactDeg scheme N) (by have := hge N hN; omega) le_rfl hT t0 m
    obtain ⟨v', e1, e2⟩ := c2 (a N) D (K * M ^ (exactDeg scheme N)) 0 le_rfl (fun c hc => hD c hc _) (fun c hc => hK c hc _) (fun i hi c hc => by
      rw [ha N hN coll c1 i hi c hc, sub_self, abs_zero])
    rw [hv N hN] at e1
    obtain rfl := Except.ok.inj e1
    refine e2.trans (le_of_eq ?_)
    rw [mul_pow]
    ring
  have lim : Tendsto (fun N : ℕ => m * (T * (4 * (K * ((M * T) ^ (exactDeg scheme N) / (Nat.factorial (exactDeg scheme N) : ℝ)))))) atTop (𝓝 0) := by
    have h1 : Tendsto (fun N : ℕ => exactDeg scheme N) atTop atTop := tendsto_atTop_mono (f := fun N : ℕ => N - 2) (fun N => by unfold exactDeg; split_ifs <;> omega) (tendsto_sub_atTop_nat 2)
    have h2 := (FloorSemiring.tendsto_pow_div_factorial_atTop (M * T)).comp h1
    have := ((((h2.const_mul K).const_mul 4).const_mul T).const_mul (m : ℝ))
    simpa [Function.comp_def] using this
  rw [tendsto_iff_dist_tendsto_zero]
  refine squeeze_zero' (Eventually.of_forall fun N => dist_nonneg) ?_ lim
  filter_upwards [eventually_ge_atTop 2] with N hN
  rw [Real.dist_eq]
  exact bound N hN

/-! ## The factor two stays -/

open Chords.Costs Chords.PsCost in
/-- C183 is false as stated for `quad_cost` without midpoints and for pseudospectral problems: for the constant control 1 the cost
is as far from the integral with any number of intervals or points. -/
theorem C183_refuted {T : ℝ} (hT : 0 < T) {N : ℕ} (hN : 0 < N) (n_arr : ℕ) :
    |Costs.quadCost (m := 1) T N (N + 1) (fun _ _ => 1) none true - ∫ _ in (0 : ℝ)..T, (1 : ℝ) ^ 2| = T ∧
    ∃ v, PsCost.uSqCost "LG" N n_arr 2 0 T 1 (fun _ _ => 1) = .ok v ∧ |v - ∫ _ in (0 : ℝ)..T, (1 : ℝ) ^ 2| = T := by
  have e : ∫ _ in (0 : ℝ)..T, (1 : ℝ) ^ 2 = T := by simp
  rw [e]
  constructor
  · have := C18_quad_cost_no_midpoints_partial T N hN (m := 1) (fun _ _ => 1) true (fun _ _ => 1) (fun _ i _ => ⟨1, 0, by simp⟩) (by simp [entry])
    rw [this]
    simp
    rw [show 2 * T - T = T by ring, abs_of_pos hT]
  · obtain ⟨coll, -, c2⟩ := C169_gauss_radau_partial (scheme := "LG") (by decide) (by decide) (order := 2) (by norm_num) (N := N)
      (by rw [show minPoints "LG" = 1 by decide]; omega) n_arr 0 T 1
    have := (c2 (fun _ _ => 1) (fun _ => 1) (fun _ _ => by rw [degree_one]; exact_mod_cast hN) (fun _ _ _ _ => by simp)).1
    refine ⟨_, this, ?_⟩
    simp
    rw [show 2 * T - T = T by ring, abs_of_pos hT]

/-! ## A case -/

/-- The function `t ^ 2` and its derivatives. -/
noncomputable def sqTower : ℕ → ℝ → ℝ
  | 0 => fun t => t ^ 2
  | 1 => fun t => 2 * t
  | 2 => fun _ => 2
  | _ => fun _ => 0

theorem sqTower_tower (n : ℕ) (T : ℝ) : Tower sqTower n T := by
  intro k _ s _
  refine HasDerivAt.hasDerivWithinAt ?_
  match k with
  | 0 => simpa [sqTower] using hasDerivAt_pow 2 s
  | 1 => simpa [sqTower] using (hasDerivAt_id s).const_mul 2
  | 2 => simpa [sqTower] using hasDerivAt_const s (2 : ℝ)
  | k + 3 => simpa [sqTower] using hasDerivAt_const s (0 : ℝ)

theorem sqTower_bound (n : ℕ) : ∀ s ∈ Set.Icc (0 : ℝ) 1, |sqTower n s| ≤ 2 * 1 ^ n := by
  intro s hs
  rw [one_pow, mul_one]
  match n with
  | 0 => simp only [sqTower]; rw [abs_of_nonneg (sq_nonneg _)]; nlinarith [hs.1, hs.2]
  | 1 => simp only [sqTower]; rw [abs_of_nonneg (by linarith [hs.1])]; linarith [hs.2]
  | 2 => simp [sqTower]
  | n + 3 => simp [sqTower]

open Chords.Costs in
/-- The control `t` on four intervals, with the schemes of the three rules, and on its own: the errors of the cost. -/
example : |uSqCost "trapz" 1 4 (m := 1) ⟨fun i _ => i / 4, fun _ _ => 0, fun _ _ => 0⟩ - 1 / 3| ≤ 1 / 8 ∧
    |uSqCost "hs_parab" 1 4 (m := 1) ⟨fun i _ => i / 4, fun i _ => (i + 1 / 2) / 4, fun _ _ => 0⟩ - 1 / 3| ≤ 1 / 1536 ∧
    |uSqCost "hsj_parab" 1 4 (m := 1) ⟨fun i _ => i / 4, fun i _ => (i + 2 / 5) / 4, fun _ _ => 0⟩ - 1 / 3| ≤ 1 / 96 ∧
    |quadCost 1 4 5 (m := 1) (fun i _ => i / 4) (some (4, fun i _ => (i + 1 / 2) / 4)) true - 1 / 3| ≤ 1 / 1536 ∧
    |quadCost 1 4 5 (m := 1) (fun i _ => i / 4) none true - 2 / 3| ≤ 1 / 4 := by
  have e : ∫ t in (0 : ℝ)..1, sqTower 0 t = 1 / 3 := by simp only [sqTower]; norm_num
  have hb : ∀ n, ∀ _ : Fin 1, ∀ s ∈ Set.Icc (0 : ℝ) 1, |sqTower n s| ≤ 2 := fun n _ s hs => by simpa using sqTower_bound n s hs
  refine ⟨?_, ?_, ?_, ?_, ?_⟩
  · have := C183_u_sq_cost_trapezoid (m := 1) (scheme := "trapz") (by decide) zero_le_one (N := 4) (by norm_num)
      (a := ⟨fun i _ => i / 4, fun _ _ => 0, fun _ _ => 0⟩) (D := fun _ => sqTower) (fun _ => sqTower_tower 2 1) (hb 2) (ε := 0) le_rfl
      (fun i _ _ => by simp [sqTower]; ring)
    simp only [e] at this
    norm_num at this ⊢
    exact this
  · have := C183_u_sq_cost_simpson (m := 1) (scheme := "hs_parab") (by decide) (Or.inl (by decide)) zero_le_one (N := 4) (by norm_num)
      (a := ⟨fun i _ => i / 4, fun i _ => (i + 1 / 2) / 4, fun _ _ => 0⟩) (D := fun _ => sqTower) (fun _ => sqTower_tower 4 1) (hb 4) (ε := 0) le_rfl
      (fun i _ _ => by simp [sqTower]; ring) (fun i _ _ => by simp [sqTower]; ring)
    simp only [e] at this
    norm_num at this ⊢
    exact this
  · have := C183_u_sq_cost_radau (m := 1) (scheme := "hsj_parab") (by decide) (by decide) (by decide) zero_le_one (N := 4) (by norm_num)
      (a := ⟨fun i _ => i / 4, fun i _ => (i + 2 / 5) / 4, fun _ _ => 0⟩) (D := fun _ => sqTower) (fun _ => sqTower_tower 3 1) (hb 3) (ε := 0) le_rfl
      (fun i _ _ => by simp [sqTower]; ring) (fun i _ _ => by simp [sqTower]; ring)
    simp only [e] at this
    norm_num at this ⊢
    exact this
  · have := C183_quad_cost (m := 1) zero_le_one (N := 4) (by norm_num) (squared := true)
      (arr := fun i _ => i / 4) (arr_c := fun i _ => (i + 1 / 2) / 4) (D := fun _ => sqTower) (fun _ => sqTower_tower 4 1) (hb 4) (ε := 0) le_rfl
      (fun i _ _ => by simp [sqTower, entry]; ring) (fun i _ _ => by simp [sqTower, entry]; ring)
    simp only [e] at this
    norm_num at this ⊢
    exact this
  · have := C183_quad_cost_no_midpoints_partial (m := 1) zero_le_one (N := 4) (by norm_num) (squared := true)
      (arr := fun i _ => i / 4) (D := fun _ => sqTower) (fun _ => sqTower_tower 2 1) (hb 2) (ε := 0) le_rfl
      (fun i _ _ => by simp [sqTower, entry]; ring)
    simp only [e] at this
    norm_num at this ⊢
    exact this

open Chords.Costs in
/-- The squared cost of the values of `t ^ 2`, which is `1 / 5`. -/
example : ∃ v, sqCost 1 4 5 (m := 1) (fun i _ => (i / 4) ^ 2) (some (4, fun i _ => ((i + 1 / 2) / 4) ^ 2)) (fun _ _ => 0) = some v ∧
    |v - 1 / 5| ≤ 1 / 10 := by
  have e : ∫ t in (0 : ℝ)..1, sqTower 0 t ^ 2 = 1 / 5 := by simp only [sqTower, ← pow_mul]; norm_num
  have hb : ∀ n, ∀ _ : Fin 1, ∀ s ∈ Set.Icc (0 : ℝ) 1, |sqTower n s| ≤ 2 := fun n _ s hs => by simpa using sqTower_bound n s hs
  obtain ⟨v, h1, h2⟩ := C183_sq_cost (m := 1) one_pos (N := 4) (by norm_num) (arr := fun i _ => (i / 4) ^ 2)
    (arr_c := fun i _ => ((i + 1 / 2) / 4) ^ 2) (dflt := fun _ _ => 0) (D := fun _ => sqTower) (fun _ => sqTower_tower 3 1) (hb 3) (hb 0) (ε := 0) le_rfl
    (fun i _ _ => by simp [sqTower]; ring) (fun i _ _ => by simp [sqTower]; ring)
  refine ⟨v, h1, ?_⟩
  simp only [e] at h2
  norm_num at h2 ⊢
  linarith

/-- Segments with two and three Lobatto points and the control `t`, at the order that two points allow. -/
example : ∃ (W : Ph.Weights) (u : ℕ → Fin 1 → ℝ) (rows : ℕ → ℕ), ∃ v, Ph.uSqCost W "LGL" [2, 3] [1 / 4, 3 / 4] u = .ok v ∧ |v - 2 / 3| ≤ 9 / 4 := by
  obtain ⟨W, hW⟩ : ∃ W : ℕ → ℕ → ℝ, ∀ p, minPoints "LGL" ≤ p → ∃ w, getWeights p "LGL" 2 "u" = .ok w ∧ ∀ i < p, W p i = w i := by
    classical
    refine ⟨fun p => if h : minPoints "LGL" ≤ p then
      (C168_weights (scheme := "LGL") (by decide) (order := 2) (by norm_num) h).choose_spec.choose else fun _ => 0, fun p hp => ?_⟩
    have := (C168_weights (scheme := "LGL") (by decide) (order := 2) (by norm_num) hp).choose_spec.choose_spec
    exact ⟨_, this.2.1, fun i _ => by simp only [hp, dif_pos]⟩
  obtain ⟨rows, hrows⟩ : ∃ rows : ℕ → ℕ, rows = fun i => [1, 2, 4, 5, 6].getD i 0 := ⟨_, rfl⟩
  have hc : ∀ k, collPoints k "LGL" = .ok (LGL k) := fun k => by simp [collPoints]
  refine ⟨fun p _ _ _ => W p, fun r _ => if r = 1 then tauToT (arr (LGL 2) 0) 0 (1 / 4) else if r = 2 then tauToT (arr (LGL 2) 1) 0 (1 / 4)
    else tauToT (arr (LGL 3) (r - 4)) (1 / 4) 1, rows, ?_⟩
  have e : ∫ t in (0 : ℝ)..1, sqTower 0 t = 1 / 3 := by simp only [sqTower]; norm_num
  have hsum : [(1 / 4 : ℝ), 3 / 4].sum = 1 := by norm_num
  obtain ⟨v, h1, h2⟩ := C183_segments_partial (m := 1) (scheme := "LGL") (by decide) (W := fun p _ _ _ => W p) hW (ps := [2, 3]) (h := [1 / 4, 3 / 4])
    rfl (by decide) (n := 2) (by norm_num) (by decide) (H := 3 / 4) (by intro d hd; simp at hd; rcases hd with rfl | rfl <;> norm_num)
    (u := fun r _ => if r = 1 then tauToT (arr (LGL 2) 0) 0 (1 / 4) else if r = 2 then tauToT (arr (LGL 2) 1) 0 (1 / 4)
      else tauToT (arr (LGL 3) (r - 4)) (1 / 4) 1) (rows := rows)
    (by
      rw [show ((Ph.segRows 1 [2, 3]).map (·.1)).flatten = [1, 2, 4, 5, 6] by decide, hrows]
      intro i hi
      simp at hi
      interval_cases i <;> rfl)
    (D := fun _ => sqTower) (fun _ => sqTower_tower 2 _) (K := 2) (fun _ s hs => by
      rw [hsum] at hs
      simpa using sqTower_bound 2 s hs) (ε := 0) le_rfl (by
      intro k hk
      simp at hk
      interval_cases k
      · refine ⟨LGL 2, hc 2, fun i hi _ => ?_⟩
        simp at hi
        interval_cases i <;> simp [hrows, sqTower]
      · refine ⟨LGL 3, hc 3, fun i hi _ => ?_⟩
        simp at hi
        have h34 : (4 : ℝ)⁻¹ + 3 / 4 = 1 := by norm_num
        interval_cases i <;> simp [hrows, sqTower, h34])
  refine ⟨v, h1, ?_⟩
  simp only [hsum, e] at h2
  norm_num [Nat.factorial] at h2 ⊢
  exact h2

open Chords.PsCost Filter Topology in
/-- The control `t` with more and more Jacobi-Radau points. -/
example : ∃ v : ℕ → ℝ, (∀ N, 2 ≤ N → uSqCost "JGR" N N 2 0 1 1 (fun i _ => tauToT (arr (JGR N 2) i) 0 1) = .ok (v N)) ∧ Tendsto v atTop (𝓝 (2 / 3)) := by
  have hex : ∀ N, ∃ v, 2 ≤ N → uSqCost "JGR" N N 2 0 (0 + 1) 1 (fun i _ => tauToT (arr (JGR N 2) i) 0 1) = .ok v := by
    intro N
    by_cases hN : 2 ≤ N
    · obtain ⟨v, h, -⟩ := C184_pseudospectral_partial (scheme := "JGR") (by decide) (order := 2) (by norm_num) (fun _ => le_rfl) (N := N)
        (le_trans (by decide) hN) N (t0 := 0) (t1 := 0 + 1) (by norm_num) 1 (fun i _ => tauToT (arr (JGR N 2) i) 0 1)
      exact ⟨v, fun _ => h⟩
    · exact ⟨0, fun h => absurd h hN⟩
  choose v hv using hex
  refine ⟨v, by simpa using hv, ?_⟩
  have := C183_points_partial (scheme := "JGR") (by decide) (order := 2) (by norm_num) (fun _ => le_rfl) zero_le_one 0 1 (D := fun _ => sqTower)
    (fun _ _ n => sqTower_tower n 1) (K := 2) (M := 1) zero_le_one (fun _ _ n => sqTower_bound n) (n_arr := fun N => N) hv
    (fun N _ coll hc i _ _ _ => by
      have : coll = JGR N 2 := by
        simp [collPoints] at hc
        exact hc.symm
      simp [this, sqTower])
  have e : ∫ t in (0 : ℝ)..1, sqTower 0 t = 1 / 3 := by simp only [sqTower]; norm_num
  simp only [range_one, sum_singleton, e] at this
  norm_num at this
  exact this

end Chords.Conv
