import Verif.Lemmas.ConvStep
import Verif.Props.NodePs
import Mathlib.Topology.Algebra.Polynomial
import Mathlib.Analysis.Calculus.Deriv.Polynomial

/-! # Collocation polynomials on one segment -/

namespace Chords.Conv
open Set Polynomial Chords.Bary Chords.TimeScale Chords.Props Chords.BuTd Chords.Gauss

/-- A polynomial that is small at the points is small between them, by a factor `Λ`. -/
def Leb (N : ℕ) (t : ℕ → ℝ) (Λ : ℝ) : Prop :=
  ∀ P : ℝ[X], P.degree < N → ∀ d, 0 ≤ d → (∀ m < N, |P.eval (t m)| ≤ d) → ∀ x ∈ Icc (-1 : ℝ) 1, |P.eval x| ≤ Λ * d

theorem Leb.mono {N : ℕ} {t : ℕ → ℝ} {Λ Λ' : ℝ} (h : Leb N t Λ) (hl : Λ ≤ Λ') : Leb N t Λ' :=
  fun P hP d hd hm x hx => (h P hP d hd hm x hx).trans (mul_le_mul_of_nonneg_right hl hd)

theorem leb_exists {N : ℕ} {t : ℕ → ℝ} (hd : Distinct N t) : ∃ Λ, 0 ≤ Λ ∧ Leb N t Λ := by
  have hb : ∀ m, ∃ C, ∀ x ∈ Icc (-1 : ℝ) 1, |(Lagrange.basis (Finset.range N) t m).eval x| ≤ C := fun m =>
    isCompact_Icc.exists_bound_of_continuousOn (Lagrange.basis (Finset.range N) t m).continuous.continuousOn
  choose C hC using hb
  have hC0 : ∀ m, 0 ≤ C m := fun m => (abs_nonneg _).trans (hC m 0 ⟨by norm_num, by norm_num⟩)
  refine ⟨∑ m ∈ Finset.range N, C m, Finset.sum_nonneg fun m _ => hC0 m, fun P hP d hd0 hm x hx => ?_⟩
  have e := Lagrange.eq_interpolate (s := Finset.range N) (v := t) hd.injOn (f := P) (by simpa using hP)
  rw [e, Lagrange.interpolate_apply, eval_finset_sum, Finset.sum_mul]
  refine (Finset.abs_sum_le_sum_abs _ _).trans (Finset.sum_le_sum fun m hmm => ?_)
  rw [eval_mul, eval_C, abs_mul, mul_comm]
  exact mul_le_mul (hC m x hx) (hm m (Finset.mem_range.1 hmm)) (abs_nonneg _) (hC0 m)

theorem tau_of_time {t0 t1 x : ℝ} (ht : t0 < t1) (hx : x ∈ Icc t0 t1) : ∃ y ∈ Icc (-1 : ℝ) 1, tauToT y t0 t1 = x := by
  have hp : 0 < t1 - t0 := by linarith
  refine ⟨2 * (x - t0) / (t1 - t0) - 1, ⟨?_, ?_⟩, ?_⟩
  · have : 0 ≤ 2 * (x - t0) / (t1 - t0) := div_nonneg (by linarith [hx.1]) hp.le
    linarith
  · have : 2 * (x - t0) / (t1 - t0) ≤ 2 := by rw [div_le_iff₀ hp]; linarith [hx.2]
    linarith
  · unfold tauToT
    field_simp
    ring

theorem time_of_tau {t0 t1 y : ℝ} (ht : t0 < t1) (hy : y ∈ Icc (-1 : ℝ) 1) : tauToT y t0 t1 ∈ Icc t0 t1 := by
  unfold tauToT
  constructor
  · have : 0 ≤ (t1 - t0) * (y + 1) := mul_nonneg (by linarith) (by linarith [hy.1])
    linarith
  · have : 0 ≤ (t1 - t0) * (1 - y) := mul_nonneg (by linarith) (by linarith [hy.2])
    linarith

theorem Leb.time {N : ℕ} {t : ℕ → ℝ} {Λ t0 t1 d : ℝ} (h : Leb N t Λ) (ht : t0 < t1) {P : ℝ[X]} (hP : P.degree < N) (hd : 0 ≤ d)
    (hm : ∀ m < N, |P.eval (tauToT (t m) t0 t1)| ≤ d) {x : ℝ} (hx : x ∈ Icc t0 t1) : |P.eval x| ≤ Λ * d := by
  obtain ⟨y, hy, rfl⟩ := tau_of_time ht hx
  have := h (P.comp (toT t0 t1)) (comp_toT_degree t0 t1 hP) d hd (fun m hmm => by rw [eval_comp, toT_eval]; exact hm m hmm) y hy
  rwa [eval_comp, toT_eval] at this

/-- The polynomial of Taylor around an instant. -/
noncomputable def taylorPoly (t0 : ℝ) (n : ℕ) (c : ℕ → ℝ) : ℝ[X] :=
  ∑ i ∈ Finset.range n, C (c i / (Nat.factorial i : ℝ)) * (X - C t0) ^ i

theorem taylorPoly_degree (t0 : ℝ) (n : ℕ) (c : ℕ → ℝ) : (taylorPoly t0 n c).degree < n := by
  unfold taylorPoly
  refine (degree_sum_le _ _).trans_lt ((Finset.sup_lt_iff (by exact_mod_cast WithBot.bot_lt_coe n)).2 fun i hi => ?_)
  rw [← smul_eq_C_mul]
  refine (degree_smul_le _ _).trans_lt ?_
  rw [degree_pow, degree_X_sub_C, nsmul_one]
  exact_mod_cast Finset.mem_range.1 hi

theorem taylorPoly_eval (t0 : ℝ) (n : ℕ) (c : ℕ → ℝ) (τ : ℝ) :
    (taylorPoly t0 n c).eval (t0 + τ) = ∑ i ∈ Finset.range n, (τ ^ i / (Nat.factorial i : ℝ)) • c i := by
  unfold taylorPoly
  rw [eval_finset_sum]
  refine Finset.sum_congr rfl fun i _ => ?_
  simp only [eval_mul, eval_C, eval_pow, eval_sub, eval_X, add_sub_cancel_left, smul_eq_mul]
  ring

theorem derivative_degree {M N : ℕ} {P : ℝ[X]} (h : P.degree < (M + N : ℕ)) : (derivative^[M] P).degree < N := by
  induction M generalizing P with
  | zero => simpa using h
  | succ M ih =>
    rw [Function.iterate_succ_apply]
    apply ih
    by_cases h0 : P = 0
    · simp only [h0, derivative_zero, degree_zero]
      exact WithBot.bot_lt_coe _
    · have := degree_derivative_lt h0
      have h1 : P.natDegree < M + 1 + N := (natDegree_lt_iff_degree_lt h0).2 h
      by_cases h2 : derivative P = 0
      · rw [h2, degree_zero]; exact WithBot.bot_lt_coe _
      · rw [← natDegree_lt_iff_degree_lt h2]
        have := (natDegree_lt_natDegree h2 this)
        omega

/-- The derivatives of a polynomial and of a curve on a segment, from its start on. -/
theorem tower_time {t0 t1 : ℝ} {n : ℕ} {D : ℕ → ℝ → ℝ}
    (hD : ∀ k < n, ∀ t ∈ Icc t0 t1, HasDerivWithinAt (D k) (D (k + 1) t) (Icc t0 t1) t) :
    Tower (fun k τ => D k (t0 + τ)) n (t1 - t0) := by
  intro k hk s hs
  have hm : MapsTo (fun τ => t0 + τ) (Icc 0 (t1 - t0)) (Icc t0 t1) := fun τ hτ => ⟨by linarith [hτ.1], by linarith [hτ.2]⟩
  have h1 : HasDerivWithinAt (fun τ : ℝ => t0 + τ) 1 (Icc 0 (t1 - t0)) s := (hasDerivAt_id s).const_add t0 |>.hasDerivWithinAt
  have := (hD k hk (t0 + s) (hm hs)).comp s h1 hm
  rw [mul_one] at this
  exact this

theorem poly_tower (P : ℝ[X]) (n : ℕ) (s : Set ℝ) : ∀ k < n, ∀ t ∈ s,
    HasDerivWithinAt (fun t => (derivative^[k] P).eval t) ((derivative^[k + 1] P).eval t) s t := by
  intro k _ t _
  rw [Function.iterate_succ_apply']
  exact ((derivative^[k] P).hasDerivAt t).hasDerivWithinAt

/-- The error of the collocation polynomials of a segment. -/
theorem seg_err {ι : Type} [Fintype ι] {M n N : ℕ} {t : ℕ → ℝ} {Λ t0 t1 L K δ : ℝ} (hn : n ≤ N) (hpts : ∀ m < N, t m ∈ Icc (-1 : ℝ) 1) (hΛ0 : 0 ≤ Λ)
    (hΛ : Leb N t Λ) (ht : t0 < t1) (hh : t1 - t0 ≤ 1 / 2) (hL : 0 ≤ L) (hhL : 4 * (t1 - t0) * (Λ * L) ≤ 1) {R : ι → ℝ[X]} (hR : ∀ j, (R j).degree < (M + N : ℕ))
    {D : ι → ℕ → ℝ → ℝ} (hD : ∀ j, ∀ k < M + n, ∀ x ∈ Icc t0 t1, HasDerivWithinAt (D j k) (D j (k + 1) x) (Icc t0 t1) x) (hK0 : 0 ≤ K)
    (hK : ∀ j, ∀ x ∈ Icc t0 t1, |D j (M + n) x| ≤ K) (hδ : 0 ≤ δ) (h0 : ∀ p < M, ∀ j, |(derivative^[p] (R j)).eval t0 - D j p t0| ≤ δ)
    (hcol : ∀ m < N, ∀ d, (∀ p < M, ∀ j, |(derivative^[p] (R j)).eval (tauToT (t m) t0 t1) - D j p (tauToT (t m) t0 t1)| ≤ d) →
      ∀ j, |(derivative^[M] (R j)).eval (tauToT (t m) t0 t1) - D j M (tauToT (t m) t0 t1)| ≤ L * d) :
    ∀ p < M, ∀ j, ∀ x ∈ Icc t0 t1, |(derivative^[p] (R j)).eval x - D j p x|
      ≤ δ + (t1 - t0) * (2 * (1 + 4 * (Λ * L)) * δ + 2 * (Λ + 1) * (1 + 2 * (Λ * L)) * K * (t1 - t0) ^ n) := by
  obtain ⟨H, hH⟩ : ∃ H, H = t1 - t0 := ⟨_, rfl⟩
  rw [← hH] at hh hhL ⊢
  have hHp : 0 < H := by rw [hH]; linarith
  have hΛL : 0 ≤ Λ * L := mul_nonneg hΛ0 hL
  -- the largest error at the points
  obtain ⟨E, hE0, hE, hEmin⟩ : ∃ E : ℝ, 0 ≤ E ∧ (∀ m < N, ∀ p < M, ∀ j, |(derivative^[p] (R j)).eval (tauToT (t m) t0 t1) - D j p (tauToT (t m) t0 t1)| ≤ E) ∧
      ∀ b, 0 ≤ b → (∀ m < N, ∀ p < M, ∀ j, |(derivative^[p] (R j)).eval (tauToT (t m) t0 t1) - D j p (tauToT (t m) t0 t1)| ≤ b) → E ≤ b := by
    refine ⟨‖fun (m : Fin N) (p : Fin M) (j : ι) => (derivative^[p] (R j)).eval (tauToT (t m) t0 t1) - D j p (tauToT (t m) t0 t1)‖, norm_nonneg _, ?_, ?_⟩
    · intro m hm p hp j
      obtain ⟨f, hf⟩ : ∃ f : Fin N → Fin M → ι → ℝ, f = fun (m : Fin N) (p : Fin M) (j : ι) => (derivative^[p] (R j)).eval (tauToT (t m) t0 t1) - D j p (tauToT (t m) t0 t1) := ⟨_, rfl⟩
      rw [← hf]
      have : |f ⟨m, hm⟩ ⟨p, hp⟩ j| ≤ ‖f‖ :=
        ((norm_le_pi_norm (f ⟨m, hm⟩ ⟨p, hp⟩) j).trans (norm_le_pi_norm (f ⟨m, hm⟩) ⟨p, hp⟩)).trans (norm_le_pi_norm f ⟨m, hm⟩)
      rw [hf] at this ⊢
      exact this
    · intro b hb hall
      refine (pi_norm_le_iff_of_nonneg hb).2 fun m => (pi_norm_le_iff_of_nonneg hb).2 fun p => (pi_norm_le_iff_of_nonneg hb).2 fun j => ?_
      exact hall m m.2 p p.2 j
  have hI : ∀ {x}, x ∈ Icc t0 t1 → x - t0 ∈ Icc 0 H := fun hx => ⟨by linarith [hx.1], by linarith [hx.2]⟩
  have hKH : 0 ≤ K * H ^ n := by positivity
  -- Taylor's polynomial of the highest derivative
  have hT : ∀ j, ∀ x ∈ Icc t0 t1, |D j M x - (taylorPoly t0 n fun i => D j (i + M) t0).eval x| ≤ K * H ^ n := by
    intro j x hx
    have hDM : ∀ k < n, ∀ x ∈ Icc t0 t1, HasDerivWithinAt (D j (k + M)) (D j (k + 1 + M) x) (Icc t0 t1) x := by
      intro k hk x hx
      rw [show k + 1 + M = k + M + 1 by omega]
      exact hD j (k + M) (by omega) x hx
    have := taylor (E := ℝ) (K := K) (tower_time (D := fun k => D j (k + M)) hDM) (fun s hs => by
      rw [Real.norm_eq_abs, add_comm n M]
      exact hK j _ ⟨by linarith [hs.1], by linarith [hs.2]⟩) (x - t0) (by rw [← hH]; exact hI hx)
    rw [add_zero, ← taylorPoly_eval, Real.norm_eq_abs, zero_add, add_sub_cancel] at this
    refine this.trans ?_
    rw [div_le_iff₀ (by positivity)]
    have h1 : (x - t0) ^ n ≤ H ^ n := pow_le_pow_left₀ (hI hx).1 (hI hx).2 n
    have h2 : (1 : ℝ) ≤ (Nat.factorial n : ℝ) := by exact_mod_cast Nat.one_le_iff_ne_zero.2 (Nat.factorial_ne_zero n)
    calc K * (x - t0) ^ n ≤ K * H ^ n := mul_le_mul_of_nonneg_left h1 hK0
      _ ≤ K * H ^ n * (Nat.factorial n : ℝ) := le_mul_of_one_le_right hKH h2
  -- the highest derivative
  have htop : ∀ j, ∀ x ∈ Icc t0 t1, |(derivative^[M] (R j)).eval x - D j M x| ≤ Λ * L * E + (Λ + 1) * (K * H ^ n) := by
    intro j x hx
    obtain ⟨P, hP⟩ : ∃ P, P = taylorPoly t0 n fun i => D j (i + M) t0 := ⟨_, rfl⟩
    have hdeg : (derivative^[M] (R j) - P).degree < N := by
      refine (degree_sub_le _ _).trans_lt (max_lt (derivative_degree (hR j)) ?_)
      rw [hP]
      exact (taylorPoly_degree _ _ _).trans_le (by exact_mod_cast hn)
    have h1 := hΛ.time ht hdeg (d := L * E + K * H ^ n) (by positivity) (fun m hm => by
      have a1 := hcol m hm E (hE m hm) j
      have a2 := hT j _ (time_of_tau ht (hpts m hm))
      rw [← hP] at a2
      rw [eval_sub]
      calc _ = |((derivative^[M] (R j)).eval (tauToT (t m) t0 t1) - D j M (tauToT (t m) t0 t1))
            + (D j M (tauToT (t m) t0 t1) - P.eval (tauToT (t m) t0 t1))| := by congr 1; ring
        _ ≤ _ := (abs_add_le _ _).trans (add_le_add a1 a2)) hx
    have h2 := hT j x hx
    rw [← hP] at h2
    rw [eval_sub] at h1
    calc _ = |((derivative^[M] (R j)).eval x - P.eval x) - (D j M x - P.eval x)| := by congr 1; ring
      _ ≤ Λ * (L * E + K * H ^ n) + K * H ^ n := (abs_sub _ _).trans (add_le_add h1 h2)
      _ = _ := by ring
  have hE' : 0 ≤ Λ * L * E + (Λ + 1) * (K * H ^ n) := by positivity
  have hlow : ∀ p < M, ∀ j, ∀ x ∈ Icc t0 t1, |(derivative^[p] (R j)).eval x - D j p x|
      ≤ δ + H * (2 * (δ + (Λ * L * E + (Λ + 1) * (K * H ^ n)))) := by
    intro p hp j x hx
    have tw : Tower (fun k τ => (derivative^[k] (R j)).eval (t0 + τ) - D j k (t0 + τ)) M H := by
      intro k hk s hs
      rw [hH] at hs ⊢
      exact (tower_time (poly_tower (R j) M (Icc t0 t1)) k hk s hs).sub (tower_time (fun k hk => hD j k (show k < M + n by omega)) k hk s hs)
    obtain ⟨g1, g2⟩ := tower_err (E := Λ * L * E + (Λ + 1) * (K * H ^ n)) tw (fun p hp => by simpa using h0 p hp j) (fun s hs => htop j _ ⟨by linarith [hs.1], by linarith [hs.2]⟩) hHp.le hh hδ hE'
    have := g2 p hp _ (g1 (p + 1) (by omega)) (x - t0) (hI hx)
    simpa using this
  have hEb := hEmin _ (by positivity) fun m hm p hp j => hlow p hp j _ (time_of_tau ht (hpts m hm))
  have hE4 : E ≤ 4 * δ + 2 * (Λ + 1) * (K * H ^ n) := by
    have a1 : 2 * H * (Λ * L * E) ≤ E / 2 := by nlinarith
    have a2 : 2 * H * δ ≤ δ := by nlinarith
    have a3 : 2 * H * ((Λ + 1) * (K * H ^ n)) ≤ (Λ + 1) * (K * H ^ n) := by
      have : 0 ≤ (Λ + 1) * (K * H ^ n) := by positivity
      nlinarith
    nlinarith
  intro p hp j x hx
  refine (hlow p hp j x hx).trans (add_le_add_right (mul_le_mul_of_nonneg_left ?_ hHp.le) _)
  have := mul_le_mul_of_nonneg_left hE4 hΛL
  nlinarith

/-- Errors accumulated over segments of different lengths. -/
theorem mesh_step {a τ d0 t H : ℝ} (ha : 0 ≤ a) (hτ : 0 ≤ τ) (hd : 0 ≤ d0) (ht : 0 ≤ t) (hH : 0 ≤ H) {b : ℝ → ℝ} (hb : ∀ t, b t = Real.exp (a * t) * (d0 + t * τ)) :
    b t + H * (a * b t + τ) ≤ b (t + H) := by
  have h1 : 1 + a * H ≤ Real.exp (a * H) := by linarith [Real.add_one_le_exp (a * H)]
  have h2 : Real.exp (a * (t + H)) = Real.exp (a * H) * Real.exp (a * t) := by rw [← Real.exp_add]; congr 1; ring
  have h3 : 1 ≤ Real.exp (a * (t + H)) := Real.one_le_exp (by positivity)
  have h4 : 0 ≤ b t := by rw [hb]; positivity
  have h5 : (1 + a * H) * b t ≤ Real.exp (a * H) * b t := mul_le_mul_of_nonneg_right h1 h4
  have h6 : H * τ ≤ Real.exp (a * (t + H)) * (H * τ) := le_mul_of_one_le_left (by positivity) h3
  have h7 : b (t + H) = Real.exp (a * H) * b t + Real.exp (a * (t + H)) * (H * τ) := by
    rw [hb, hb, h2]
    ring
  rw [h7]
  nlinarith

end Chords.Conv
