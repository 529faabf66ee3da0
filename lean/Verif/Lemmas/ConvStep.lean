import Verif.Lemmas.Conv
import Verif.Spec.Pieces

/-! # Steps with the highest derivative on a line or on a parabola -/

namespace Chords.Conv
open Set Chords.Spec

variable {e Z c : ℕ → ℝ → ℝ} {M : ℕ} {h δ E K K' : ℝ}

/-- Bounds of a curve and its derivatives from bounds of the start and of the highest derivative. -/
theorem tower_err (he : Tower e M h) (h0 : ∀ p < M, |e p 0| ≤ δ) (hE : ∀ s ∈ Icc (0 : ℝ) h, |e M s| ≤ E) (hh : 0 ≤ h) (hh2 : h ≤ 1 / 2)
    (hδ : 0 ≤ δ) (hE0 : 0 ≤ E) :
    (∀ p ≤ M, ∀ s ∈ Icc (0 : ℝ) h, |e p s| ≤ 2 * (δ + E)) ∧ ∀ p < M, ∀ C, (∀ s ∈ Icc (0 : ℝ) h, |e (p + 1) s| ≤ C) → ∀ s ∈ Icc (0 : ℝ) h, |e p s| ≤ δ + h * C := by
  have step : ∀ p < M, ∀ C, (∀ s ∈ Icc (0 : ℝ) h, |e (p + 1) s| ≤ C) → ∀ s ∈ Icc (0 : ℝ) h, |e p s| ≤ δ + h * C := by
    intro p hp C hC s hs
    have hC0 : 0 ≤ C := (abs_nonneg _).trans (hC s hs)
    have := bound_of_deriv (g := fun s => e p s - e p 0) (g' := e (p + 1)) (C := C) 0 (fun s hs => (he p hp s hs).sub_const _) (sub_self _)
      (fun s hs => by simpa using hC s hs) s hs
    simp only [Real.norm_eq_abs, zero_add, pow_one, Nat.cast_zero, div_one] at this
    have h1 : |e p s| ≤ |e p 0| + |e p s - e p 0| := by
      have := abs_add_le (e p 0) (e p s - e p 0)
      simpa using this
    have h2 : C * s ≤ h * C := by rw [mul_comm]; exact mul_le_mul_of_nonneg_right hs.2 hC0
    linarith [h0 p hp]
  refine ⟨?_, step⟩
  have : ∀ k ≤ M, ∀ s ∈ Icc (0 : ℝ) h, |e (M - k) s| ≤ 2 * (δ + E) := by
    intro k
    induction k with
    | zero => intro _ s hs; exact (hE s hs).trans (by linarith)
    | succ k ih =>
      intro hk s hs
      refine (step (M - (k + 1)) (by omega) (2 * (δ + E)) ?_ s hs).trans (by nlinarith)
      rw [show M - (k + 1) + 1 = M - k by omega]
      exact ih (by omega)
  intro p hp s hs
  have := this (M - p) (by omega) s hs
  rwa [show M - (M - p) = p by omega] at this

private theorem unit {h s : ℝ} (hh : 0 < h) (hs : s ∈ Icc (0 : ℝ) h) : ∃ x, 0 ≤ x ∧ x ≤ 1 ∧ s = x * h :=
  ⟨s / h, div_nonneg hs.1 hh.le, (div_le_one hh).2 hs.2, by field_simp⟩

/-- The straight line through two samples of a curve, or through values close to them. -/
theorem line_err {f ℓ : ℝ → ℝ} {D : ℕ → ℝ → ℝ} {a b : ℝ} (hh : 0 < h) (hD : Tower D 2 h) (hf : D 0 = f) (hK : ∀ s ∈ Icc (0 : ℝ) h, |D 2 s| ≤ K)
    (hl : ∀ τ, ℓ τ = a + τ • b) : ∀ s ∈ Icc (0 : ℝ) h, |ℓ s - f s| ≤ K * h ^ 2 + |ℓ 0 - f 0| + |ℓ h - f h| := by
  intro s hs
  subst hf
  have hK0 : 0 ≤ K := (abs_nonneg _).trans (hK s hs)
  obtain ⟨t1, -⟩ := taylor2 hD (fun s hs => by simpa using hK s hs) hs
  obtain ⟨t2, -⟩ := taylor2 hD (fun s hs => by simpa using hK s hs) (s := h) ⟨hh.le, le_rfl⟩
  simp only [Real.norm_eq_abs, smul_eq_mul] at t1 t2
  obtain ⟨x, h0, h1, rfl⟩ := unit hh hs
  simp only [hl, smul_eq_mul, zero_mul, add_zero]
  have : a + x * h * b - D 0 (x * h) = -(D 0 (x * h) - (D 0 0 + x * h * D 1 0)) + x * (D 0 h - (D 0 0 + h * D 1 0)) + (1 - x) * (a - D 0 0) + x * (a + h * b - D 0 h) := by ring
  rw [this]
  have b1 : |x * (D 0 h - (D 0 0 + h * D 1 0))| ≤ K * h ^ 2 / 2 := by
    rw [abs_mul, abs_of_nonneg h0]
    exact (mul_le_of_le_one_left (abs_nonneg _) h1).trans t2
  have b2 : |(1 - x) * (a - D 0 0)| ≤ |a - D 0 0| := by
    rw [abs_mul, abs_of_nonneg (by linarith)]
    exact mul_le_of_le_one_left (abs_nonneg _) (by linarith)
  have b3 : |x * (a + h * b - D 0 h)| ≤ |a + h * b - D 0 h| := by
    rw [abs_mul, abs_of_nonneg h0]
    exact mul_le_of_le_one_left (abs_nonneg _) h1
  have b4 : K * (x * h) ^ 2 / 2 ≤ K * h ^ 2 / 2 := by
    have : (x * h) ^ 2 ≤ h ^ 2 := by
      rw [mul_pow]
      exact mul_le_of_le_one_left (by positivity) (pow_le_one₀ h0 h1)
    have := mul_le_mul_of_nonneg_left this hK0
    linarith
  have q := abs_add_le (-(D 0 (x * h) - (D 0 0 + x * h * D 1 0)) + x * (D 0 h - (D 0 0 + h * D 1 0)) + (1 - x) * (a - D 0 0)) (x * (a + h * b - D 0 h))
  have q1 := abs_add_le (-(D 0 (x * h) - (D 0 0 + x * h * D 1 0)) + x * (D 0 h - (D 0 0 + h * D 1 0))) ((1 - x) * (a - D 0 0))
  have q2 := abs_add_le (-(D 0 (x * h) - (D 0 0 + x * h * D 1 0))) (x * (D 0 h - (D 0 0 + h * D 1 0)))
  rw [abs_neg] at q2
  linarith

set_option maxHeartbeats 1000000 in
/-- The parabola through three samples of a curve, or through values close to them. -/
theorem parab_err {f ℓ : ℝ → ℝ} {D : ℕ → ℝ → ℝ} {a b d θ : ℝ} (hθ : θ = 1 / 2 ∨ θ = 2 / 5) (hh : 0 < h) (hD : Tower D 3 h) (hf : D 0 = f)
    (hK : ∀ s ∈ Icc (0 : ℝ) h, |D 3 s| ≤ K) (hl : ∀ τ, ℓ τ = a + τ • b + τ ^ 2 • d) :
    ∀ s ∈ Icc (0 : ℝ) h, |ℓ s - f s| ≤ K * h ^ 3 + |ℓ 0 - f 0| + 2 * |ℓ (θ * h) - f (θ * h)| + |ℓ h - f h| := by
  intro s hs
  subst hf
  have hK0 : 0 ≤ K := (abs_nonneg _).trans (hK s hs)
  have hθ0 : 0 < θ := by obtain rfl | rfl := hθ <;> norm_num
  have hθ1 : θ ≤ 1 / 2 := by obtain rfl | rfl := hθ <;> norm_num
  obtain ⟨t1, -⟩ := taylor3 hD (fun s hs => by simpa using hK s hs) hs
  obtain ⟨t2, -⟩ := taylor3 hD (fun s hs => by simpa using hK s hs) (s := h) ⟨hh.le, le_rfl⟩
  obtain ⟨t3, -⟩ := taylor3 hD (fun s hs => by simpa using hK s hs) (s := θ * h) ⟨by positivity, by nlinarith⟩
  simp only [Real.norm_eq_abs, smul_eq_mul] at t1 t2 t3
  obtain ⟨x, h0, h1, rfl⟩ := unit hh hs
  obtain ⟨l0, hl0⟩ : ∃ l0, l0 = (x - θ) * (x - 1) / θ := ⟨_, rfl⟩
  obtain ⟨lc, hlc⟩ : ∃ lc, lc = x * (1 - x) / (θ * (1 - θ)) := ⟨_, rfl⟩
  obtain ⟨l1, hl1⟩ : ∃ l1, l1 = x * (x - θ) / (1 - θ) := ⟨_, rfl⟩
  have hθ2 : (1 : ℝ) - θ ≠ 0 := by linarith
  have s0 : l0 + lc + l1 = 1 := by rw [hl0, hlc, hl1]; field_simp; ring
  have s1 : lc * θ + l1 = x := by rw [hlc, hl1]; field_simp; ring
  have s2 : lc * θ ^ 2 + l1 = x ^ 2 := by rw [hlc, hl1]; field_simp; ring
  have a0 : |l0| ≤ 1 := by
    rw [hl0, abs_le, le_div_iff₀ hθ0, div_le_iff₀ hθ0]
    obtain rfl | rfl := hθ <;> constructor <;> nlinarith
  have ac : |lc| ≤ 2 := by
    have : 0 < θ * (1 - θ) := by nlinarith
    rw [hlc, abs_le, le_div_iff₀ this, div_le_iff₀ this]
    obtain rfl | rfl := hθ <;> constructor <;> nlinarith [sq_nonneg (x - 1 / 2)]
  have a1 : |l1| ≤ 1 := by
    have : 0 < 1 - θ := by linarith
    rw [hl1, abs_le, le_div_iff₀ this, div_le_iff₀ this]
    obtain rfl | rfl := hθ <;> constructor <;> nlinarith [sq_nonneg (x - 1 / 4), sq_nonneg (x - 1 / 5)]
  obtain ⟨R, hR⟩ : ∃ R : ℝ → ℝ, R = fun s => D 0 s - (D 0 0 + s * D 1 0 + s ^ 2 / 2 * D 2 0) := ⟨_, rfl⟩
  have r1 : |R (x * h)| ≤ K * (x * h) ^ 3 / 6 := by rw [hR]; exact t1
  have r2 : |R h| ≤ K * h ^ 3 / 6 := by rw [hR]; exact t2
  have r3 : |R (θ * h)| ≤ K * (θ * h) ^ 3 / 6 := by rw [hR]; exact t3
  have key : ℓ (x * h) - D 0 (x * h) = -R (x * h) + lc * R (θ * h) + l1 * R h + l0 * (ℓ 0 - D 0 0) + lc * (ℓ (θ * h) - D 0 (θ * h)) + l1 * (ℓ h - D 0 h) := by
    simp only [hl, hR, smul_eq_mul]
    have : l0 = 1 - lc - l1 := by linarith
    rw [this]
    linear_combination (h * D 1 0 - b * h) * s1 + (h ^ 2 / 2 * D 2 0 - d * h ^ 2) * s2
  rw [key]
  have c1 : |lc * R (θ * h)| ≤ 2 * (K * (θ * h) ^ 3 / 6) := by
    rw [abs_mul]; exact mul_le_mul ac r3 (abs_nonneg _) (by norm_num)
  have c2 : |l1 * R h| ≤ K * h ^ 3 / 6 := by
    rw [abs_mul]; exact (mul_le_of_le_one_left (abs_nonneg _) a1).trans r2
  have c3 : |l0 * (ℓ 0 - D 0 0)| ≤ |ℓ 0 - D 0 0| := by
    rw [abs_mul]; exact mul_le_of_le_one_left (abs_nonneg _) a0
  have c4 : |lc * (ℓ (θ * h) - D 0 (θ * h))| ≤ 2 * |ℓ (θ * h) - D 0 (θ * h)| := by
    rw [abs_mul]; exact mul_le_mul_of_nonneg_right ac (abs_nonneg _)
  have c5 : |l1 * (ℓ h - D 0 h)| ≤ |ℓ h - D 0 h| := by
    rw [abs_mul]; exact mul_le_of_le_one_left (abs_nonneg _) a1
  have d1 : K * (x * h) ^ 3 / 6 ≤ K * h ^ 3 / 6 := by
    have : (x * h) ^ 3 ≤ h ^ 3 := by
      rw [mul_pow]
      exact mul_le_of_le_one_left (by positivity) (pow_le_one₀ h0 h1)
    have := mul_le_mul_of_nonneg_left this hK0
    linarith
  have d2 : K * (θ * h) ^ 3 / 6 ≤ K * h ^ 3 / 6 := by
    have : (θ * h) ^ 3 ≤ h ^ 3 := by
      rw [mul_pow]
      exact mul_le_of_le_one_left (by positivity) (pow_le_one₀ hθ0.le (by linarith))
    have := mul_le_mul_of_nonneg_left this hK0
    linarith
  have d3 : 0 ≤ K * h ^ 3 := by positivity
  have q1 := abs_add_le (-R (x * h) + lc * R (θ * h) + l1 * R h + l0 * (ℓ 0 - D 0 0) + lc * (ℓ (θ * h) - D 0 (θ * h))) (l1 * (ℓ h - D 0 h))
  have q2 := abs_add_le (-R (x * h) + lc * R (θ * h) + l1 * R h + l0 * (ℓ 0 - D 0 0)) (lc * (ℓ (θ * h) - D 0 (θ * h)))
  have q3 := abs_add_le (-R (x * h) + lc * R (θ * h) + l1 * R h) (l0 * (ℓ 0 - D 0 0))
  have q4 := abs_add_le (-R (x * h) + lc * R (θ * h)) (l1 * R h)
  have q5 := abs_add_le (-R (x * h)) (lc * R (θ * h))
  rw [abs_neg] at q5
  linarith

/-- A curve whose derivative is a parabola grows by what Simpson's rule gives. -/
theorem simpson_exact {g ℓ : ℝ → ℝ} {a b d : ℝ} (hg : ∀ τ, HasDerivAt g (ℓ τ) τ) (hl : ∀ τ, ℓ τ = a + τ • b + τ ^ 2 • d) :
    g h = g 0 + h / 6 * (ℓ 0 + 4 * ℓ (h / 2) + ℓ h) := by
  have hk : ∀ τ, HasDerivAt (fun τ => g τ - (a * τ + τ ^ 2 / 2 * b + τ ^ 3 / 3 * d)) 0 τ := by
    intro τ
    have h1 := ((hasDerivAt_id τ).const_mul a).add (((hasDerivAt_pow 2 τ).div_const 2).mul_const b)
    have h2 := h1.add (((hasDerivAt_pow 3 τ).div_const 3).mul_const d)
    have h3 := (hg τ).sub h2
    refine h3.congr_deriv ?_
    rw [hl]
    simp only [smul_eq_mul, Nat.cast_ofNat, Nat.add_one_sub_one, Nat.reduceSub, pow_one]
    ring
  have := is_const_of_deriv_eq_zero (fun x => (hk x).differentiableAt) (fun x => (hk x).deriv) h 0
  simp only [hl, smul_eq_mul] at this ⊢
  linear_combination this


private theorem motion_tower {n : ℕ} (hc : Motion c) (hZ : Tower Z n h) : Tower (fun p s => c p s - Z p s) n h :=
  fun k hk s hs => (hc k s).hasDerivWithinAt.sub (hZ k hk s hs)

private theorem shift_tower {r : ℕ} (hZ : Tower Z (M + r) h) : Tower (fun k => Z (M + k)) r h :=
  fun k hk s hs => hZ (M + k) (by omega) s hs

/-- One step with the highest derivative on a line. -/
theorem line_step_all {x : ℕ → ℝ} {a an α β : ℝ} (hh : 0 < h) (hh2 : h ≤ 1 / 2) (hZ : Tower Z (M + 2) h) (hK : ∀ s ∈ Icc (0 : ℝ) h, |Z (M + 2) s| ≤ K)
    (hc : LinearMotion M x a an h c) (hx : ∀ p < M, |x p - Z p 0| ≤ δ) (hδ : 0 ≤ δ) (ha : |a - Z M 0| ≤ α) (hb : |an - Z M h| ≤ β) :
    ∀ p < M, ∀ s ∈ Icc (0 : ℝ) h, |c p s - Z p s| ≤ δ + h * (2 * (δ + (K * h ^ 2 + α + β))) := by
  obtain ⟨hm, h0, ⟨b, hl⟩, he⟩ := hc
  have hK0 : 0 ≤ K := (abs_nonneg _).trans (hK h ⟨hh.le, le_rfl⟩)
  have ha0 := (abs_nonneg _).trans ha
  have hb0 := (abs_nonneg _).trans hb
  have h1 := line_err (D := fun k => Z (M + k)) hh (shift_tower hZ) rfl hK hl
  have e0 : c M 0 = a := by rw [hl]; simp
  obtain ⟨g1, g2⟩ := tower_err (E := K * h ^ 2 + α + β) (motion_tower hm (hZ.mono (m := M) (by omega))) (fun p hp => by rw [h0 p hp]; exact hx p hp)
    (fun s hs => (h1 s hs).trans (by rw [e0, he]; simp only [add_zero]; linarith)) hh.le hh2 hδ (by positivity)
  exact fun p hp => g2 p hp _ (g1 (p + 1) (by omega))

theorem line_step {x : ℕ → ℝ} {a an α β : ℝ} (hh : 0 < h) (hh2 : h ≤ 1 / 2) (hZ : Tower Z (M + 2) h) (hK : ∀ s ∈ Icc (0 : ℝ) h, |Z (M + 2) s| ≤ K)
    (hc : LinearMotion M x a an h c) (hx : ∀ p < M, |x p - Z p 0| ≤ δ) (hδ : 0 ≤ δ) (ha : |a - Z M 0| ≤ α) (hb : |an - Z M h| ≤ β) :
    ∀ p < M, |c p h - Z p h| ≤ δ + h * (2 * (δ + (K * h ^ 2 + α + β))) :=
  fun p hp => line_step_all hh hh2 hZ hK hc hx hδ ha hb p hp h ⟨hh.le, le_rfl⟩

/-- One step with the highest derivative on a parabola. -/
theorem parab_step {x : ℕ → ℝ} {a ac an α β γ θ : ℝ} (hθ : θ = 1 / 2 ∨ θ = 2 / 5) (hh : 0 < h) (hh2 : h ≤ 1 / 2) (hZ : Tower Z (M + 3) h)
    (hK : ∀ s ∈ Icc (0 : ℝ) h, |Z (M + 3) s| ≤ K) (hc : ParabolicMotion M x a ac an (θ * h) h c) (hx : ∀ p < M, |x p - Z p 0| ≤ δ) (hδ : 0 ≤ δ)
    (ha : |a - Z M 0| ≤ α) (hb : |an - Z M h| ≤ β) (hg : |ac - Z M (θ * h)| ≤ γ) :
    (∀ p ≤ M, ∀ s ∈ Icc (0 : ℝ) h, |c p s - Z p s| ≤ 2 * (δ + (K * h ^ 3 + α + 2 * γ + β))) ∧
    ∀ p < M, ∀ C, (∀ s ∈ Icc (0 : ℝ) h, |c (p + 1) s - Z (p + 1) s| ≤ C) → ∀ s ∈ Icc (0 : ℝ) h, |c p s - Z p s| ≤ δ + h * C := by
  obtain ⟨hm, h0, ⟨b, d, hl⟩, hmid, he⟩ := hc
  have hK0 : 0 ≤ K := (abs_nonneg _).trans (hK h ⟨hh.le, le_rfl⟩)
  have ha0 := (abs_nonneg _).trans ha
  have hb0 := (abs_nonneg _).trans hb
  have hg0 := (abs_nonneg _).trans hg
  have h1 := parab_err (D := fun k => Z (M + k)) hθ hh (shift_tower hZ) rfl hK hl
  have e0 : c M 0 = a := by rw [hl]; simp
  exact tower_err (E := K * h ^ 3 + α + 2 * γ + β) (motion_tower hm (hZ.mono (m := M) (by omega))) (fun p hp => by rw [h0 p hp]; exact hx p hp)
    (fun s hs => (h1 s hs).trans (by rw [e0, he, hmid]; simp only [add_zero]; linarith)) hh.le hh2 hδ (by positivity)

/-- The highest level below the top, when the parabola has its third point in the middle. -/
theorem simpson_step {x : ℕ → ℝ} {a ac an α β γ : ℝ} (hh : 0 < h) (hZ : Tower Z (M + 1 + 4) h) (hK : ∀ s ∈ Icc (0 : ℝ) h, |Z (M + 1 + 4) s| ≤ K')
    (hc : ParabolicMotion (M + 1) x a ac an (1 / 2 * h) h c) (hx : |x M - Z M 0| ≤ δ)
    (ha : |a - Z (M + 1) 0| ≤ α) (hb : |an - Z (M + 1) h| ≤ β) (hg : |ac - Z (M + 1) (1 / 2 * h)| ≤ γ) :
    |c M h - Z M h| ≤ δ + h / 6 * (α + 4 * γ + β) + K' * h ^ 5 / 48 := by
  obtain ⟨hm, h0, ⟨b, d, hl⟩, hmid, he⟩ := hc
  have e0 : c (M + 1) 0 = a := by rw [hl]; simp
  have hs := simpson_exact (h := h) (fun τ => hm M τ) hl
  have hz := simpson_local (D := fun k => Z (M + k)) hh.le (fun k hk s hs => hZ (M + k) (by omega) s hs) hK
  simp only [add_zero, smul_eq_mul, Real.norm_eq_abs] at hz
  rw [show (1 / 2 * h : ℝ) = h / 2 by ring] at hmid hg
  rw [hs, e0, he, hmid, h0 M (by omega)]
  have : x M + h / 6 * (a + 4 * ac + an) - Z M h = (x M - Z M 0) + h / 6 * ((a - Z (M + 1) 0) + 4 * (ac - Z (M + 1) (h / 2)) + (an - Z (M + 1) h))
      - (Z M h - (Z M 0 + h / 6 * (Z (M + 1) 0 + 4 * Z (M + 1) (h / 2) + Z (M + 1) h))) := by ring
  rw [this]
  have q1 := abs_sub ((x M - Z M 0) + h / 6 * ((a - Z (M + 1) 0) + 4 * (ac - Z (M + 1) (h / 2)) + (an - Z (M + 1) h)))
    (Z M h - (Z M 0 + h / 6 * (Z (M + 1) 0 + 4 * Z (M + 1) (h / 2) + Z (M + 1) h)))
  have q2 := abs_add_le (x M - Z M 0) (h / 6 * ((a - Z (M + 1) 0) + 4 * (ac - Z (M + 1) (h / 2)) + (an - Z (M + 1) h)))
  have q3 : |h / 6 * ((a - Z (M + 1) 0) + 4 * (ac - Z (M + 1) (h / 2)) + (an - Z (M + 1) h))| ≤ h / 6 * (α + 4 * γ + β) := by
    rw [abs_mul, abs_of_pos (by positivity)]
    refine mul_le_mul_of_nonneg_left ?_ (by positivity)
    have r1 := abs_add_le ((a - Z (M + 1) 0) + 4 * (ac - Z (M + 1) (h / 2))) (an - Z (M + 1) h)
    have r2 := abs_add_le (a - Z (M + 1) 0) (4 * (ac - Z (M + 1) (h / 2)))
    rw [abs_mul, abs_of_pos (by norm_num : (0 : ℝ) < 4)] at r2
    linarith
  linarith

end Chords.Conv
