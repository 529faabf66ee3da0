import Verif.Lemmas.Conv
import Verif.Props.Integrate

/-! # C152, C153: how close the integrated trajectory is to the motion of the system -/

namespace Chords.Conv
open Set Chords.Integ

section
variable {X U : Type} [NormedAddCommGroup X] [NormedSpace ℝ X]

/-- The system `x' = G x u` moves through the states `y 0, y 1, …, y N`, one every `h` units of time, and `D i k` is the derivative of order `k` of the
motion between `y i` and `y (i + 1)`, which exists up to order `r`. The control between both instants is `w i`. Controls may jump and the motion may be less
smooth at the instants. -/
structure Moves (G : X → U → X) (r : ℕ) (h : ℝ) (N : ℕ) (y : ℕ → X) (w : ℕ → ℝ → U) (D : ℕ → ℕ → ℝ → X) : Prop where
  tower : ∀ i < N, ∀ k < r, ∀ s ∈ Icc (0 : ℝ) h, HasDerivWithinAt (D i k) (D i (k + 1) s) (Icc 0 h) s
  dyn : ∀ i < N, ∀ s ∈ Icc (0 : ℝ) h, D i 1 s = G (D i 0 s) (w i s)
  start : ∀ i < N, D i 0 0 = y i
  stop : ∀ i < N, D i 0 h = y (i + 1)

/-- The dynamics have the Lipschitz constant `L` in a region. -/
def LipIn (G : X → U → X) (S : Set X) (L : ℝ) : Prop := ∀ a ∈ S, ∀ b ∈ S, ∀ u, ‖G a u - G b u‖ ≤ L * ‖a - b‖

variable {G : X → U → X} {S : Set X} {L K K' h : ℝ} {N : ℕ} {x y : ℕ → X} {w : ℕ → ℝ → U} {D : ℕ → ℕ → ℝ → X}

/-- Steps of Euler's method with the control at the start of each interval. -/
theorem euler_near [AddCommGroup U] [Module ℝ U] (hM : Moves G 2 h N y w D) (hL0 : 0 ≤ L) (hL : LipIn G S L) (hh : 0 ≤ h)
    (hK : ∀ i < N, ∀ s ∈ Icc (0 : ℝ) h, ‖D i 2 s‖ ≤ K) (hx : ∀ i < N, x i ∈ S) (hy : ∀ i < N, y i ∈ S)
    (hs : ∀ i < N, ∃ un, eulerRestr (x i) (x (i + 1)) (w i 0) un G h = 0) :
    ∀ i ≤ N, ‖x i - y i‖ ≤ Real.exp (L * (i * h)) * (‖x 0 - y 0‖ + i * h * (K / 2) * h) := by
  intro i hi
  rcases Nat.eq_zero_or_pos N with h0 | hN
  · obtain rfl : i = 0 := by omega
    simp
  have hK0 : 0 ≤ K := (norm_nonneg _).trans (hK 0 hN 0 ⟨le_rfl, hh⟩)
  have := gronwall_explicit (δ := fun i => ‖x i - y i‖) (a := h * L) (τ := K * h ^ 2 / 2) (n := N) (fun _ => norm_nonneg _) (by positivity)
    (by positivity) ?_ i hi
  · refine this.trans (le_of_eq ?_)
    ring_nf
  · intro i hi
    obtain ⟨un, he⟩ := hs i hi
    obtain ⟨h1, -⟩ := taylor2 (hM.tower i hi) (hK i hi) (s := h) ⟨hh, le_rfl⟩
    rw [hM.stop i hi, hM.dyn i hi 0 ⟨le_rfl, hh⟩, hM.start i hi] at h1
    have h2 := norm_smul_le hh (hL (x i) (hx i hi) (y i) (hy i hi) (w i 0))
    simp only [eulerRestr, sub_eq_zero] at he
    have e : x (i + 1) - y (i + 1) = (x i - y i) + h • (G (x i) (w i 0) - G (y i) (w i 0)) - (y (i + 1) - (y i + h • G (y i) (w i 0))) := by
      rw [he]; module
    rw [e]
    refine (norm_sub_le _ _).trans ((add_le_add ((norm_add_le _ _).trans (add_le_add le_rfl h2)) h1).trans (le_of_eq ?_))
    ring

/-- Solutions of the trapezoidal scheme. -/
theorem trapz_near [AddCommGroup U] [Module ℝ U] (hM : Moves G 3 h N y w D) (hL0 : 0 ≤ L) (hL : LipIn G S L) (hh : 0 ≤ h) (hhL : h * L ≤ 1)
    (hK : ∀ i < N, ∀ s ∈ Icc (0 : ℝ) h, ‖D i 3 s‖ ≤ K) (hx : ∀ i ≤ N, x i ∈ S) (hy : ∀ i ≤ N, y i ∈ S)
    (hs : ∀ i < N, trapzRestr (x i) (x (i + 1)) (w i 0) (w i h) G h = 0) :
    ∀ i ≤ N, ‖x i - y i‖ ≤ Real.exp (2 * L * (i * h)) * (‖x 0 - y 0‖ + i * h * K * h ^ 2) := by
  intro i hi
  rcases Nat.eq_zero_or_pos N with h0 | hN
  · obtain rfl : i = 0 := by omega
    simp
  have hK0 : 0 ≤ K := (norm_nonneg _).trans (hK 0 hN 0 ⟨le_rfl, hh⟩)
  have := gronwall (δ := fun i => ‖x i - y i‖) (h := h) (L := L / 2) (τ := 5 / 12 * K * h ^ 3) (n := N) (fun _ => norm_nonneg _) hh (by positivity)
    (by positivity) (by linarith) ?_ i hi
  · have e : 4 * (L / 2) * (i * h) = 2 * L * (i * h) := by ring
    rw [e] at this
    refine this.trans (mul_le_mul_of_nonneg_left ?_ (Real.exp_pos _).le)
    have : 0 ≤ i * h * K * h ^ 2 := by positivity
    nlinarith
  · intro i hi
    have he := hs i hi
    have h1 := trapz_local hh (hM.tower i hi) (hK i hi)
    rw [hM.stop i hi, hM.start i hi, hM.dyn i hi 0 ⟨le_rfl, hh⟩, hM.dyn i hi h ⟨hh, le_rfl⟩, hM.stop i hi, hM.start i hi] at h1
    have h2 := hL (x i) (hx i (by omega)) (y i) (hy i (by omega)) (w i 0)
    have h3 := hL (x (i + 1)) (hx (i + 1) (by omega)) (y (i + 1)) (hy (i + 1) (by omega)) (w i h)
    have h4 := norm_smul_le (c := h / 2) (by positivity) ((norm_add_le _ _).trans (add_le_add h2 h3))
    simp only [trapzRestr, sub_eq_zero] at he
    have e : x (i + 1) - y (i + 1) = (x i - y i) + (h / 2) • ((G (x i) (w i 0) - G (y i) (w i 0)) + (G (x (i + 1)) (w i h) - G (y (i + 1)) (w i h)))
        - (y (i + 1) - (y i + (h / 2) • (G (y i) (w i 0) + G (y (i + 1)) (w i h)))) := by
      rw [sub_eq_sub_iff_add_eq_add]
      nth_rewrite 1 [he]
      module
    have := (norm_sub_le _ _).trans (add_le_add ((norm_add_le (x i - y i) _).trans (add_le_add le_rfl h4)) h1)
    rw [← e] at this
    refine this.trans (le_of_eq ?_)
    ring

/-- Solutions of the Hermite-Simpson scheme, with any controls in the middle of the intervals. -/
theorem hs_near [AddCommGroup U] [Module ℝ U] (hM : Moves G 5 h N y w D) (hL0 : 0 ≤ L) (hL : LipIn G S L) (hh : 0 ≤ h) (hhL : h * L ≤ 1 / 2)
    (hK : ∀ i < N, ∀ s ∈ Icc (0 : ℝ) h, ‖D i 4 s‖ ≤ K ∧ ‖D i 5 s‖ ≤ K') (hx : ∀ i ≤ N, x i ∈ S) (hy : ∀ i < N, ∀ s ∈ Icc (0 : ℝ) h, D i 0 s ∈ S)
    (hc : ∀ i < N, (1 / 2 : ℝ) • (x i + x (i + 1)) + (h / 8) • (G (x i) (w i 0) - G (x (i + 1)) (w i h)) ∈ S)
    (hs : ∀ i < N, hsParabRestr (x i) (x (i + 1)) (w i 0) (w i h) G h (w i (h / 2)) = 0) :
    ∀ i ≤ N, ‖x i - y i‖ ≤ Real.exp (4 * L * (i * h)) * (‖x 0 - y 0‖ + i * h * (K' / 24 + L * K / 12) * h ^ 4) := by
  intro i hi
  rcases Nat.eq_zero_or_pos N with h0 | hN
  · obtain rfl : i = 0 := by omega
    simp
  have hK0 : 0 ≤ K := (norm_nonneg _).trans (hK 0 hN 0 ⟨le_rfl, hh⟩).1
  have hK0' : 0 ≤ K' := (norm_nonneg _).trans (hK 0 hN 0 ⟨le_rfl, hh⟩).2
  have := gronwall (δ := fun i => ‖x i - y i‖) (h := h) (L := L) (τ := K' * h ^ 5 / 48 + L * K * h ^ 5 / 24) (n := N) (fun _ => norm_nonneg _) hh hL0
    (by positivity) hhL ?_ i hi
  · refine this.trans (le_of_eq ?_)
    ring
  · intro i hi
    have he := hs i hi
    have m0 : (0 : ℝ) ∈ Icc 0 h := ⟨le_rfl, hh⟩
    have mh : h ∈ Icc 0 h := ⟨hh, le_rfl⟩
    have mc : h / 2 ∈ Icc 0 h := ⟨by linarith, by linarith⟩
    have t : Tower (D i) 5 h := hM.tower i hi
    have h1 := simpson_local hh t fun s hs => (hK i hi s hs).2
    have h2 := middle_local hh (t.mono (by omega)) fun s hs => (hK i hi s hs).1
    have y0 := hy i hi 0 m0
    have y1 := hy i hi h mh
    have yc := hy i hi (h / 2) mc
    rw [hM.start i hi] at y0
    rw [hM.stop i hi] at y1
    rw [hM.stop i hi, hM.start i hi, hM.dyn i hi 0 m0, hM.dyn i hi h mh, hM.dyn i hi (h / 2) mc, hM.stop i hi, hM.start i hi] at h1
    rw [hM.stop i hi, hM.start i hi, hM.dyn i hi 0 m0, hM.dyn i hi h mh, hM.stop i hi, hM.start i hi] at h2
    have hc := hc i hi
    simp only [hsParabRestr, sub_eq_zero] at he
    obtain ⟨yv, hyv⟩ : ∃ z, z = D i 0 (h / 2) := ⟨_, rfl⟩
    obtain ⟨xc, hxc⟩ : ∃ z, z = (1 / 2 : ℝ) • (x i + x (i + 1)) + (h / 8) • (G (x i) (w i 0) - G (x (i + 1)) (w i h)) := ⟨_, rfl⟩
    rw [← hxc] at he hc
    rw [← hyv] at h1 h2 yc
    have l0 := hL (x i) (hx i (by omega)) (y i) y0 (w i 0)
    have l1 := hL (x (i + 1)) (hx (i + 1) (by omega)) (y (i + 1)) y1 (w i h)
    have lc := hL xc hc yv yc (w i (h / 2))
    obtain ⟨d, hd⟩ : ∃ d, d = ‖x i - y i‖ := ⟨_, rfl⟩
    obtain ⟨d', hd'⟩ : ∃ d, d = ‖x (i + 1) - y (i + 1)‖ := ⟨_, rfl⟩
    have hc' : ‖xc - yv‖ ≤ 9 / 16 * (d + d') + K * h ^ 4 / 16 := by
      have e : xc - yv = (1 / 2 : ℝ) • (x i - y i) + (1 / 2 : ℝ) • (x (i + 1) - y (i + 1)) + (h / 8) • (G (x i) (w i 0) - G (y i) (w i 0))
          - (h / 8) • (G (x (i + 1)) (w i h) - G (y (i + 1)) (w i h))
          - (yv - ((1 / 2 : ℝ) • (y i + y (i + 1)) + (h / 8) • (G (y i) (w i 0) - G (y (i + 1)) (w i h)))) := by
        rw [hxc]; module
      have := (norm_sub_le _ _).trans (add_le_add ((norm_sub_le _ _).trans (add_le_add ((norm_add_le _ _).trans (add_le_add
        ((norm_add_le _ _).trans (add_le_add (norm_smul_le (c := 1 / 2) (by norm_num) (le_refl ‖x i - y i‖))
          (norm_smul_le (c := 1 / 2) (by norm_num) (le_refl ‖x (i + 1) - y (i + 1)‖))))
        (norm_smul_le (c := h / 8) (by positivity) l0))) (norm_smul_le (c := h / 8) (by positivity) l1))) h2)
      rw [← e, ← hd, ← hd'] at this
      refine this.trans ?_
      have a0 : 0 ≤ d := hd ▸ norm_nonneg _
      have a1 : 0 ≤ d' := hd' ▸ norm_nonneg _
      nlinarith
    have e : x (i + 1) - y (i + 1) = (x i - y i) + (h / 6) • (G (x i) (w i 0) - G (y i) (w i 0)) + (4 * h / 6) • (G xc (w i (h / 2)) - G yv (w i (h / 2)))
        + (h / 6) • (G (x (i + 1)) (w i h) - G (y (i + 1)) (w i h))
        - (y (i + 1) - (y i + (h / 6) • (G (y i) (w i 0) + (4 : ℝ) • G yv (w i (h / 2)) + G (y (i + 1)) (w i h)))) := by
      rw [sub_eq_sub_iff_add_eq_add]
      nth_rewrite 1 [← he]
      module
    have := (norm_sub_le _ _).trans (add_le_add ((norm_add_le _ _).trans (add_le_add ((norm_add_le _ _).trans (add_le_add
      ((norm_add_le (x i - y i) _).trans (add_le_add le_rfl (norm_smul_le (c := h / 6) (by positivity) l0)))
      (norm_smul_le (c := 4 * h / 6) (by positivity) (lc.trans (mul_le_mul_of_nonneg_left hc' hL0)))))
      (norm_smul_le (c := h / 6) (by positivity) l1))) h1)
    rw [← e, ← hd, ← hd'] at this
    rw [← hd, ← hd']
    refine this.trans ?_
    have a0 : 0 ≤ d := hd ▸ norm_nonneg _
    have a1 : 0 ≤ d' := hd' ▸ norm_nonneg _
    have a2 : 0 ≤ h * L * (d + d') := by positivity
    nlinarith

/-- The states where the classical Runge-Kutta method evaluates the dynamics are in a region. -/
def StagesIn (G : X → U → X) (S : Set X) (h : ℝ) (u uc : U) (z : X) : Prop :=
  z ∈ S ∧ z + (h / 2) • G z u ∈ S ∧ z + (h / 2) • G (z + (h / 2) • G z u) uc ∈ S ∧
    z + h • G (z + (h / 2) • G (z + (h / 2) • G z u) uc) uc ∈ S

/-- The dynamics are close to linear near the motion, at the middle and at the end of each interval: the error of the linear map `J i s` is bounded by the square
of the distance, and the map does not change much from one to the other. -/
structure NearlyLinear (G : X → U → X) (S : Set X) (h : ℝ) (N : ℕ) (w : ℕ → ℝ → U) (D : ℕ → ℕ → ℝ → X) (L B C : ℝ) (J : ℕ → ℝ → X →ₗ[ℝ] X) : Prop where
  bound : ∀ i < N, ∀ v, ‖J i (h / 2) v‖ ≤ L * ‖v‖
  change : ∀ i < N, ∀ v, ‖J i h v - J i (h / 2) v‖ ≤ C * h * ‖v‖
  square : ∀ i < N, ∀ s, s = h / 2 ∨ s = h → ∀ a ∈ S, ‖G a (w i s) - G (D i 0 s) (w i s) - J i s (a - D i 0 s)‖ ≤ B * ‖a - D i 0 s‖ ^ 2

/-- Steps of the classical Runge-Kutta method. -/
theorem rk4_near [AddCommGroup U] [Module ℝ U] {J : ℕ → ℝ → X →ₗ[ℝ] X} {B C K2 K3 K4 K5 : ℝ} (hM : Moves G 5 h N y w D) (hL0 : 0 ≤ L) (hL : LipIn G S L)
    (hB : 0 ≤ B) (hC : 0 ≤ C) (hJ : NearlyLinear G S h N w D L B C J) (hh : 0 ≤ h) (hh1 : h ≤ 1) (hhL : h * L ≤ 1 / 2)
    (hK : ∀ i < N, ∀ s ∈ Icc (0 : ℝ) h, ‖D i 2 s‖ ≤ K2 ∧ ‖D i 3 s‖ ≤ K3 ∧ ‖D i 4 s‖ ≤ K4 ∧ ‖D i 5 s‖ ≤ K5)
    (hx : ∀ i < N, StagesIn G S h (w i 0) (w i (h / 2)) (x i)) (hy : ∀ i < N, StagesIn G S h (w i 0) (w i (h / 2)) (y i))
    (hy' : ∀ i < N, D i 0 (h / 2) ∈ S)
    (hs : ∀ i < N, x (i + 1) = rk4Step (x i) (w i 0) (w i h) G h (w i (h / 2))) :
    ∀ i ≤ N, ‖x i - y i‖ ≤ Real.exp (2 * L * (i * h)) * (‖x 0 - y 0‖
      + i * h * (K5 / 48 + (L * K4 + L ^ 2 * (K3 + L * K2) + B * K2 ^ 2 + C * (K3 + L * K2) + B * (K3 + L * K2) ^ 2) / 6) * h ^ 4) := by
  intro i hi
  rcases Nat.eq_zero_or_pos N with h0 | hN
  · obtain rfl : i = 0 := by omega
    simp
  have m0 : (0 : ℝ) ∈ Icc 0 h := ⟨le_rfl, hh⟩
  have mh : h ∈ Icc 0 h := ⟨hh, le_rfl⟩
  have mc : h / 2 ∈ Icc 0 h := ⟨by linarith, by linarith⟩
  have n2 : 0 ≤ K2 := (norm_nonneg _).trans (hK 0 hN 0 m0).1
  have n3 : 0 ≤ K3 := (norm_nonneg _).trans (hK 0 hN 0 m0).2.1
  have n4 : 0 ≤ K4 := (norm_nonneg _).trans (hK 0 hN 0 m0).2.2.1
  have n5 : 0 ≤ K5 := (norm_nonneg _).trans (hK 0 hN 0 m0).2.2.2
  obtain ⟨Q, hQ⟩ : ∃ Q, Q = K5 / 48 + (L * K4 + L ^ 2 * (K3 + L * K2) + B * K2 ^ 2 + C * (K3 + L * K2) + B * (K3 + L * K2) ^ 2) / 6 := ⟨_, rfl⟩
  have nQ : 0 ≤ Q := by rw [hQ]; positivity
  rw [← hQ]
  have := gronwall_explicit (δ := fun i => ‖x i - y i‖) (a := 2 * L * h) (τ := h ^ 5 * Q) (n := N) (fun _ => norm_nonneg _) (by positivity)
    (by positivity) ?_ i hi
  · refine this.trans (le_of_eq ?_)
    ring_nf
  · intro i hi
    obtain ⟨x1, x2, x3, x4⟩ := hx i hi
    obtain ⟨y1, y2, y3, y4⟩ := hy i hi
    have he := hs i hi
    have s0 := hM.start i hi
    have s1 := hM.stop i hi
    have d0 := hM.dyn i hi 0 m0
    have dc := hM.dyn i hi (h / 2) mc
    have dh := hM.dyn i hi h mh
    have hsq := hJ.square i hi
    have hyc := hy' i hi
    rw [s0] at d0
    have loc := rk4_local (D := D i) hh hh1 hL0 hhL hB hC (hM.tower i hi) (fun s hs => (hK i hi s hs).1) (fun s hs => (hK i hi s hs).2.1)
      (fun s hs => (hK i hi s hs).2.2.1) (fun s hs => (hK i hi s hs).2.2.2) (J i (h / 2)) (J i h) (hJ.bound i hi) (hJ.change i hi)
      (k2 := G (y i + (h / 2) • G (y i) (w i 0)) (w i (h / 2))) (k3 := G (y i + (h / 2) • G (y i + (h / 2) • G (y i) (w i 0)) (w i (h / 2))) (w i (h / 2)))
      (k4 := G (y i + h • G (y i + (h / 2) • G (y i + (h / 2) • G (y i) (w i 0)) (w i (h / 2))) (w i (h / 2))) (w i h))
      (by rw [s0, d0, dc]; exact hL _ y2 _ hyc _) (by rw [s0, d0, dc]; exact hsq _ (.inl rfl) _ y2)
      (by rw [s0, dc]; exact hL _ y3 _ hyc _) (by rw [s0, dc]; exact hsq _ (.inl rfl) _ y3)
      (by rw [s0, dh]; exact hsq _ (.inr rfl) _ y4)
    rw [s0, s1, d0, ← hQ] at loc
    simp only [rk4Step] at he
    obtain ⟨a1, ha1⟩ : ∃ a, a = G (x i) (w i 0) := ⟨_, rfl⟩
    obtain ⟨b1, hb1⟩ : ∃ a, a = G (y i) (w i 0) := ⟨_, rfl⟩
    rw [← ha1] at x2 x3 x4 he
    rw [← hb1] at y2 y3 y4 loc
    have l1 := hL _ x1 _ y1 (w i 0)
    have l2 := hL _ x2 _ y2 (w i (h / 2))
    have l3 := hL _ x3 _ y3 (w i (h / 2))
    have l4 := hL _ x4 _ y4 (w i h)
    rw [← ha1, ← hb1] at l1
    obtain ⟨a2, ha2⟩ : ∃ a, a = G (x i + (h / 2) • a1) (w i (h / 2)) := ⟨_, rfl⟩
    obtain ⟨b2, hb2⟩ : ∃ a, a = G (y i + (h / 2) • b1) (w i (h / 2)) := ⟨_, rfl⟩
    rw [← ha2] at he l2 l3 l4
    rw [← hb2] at loc l2 l3 l4
    obtain ⟨a3, ha3⟩ : ∃ a, a = G (x i + (h / 2) • a2) (w i (h / 2)) := ⟨_, rfl⟩
    obtain ⟨b3, hb3⟩ : ∃ a, a = G (y i + (h / 2) • b2) (w i (h / 2)) := ⟨_, rfl⟩
    rw [← ha3] at he l3 l4
    rw [← hb3] at loc l3 l4
    obtain ⟨a4, ha4⟩ : ∃ a, a = G (x i + h • a3) (w i h) := ⟨_, rfl⟩
    obtain ⟨b4, hb4⟩ : ∃ a, a = G (y i + h • b3) (w i h) := ⟨_, rfl⟩
    rw [← ha4] at he l4
    rw [← hb4] at loc l4
    obtain ⟨d, hd⟩ : ∃ d, d = ‖x i - y i‖ := ⟨_, rfl⟩
    have nd : 0 ≤ d := hd ▸ norm_nonneg _
    rw [← hd] at l1 ⊢
    have hz : 0 ≤ h * L := by positivity
    have move : ∀ (c : ℝ) (a b : X) (e : ℝ), 0 ≤ c → ‖a - b‖ ≤ L * (e * d) → L * ‖x i + c • a - (y i + c • b)‖ ≤ L * (d + c * L * e * d) := by
      intro c a b e hc hab
      have e1 : x i + c • a - (y i + c • b) = (x i - y i) + c • (a - b) := by module
      rw [e1]
      refine mul_le_mul_of_nonneg_left ((norm_add_le _ _).trans ?_) hL0
      rw [← hd]
      have := norm_smul_le hc hab
      linarith
    have k1 : ‖a1 - b1‖ ≤ L * (1 * d) := by rwa [one_mul]
    have k2 : ‖a2 - b2‖ ≤ L * (5 / 4 * d) := by
      refine (l2.trans (move (h / 2) a1 b1 1 (by positivity) k1)).trans (mul_le_mul_of_nonneg_left ?_ hL0)
      nlinarith
    have k3 : ‖a3 - b3‖ ≤ L * (21 / 16 * d) := by
      refine (l3.trans (move (h / 2) a2 b2 (5 / 4) (by positivity) k2)).trans (mul_le_mul_of_nonneg_left ?_ hL0)
      nlinarith
    have k4 : ‖a4 - b4‖ ≤ L * (53 / 32 * d) := by
      refine (l4.trans (move h a3 b3 (21 / 16) (by positivity) k3)).trans (mul_le_mul_of_nonneg_left ?_ hL0)
      nlinarith
    have e : x (i + 1) - y (i + 1) = (x i - y i) + (h / 6) • ((a1 - b1) + (2 : ℝ) • (a2 - b2) + (2 : ℝ) • (a3 - b3) + (a4 - b4))
        - (y (i + 1) - (y i + (h / 6) • (b1 + (2 : ℝ) • b2 + (2 : ℝ) • b3 + b4))) := by
      rw [he]; module
    rw [e]
    have n0 : ‖x i - y i‖ ≤ d := hd.ge
    refine (norm_sub_le _ _).trans ((add_le_add ((norm_add_le _ _).trans (add_le_add n0 (norm_smul_le (by positivity) ((norm_add_le _ _).trans (add_le_add
      ((norm_add_le _ _).trans (add_le_add ((norm_add_le _ _).trans (add_le_add k1 (norm_smul_le (by norm_num) k2))) (norm_smul_le (by norm_num) k3)))
      k4))))) loc).trans ?_)
    have : 0 ≤ h * L * d := by positivity
    nlinarith

end

end Chords.Conv
