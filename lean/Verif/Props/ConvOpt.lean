import Verif.Lemmas.ConvStep
import Verif.Props.Equi
import Mathlib.Analysis.SpecialFunctions.ExpDeriv
import Mathlib.Analysis.Complex.ExponentialBounds

/-! # C155: the feasible points of equispaced problems follow the motion of the system -/

namespace Chords.Conv
open Set Chords.Spec Chords.Props Chords.BuTd Chords.Equi Chords.Problem

section
variable {ι : Type} [Fintype ι] {M N : ℕ} {h L K K' d0 : ℝ} {x xc y : ℕ → ℕ → ι → ℝ} {a ac : ℕ → ι → ℝ} {Z : ℕ → ι → ℕ → ℝ → ℝ}

/-- All the levels of two states are closer than `d`. -/
def Within (M : ℕ) (x y : ℕ → ι → ℝ) (d : ℝ) : Prop := ∀ p < M, ∀ j, |x p j - y p j| ≤ d

/-- A motion in `N` intervals of length `h`: `Z i j k` is the derivative of order `k` of the coordinate `j` in the interval `i`, up to order `M + r`, and the
levels below `M` pass by the states `y`, without jumps. -/
structure Exact (M r : ℕ) (h : ℝ) (N : ℕ) (y : ℕ → ℕ → ι → ℝ) (Z : ℕ → ι → ℕ → ℝ → ℝ) : Prop where
  tower : ∀ i < N, ∀ j, ∀ k < M + r, ∀ s ∈ Icc (0 : ℝ) h, HasDerivWithinAt (Z i j k) (Z i j (k + 1) s) (Icc 0 h) s
  start : ∀ i < N, ∀ j, ∀ p < M, Z i j p 0 = y i p j
  stop : ∀ i < N, ∀ j, ∀ p < M, Z i j p h = y (i + 1) p j

private theorem near_of_step {L' τ : ℝ} (hh : 0 ≤ h) (hL : 0 ≤ L') (hτ : 0 ≤ τ) (hhL : h * L' ≤ 1 / 2)
    (hs : ∀ i < N, ∀ δ δ', 0 ≤ δ → 0 ≤ δ' → Within M (x i) (y i) δ → Within M (x (i + 1)) (y (i + 1)) δ' →
      Within M (x (i + 1)) (y (i + 1)) (δ + h * L' * (δ + δ') + τ)) (h0 : Within M (x 0) (y 0) d0) (hd : 0 ≤ d0) :
    ∀ i ≤ N, Within M (x i) (y i) (Real.exp (4 * L' * (i * h)) * (d0 + 2 * i * τ)) := by
  obtain ⟨δ, hδ⟩ : ∃ δ : ℕ → ℝ, δ = fun i => ‖fun (p : Fin M) (j : ι) => x i p j - y i p j‖ := ⟨_, rfl⟩
  have hw : ∀ i, Within M (x i) (y i) (δ i) := by
    intro i p hp j
    rw [hδ]
    exact (norm_le_pi_norm (fun j => x i p j - y i p j) j).trans (norm_le_pi_norm (fun (p : Fin M) (j : ι) => x i p j - y i p j) ⟨p, hp⟩)
  have hle : ∀ i b, 0 ≤ b → Within M (x i) (y i) b → δ i ≤ b := by
    intro i b hb h
    rw [hδ]
    exact (pi_norm_le_iff_of_nonneg hb).2 fun p => (pi_norm_le_iff_of_nonneg hb).2 fun j => h p p.2 j
  have hn : ∀ i, 0 ≤ δ i := fun i => by rw [hδ]; exact norm_nonneg _
  have := gronwall (n := N) hn hh hL hτ hhL (fun i hi => hle _ _ (by have := hn i; have := hn (i + 1); positivity) (hs i hi _ _ (hn _) (hn _) (hw i) (hw (i + 1))))
  intro i hi p hp j
  refine (hw i p hp j).trans ((this i hi).trans (mul_le_mul_of_nonneg_left ?_ (Real.exp_nonneg _)))
  linarith [hle 0 d0 hd h0]

/-- Highest derivative on a line: order two. -/
theorem line_near (hE : Exact M 2 h N y Z) (hh : 0 < h) (hL : 0 ≤ L) (hhL : h * (2 + 2 * L) ≤ 1 / 2) (hK0 : 0 ≤ K)
    (hK : ∀ i < N, ∀ j, ∀ s ∈ Icc (0 : ℝ) h, |Z i j (M + 2) s| ≤ K)
    (hr : ∀ i < N, ∀ j, Reached .line M (fun p => x i p j) (fun p => x (i + 1) p j) (fun p => xc i p j) (a i j) (a (i + 1) j) (ac i j) h)
    (ha : ∀ i < N, ∀ d, Within M (x i) (y i) d → ∀ j, |a i j - Z i j M 0| ≤ L * d)
    (hb : ∀ i < N, ∀ d, Within M (x (i + 1)) (y (i + 1)) d → ∀ j, |a (i + 1) j - Z i j M h| ≤ L * d)
    (h0 : Within M (x 0) (y 0) d0) (hd : 0 ≤ d0) :
    ∀ i ≤ N, Within M (x i) (y i) (Real.exp (4 * (2 + 2 * L) * (i * h)) * (d0 + i * h * (4 * K) * h ^ 2)) := by
  have hh2 : h ≤ 1 / 2 := by nlinarith
  have := near_of_step (τ := 2 * K * h ^ 3) (N := N) hh.le (by positivity) (by positivity) hhL (fun i hi δ δ' hδ hδ' hw hw' p hp j => ?_) h0 hd
  · intro i hi
    have := this i hi
    rwa [show 2 * (i : ℝ) * (2 * K * h ^ 3) = i * h * (4 * K) * h ^ 2 by ring] at this
  · obtain ⟨c, hc, he, -⟩ := hr i hi j
    have := line_step hh hh2 (hE.tower i hi j) (hK i hi j) hc (fun p hp => by rw [hE.start i hi j p hp]; exact hw p hp j) hδ (ha i hi δ hw j) (hb i hi δ' hw' j) p hp
    rw [he p hp, hE.stop i hi j p hp] at this
    refine this.trans ?_
    have : 0 ≤ h * δ' := by positivity
    nlinarith

private theorem parab_facts {θ : ℝ} (hθ : θ = 1 / 2 ∨ θ = 2 / 5) (hE : Exact M 3 h N y Z) (hh : 0 < h) (hL : 0 ≤ L) (hhL : h * (2 + 20 * L) ≤ 1 / 2) (hK0 : 0 ≤ K)
    (hK : ∀ i < N, ∀ j, ∀ s ∈ Icc (0 : ℝ) h, |Z i j (M + 3) s| ≤ K)
    (hr : ∀ i < N, ∀ j, Reached (.parab θ) M (fun p => x i p j) (fun p => x (i + 1) p j) (fun p => xc i p j) (a i j) (a (i + 1) j) (ac i j) h)
    (ha : ∀ i < N, ∀ d, Within M (x i) (y i) d → ∀ j, |a i j - Z i j M 0| ≤ L * d)
    (hb : ∀ i < N, ∀ d, Within M (x (i + 1)) (y (i + 1)) d → ∀ j, |a (i + 1) j - Z i j M h| ≤ L * d)
    (hg : ∀ i < N, ∀ d, Within M (xc i) (fun p j => Z i j p (θ * h)) d → ∀ j, |ac i j - Z i j M (θ * h)| ≤ L * d)
    {i : ℕ} (hi : i < N) {δ δ' : ℝ} (hδ : 0 ≤ δ) (hδ' : 0 ≤ δ') (hw : Within M (x i) (y i) δ) (hw' : Within M (x (i + 1)) (y (i + 1)) δ') :
    ∃ γ, 0 ≤ γ ∧ γ ≤ 4 * δ + δ' + 4 * K * h ^ 4 ∧ (∀ j, |ac i j - Z i j M (θ * h)| ≤ L * γ) ∧ ∀ j, ∃ c,
      ParabolicMotion M (fun p => x i p j) (a i j) (ac i j) (a (i + 1) j) (θ * h) h c ∧ (∀ p < M, c p h = x (i + 1) p j) ∧
      (∀ p ≤ M, ∀ s ∈ Icc (0 : ℝ) h, |c p s - Z i j p s| ≤ 2 * (δ + (K * h ^ 3 + L * δ + 2 * (L * γ) + L * δ'))) ∧
      ∀ p < M, ∀ C, (∀ s ∈ Icc (0 : ℝ) h, |c (p + 1) s - Z i j (p + 1) s| ≤ C) → ∀ s ∈ Icc (0 : ℝ) h, |c p s - Z i j p s| ≤ δ + h * C := by
  have hh2 : h ≤ 1 / 4 := by nlinarith
  have hhl : h * L ≤ 1 / 40 := by nlinarith
  have hth : θ * h ∈ Icc (0 : ℝ) h := by obtain rfl | rfl := hθ <;> constructor <;> linarith
  obtain ⟨γ, hγ⟩ : ∃ γ : ℝ, γ = ‖fun (p : Fin M) (j : ι) => xc i p j - Z i j p (θ * h)‖ := ⟨_, rfl⟩
  have hγ0 : 0 ≤ γ := by rw [hγ]; exact norm_nonneg _
  have hwc : Within M (xc i) (fun p j => Z i j p (θ * h)) γ := by
    intro p hp j
    rw [hγ]
    exact (norm_le_pi_norm (fun j => xc i p j - Z i j p (θ * h)) j).trans
      (norm_le_pi_norm (fun (p : Fin M) (j : ι) => xc i p j - Z i j p (θ * h)) ⟨p, hp⟩)
  have hac := hg i hi γ hwc
  have hstep : ∀ j, ∃ c, ParabolicMotion M (fun p => x i p j) (a i j) (ac i j) (a (i + 1) j) (θ * h) h c ∧ (∀ p < M, c p h = x (i + 1) p j) ∧
      (∀ p < M, c p (θ * h) = xc i p j) ∧
      (∀ p ≤ M, ∀ s ∈ Icc (0 : ℝ) h, |c p s - Z i j p s| ≤ 2 * (δ + (K * h ^ 3 + L * δ + 2 * (L * γ) + L * δ'))) ∧
      ∀ p < M, ∀ C, (∀ s ∈ Icc (0 : ℝ) h, |c (p + 1) s - Z i j (p + 1) s| ≤ C) → ∀ s ∈ Icc (0 : ℝ) h, |c p s - Z i j p s| ≤ δ + h * C := by
    intro j
    obtain ⟨c, hc, he, hm⟩ := hr i hi j
    have := parab_step hθ hh (by linarith) (hE.tower i hi j) (hK i hi j) hc (fun p hp => by rw [hE.start i hi j p hp]; exact hw p hp j) hδ (ha i hi δ hw j)
      (hb i hi δ' hw' j) (hac j)
    exact ⟨c, hc, he, hm θ rfl, this.1, this.2⟩
  refine ⟨γ, hγ0, ?_, hac, fun j => ?_⟩
  · have hle : γ ≤ δ + h * (2 * (δ + (K * h ^ 3 + L * δ + 2 * (L * γ) + L * δ'))) := by
      have hb : 0 ≤ δ + h * (2 * (δ + (K * h ^ 3 + L * δ + 2 * (L * γ) + L * δ'))) := by positivity
      conv_lhs => rw [hγ]
      refine (pi_norm_le_iff_of_nonneg hb).2 fun p => (pi_norm_le_iff_of_nonneg hb).2 fun j => ?_
      obtain ⟨c, -, -, hm, g1, g2⟩ := hstep j
      have := g2 p p.2 _ (g1 (p + 1) p.2) (θ * h) hth
      rw [hm p p.2] at this
      exact this
    have e1 : h * L * γ ≤ 1 / 40 * γ := mul_le_mul_of_nonneg_right hhl hγ0
    have e2 : h * L * δ ≤ 1 / 40 * δ := mul_le_mul_of_nonneg_right hhl hδ
    have e3 : h * L * δ' ≤ 1 / 40 * δ' := mul_le_mul_of_nonneg_right hhl hδ'
    have e4 : h * δ ≤ 1 / 4 * δ := mul_le_mul_of_nonneg_right hh2 hδ
    have e5 : 0 ≤ K * h ^ 4 := by positivity
    have : h * (2 * (δ + (K * h ^ 3 + L * δ + 2 * (L * γ) + L * δ'))) = 2 * (h * δ) + 2 * (K * h ^ 4) + 2 * (h * L * δ) + 4 * (h * L * γ) + 2 * (h * L * δ') := by ring
    rw [this] at hle
    linarith
  · obtain ⟨c, h1, h2, -, h3, h4⟩ := hstep j
    exact ⟨c, h1, h2, h3, h4⟩

/-- Highest derivative on a parabola: order three. -/
theorem parab_near {θ : ℝ} (hθ : θ = 1 / 2 ∨ θ = 2 / 5) (hE : Exact M 3 h N y Z) (hh : 0 < h) (hL : 0 ≤ L) (hhL : h * (2 + 20 * L) ≤ 1 / 2) (hK0 : 0 ≤ K)
    (hK : ∀ i < N, ∀ j, ∀ s ∈ Icc (0 : ℝ) h, |Z i j (M + 3) s| ≤ K)
    (hr : ∀ i < N, ∀ j, Reached (.parab θ) M (fun p => x i p j) (fun p => x (i + 1) p j) (fun p => xc i p j) (a i j) (a (i + 1) j) (ac i j) h)
    (ha : ∀ i < N, ∀ d, Within M (x i) (y i) d → ∀ j, |a i j - Z i j M 0| ≤ L * d)
    (hb : ∀ i < N, ∀ d, Within M (x (i + 1)) (y (i + 1)) d → ∀ j, |a (i + 1) j - Z i j M h| ≤ L * d)
    (hg : ∀ i < N, ∀ d, Within M (xc i) (fun p j => Z i j p (θ * h)) d → ∀ j, |ac i j - Z i j M (θ * h)| ≤ L * d)
    (h0 : Within M (x 0) (y 0) d0) (hd : 0 ≤ d0) :
    ∀ i ≤ N, Within M (x i) (y i) (Real.exp (4 * (2 + 20 * L) * (i * h)) * (d0 + i * h * (6 * K) * h ^ 3)) := by
  have hhl : h * L ≤ 1 / 40 := by nlinarith
  have := near_of_step (τ := 3 * K * h ^ 4) (N := N) hh.le (by positivity) (by positivity) hhL (fun i hi δ δ' hδ hδ' hw hw' p hp j => ?_) h0 hd
  · intro i hi
    have := this i hi
    rwa [show 2 * (i : ℝ) * (3 * K * h ^ 4) = i * h * (6 * K) * h ^ 3 by ring] at this
  · obtain ⟨γ, hγ0, hγ, -, hc⟩ := parab_facts hθ hE hh hL hhL hK0 hK hr ha hb hg hi hδ hδ' hw hw'
    obtain ⟨c, -, he, g1, g2⟩ := hc j
    have := g2 p hp _ (g1 (p + 1) hp) h ⟨hh.le, le_rfl⟩
    rw [he p hp, hE.stop i hi j p hp] at this
    refine this.trans ?_
    have e1 : h * L * γ ≤ h * L * (4 * δ + δ' + 4 * K * h ^ 4) := mul_le_mul_of_nonneg_left hγ (by positivity)
    have e2 : h * L * (K * h ^ 4) ≤ 1 / 40 * (K * h ^ 4) := mul_le_mul_of_nonneg_right hhl (by positivity)
    have e3 : 0 ≤ h * δ' := by positivity
    have e4 : 0 ≤ h * L * δ := by positivity
    have e5 : 0 ≤ h * L * δ' := by positivity
    have e6 : 0 ≤ K * h ^ 4 := by positivity
    linarith

/-- Highest derivative on a parabola with the third point in the middle: order four. -/
theorem simpson_near (hE : Exact M 4 h N y Z) (hh : 0 < h) (hL : 0 ≤ L) (hhL : h * (2 + 20 * L) ≤ 1 / 2) (hK0 : 0 ≤ K) (hK0' : 0 ≤ K')
    (hK : ∀ i < N, ∀ j, ∀ s ∈ Icc (0 : ℝ) h, |Z i j (M + 3) s| ≤ K ∧ |Z i j (M + 4) s| ≤ K')
    (hr : ∀ i < N, ∀ j, Reached (.parab (1 / 2)) M (fun p => x i p j) (fun p => x (i + 1) p j) (fun p => xc i p j) (a i j) (a (i + 1) j) (ac i j) h)
    (ha : ∀ i < N, ∀ d, Within M (x i) (y i) d → ∀ j, |a i j - Z i j M 0| ≤ L * d)
    (hb : ∀ i < N, ∀ d, Within M (x (i + 1)) (y (i + 1)) d → ∀ j, |a (i + 1) j - Z i j M h| ≤ L * d)
    (hg : ∀ i < N, ∀ d, Within M (xc i) (fun p j => Z i j p (1 / 2 * h)) d → ∀ j, |ac i j - Z i j M (1 / 2 * h)| ≤ L * d)
    (h0 : Within M (x 0) (y 0) d0) (hd : 0 ≤ d0) :
    ∀ i ≤ N, Within M (x i) (y i) (Real.exp (4 * (2 + 20 * L) * (i * h)) * (d0 + i * h * (8 * K + 6 * L * K + K' / 24) * h ^ 4)) := by
  have hhl : h * L ≤ 1 / 40 := by nlinarith
  have hh2 : h ≤ 1 / 4 := by nlinarith
  have hE3 : Exact M 3 h N y Z := ⟨fun i hi j k hk => hE.tower i hi j k (by omega), hE.start, hE.stop⟩
  have := near_of_step (τ := (4 * K + 3 * L * K + K' / 48) * h ^ 5) (N := N) hh.le (by positivity) (by positivity) hhL (fun i hi δ δ' hδ hδ' hw hw' p hp j => ?_) h0 hd
  · intro i hi
    have := this i hi
    rwa [show 2 * (i : ℝ) * ((4 * K + 3 * L * K + K' / 48) * h ^ 5) = i * h * (8 * K + 6 * L * K + K' / 24) * h ^ 4 by ring] at this
  · obtain ⟨γ, hγ0, hγ, hac, hc⟩ := parab_facts (.inl rfl) hE3 hh hL hhL hK0 (fun i hi j s hs => (hK i hi j s hs).1) hr ha hb hg hi hδ hδ' hw hw'
    obtain ⟨c, hcm, he, g1, g2⟩ := hc j
    have e1 : h * L * γ ≤ h * L * (4 * δ + δ' + 4 * K * h ^ 4) := mul_le_mul_of_nonneg_left hγ (by positivity)
    have e3 : 0 ≤ h * δ' := by positivity
    have e3' : 0 ≤ h * δ := by positivity
    have e4 : 0 ≤ h * L * δ := by positivity
    have e5 : 0 ≤ h * L * δ' := by positivity
    have e6 : 0 ≤ K * h ^ 5 := by positivity
    have e7 : 0 ≤ L * K * h ^ 5 := by positivity
    have e8 : 0 ≤ K' * h ^ 5 := by positivity
    rcases Nat.lt_or_ge (p + 1) M with hp1 | hp1
    · have := g2 p hp _ (g2 (p + 1) hp1 _ (g1 (p + 2) hp1)) h ⟨hh.le, le_rfl⟩
      rw [he p hp, hE.stop i hi j p hp] at this
      refine this.trans ?_
      have f1 : h * (h * L * γ) ≤ h * (h * L * (4 * δ + δ' + 4 * K * h ^ 4)) := mul_le_mul_of_nonneg_left e1 hh.le
      have f2 : h * (h * L * δ) ≤ 1 / 4 * (h * L * δ) := mul_le_mul_of_nonneg_right hh2 e4
      have f3 : h * (h * L * δ') ≤ 1 / 4 * (h * L * δ') := mul_le_mul_of_nonneg_right hh2 e5
      have f4 : h * (h * δ) ≤ 1 / 4 * (h * δ) := mul_le_mul_of_nonneg_right hh2 e3'
      have f5 : h * L * (K * h ^ 5) ≤ 1 / 40 * (K * h ^ 5) := mul_le_mul_of_nonneg_right hhl e6
      linarith
    · obtain ⟨m, rfl⟩ : ∃ m, M = m + 1 := ⟨M - 1, by omega⟩
      obtain rfl : p = m := by omega
      have := simpson_step (δ := δ) hh (hE.tower i hi j) (fun s hs => (hK i hi j s hs).2) hcm (by rw [hE.start i hi j p hp]; exact hw p hp j) (ha i hi δ hw j)
        (hb i hi δ' hw' j) (hac j)
      rw [he p hp, hE.stop i hi j p hp] at this
      refine this.trans ?_
      linarith

/-- Between the samples, highest derivative on a line. -/
theorem line_curve (hE : Exact M 2 h N y Z) (hh : 0 < h) (hL : 0 ≤ L) (hhL : h * (2 + 2 * L) ≤ 1 / 2)
    (hK : ∀ i < N, ∀ j, ∀ s ∈ Icc (0 : ℝ) h, |Z i j (M + 2) s| ≤ K)
    (hr : ∀ i < N, ∀ j, Reached .line M (fun p => x i p j) (fun p => x (i + 1) p j) (fun p => xc i p j) (a i j) (a (i + 1) j) (ac i j) h)
    (ha : ∀ i < N, ∀ d, Within M (x i) (y i) d → ∀ j, |a i j - Z i j M 0| ≤ L * d)
    (hb : ∀ i < N, ∀ d, Within M (x (i + 1)) (y (i + 1)) d → ∀ j, |a (i + 1) j - Z i j M h| ≤ L * d)
    {i : ℕ} (hi : i < N) {δ : ℝ} (hδ : 0 ≤ δ) (hw : Within M (x i) (y i) δ) (hw' : Within M (x (i + 1)) (y (i + 1)) δ) (j : ι) :
    ∃ c, StepMotion .line M (fun p => x i p j) (a i j) (ac i j) (a (i + 1) j) h c ∧
      ∀ p < M, ∀ s ∈ Icc (0 : ℝ) h, |c p s - Z i j p s| ≤ 2 * δ + 3 * K * h ^ 3 := by
  have hh2 : h ≤ 1 / 2 := by nlinarith
  obtain ⟨c, hc, -, -⟩ := hr i hi j
  have hK0 : 0 ≤ K := (abs_nonneg _).trans (hK i hi j h ⟨hh.le, le_rfl⟩)
  refine ⟨c, hc, fun p hp s hs => ?_⟩
  refine (line_step_all hh hh2 (hE.tower i hi j) (hK i hi j) hc (fun p hp => by rw [hE.start i hi j p hp]; exact hw p hp j) hδ (ha i hi δ hw j)
    (hb i hi δ hw' j) p hp s hs).trans ?_
  have e1 : h * (2 + 2 * L) * δ ≤ 1 / 2 * δ := mul_le_mul_of_nonneg_right hhL hδ
  have e2 : 0 ≤ h * δ := by positivity
  have e3 : 0 ≤ K * h ^ 3 := by positivity
  linarith

/-- Between the samples, highest derivative on a parabola. -/
theorem parab_curve {θ : ℝ} (hθ : θ = 1 / 2 ∨ θ = 2 / 5) (hE : Exact M 3 h N y Z) (hh : 0 < h) (hL : 0 ≤ L) (hhL : h * (2 + 20 * L) ≤ 1 / 2) (hK0 : 0 ≤ K)
    (hK : ∀ i < N, ∀ j, ∀ s ∈ Icc (0 : ℝ) h, |Z i j (M + 3) s| ≤ K)
    (hr : ∀ i < N, ∀ j, Reached (.parab θ) M (fun p => x i p j) (fun p => x (i + 1) p j) (fun p => xc i p j) (a i j) (a (i + 1) j) (ac i j) h)
    (ha : ∀ i < N, ∀ d, Within M (x i) (y i) d → ∀ j, |a i j - Z i j M 0| ≤ L * d)
    (hb : ∀ i < N, ∀ d, Within M (x (i + 1)) (y (i + 1)) d → ∀ j, |a (i + 1) j - Z i j M h| ≤ L * d)
    (hg : ∀ i < N, ∀ d, Within M (xc i) (fun p j => Z i j p (θ * h)) d → ∀ j, |ac i j - Z i j M (θ * h)| ≤ L * d)
    {i : ℕ} (hi : i < N) {δ : ℝ} (hδ : 0 ≤ δ) (hw : Within M (x i) (y i) δ) (hw' : Within M (x (i + 1)) (y (i + 1)) δ) (j : ι) :
    ∃ c, StepMotion (.parab θ) M (fun p => x i p j) (a i j) (ac i j) (a (i + 1) j) h c ∧
      ∀ p < M, ∀ s ∈ Icc (0 : ℝ) h, |c p s - Z i j p s| ≤ 2 * δ + 3 * K * h ^ 4 := by
  have hhl : h * L ≤ 1 / 40 := by nlinarith
  have hh2 : h ≤ 1 / 4 := by nlinarith
  obtain ⟨γ, hγ0, hγ, -, hc⟩ := parab_facts hθ hE hh hL hhL hK0 hK hr ha hb hg hi hδ hδ hw hw'
  obtain ⟨c, hcm, -, g1, g2⟩ := hc j
  refine ⟨c, hcm, fun p hp s hs => (g2 p hp _ (g1 (p + 1) hp) s hs).trans ?_⟩
  have e1 : h * L * γ ≤ h * L * (4 * δ + δ + 4 * K * h ^ 4) := mul_le_mul_of_nonneg_left hγ (by positivity)
  have e2 : h * L * (K * h ^ 4) ≤ 1 / 40 * (K * h ^ 4) := mul_le_mul_of_nonneg_right hhl (by positivity)
  have e3 : h * (2 + 20 * L) * δ ≤ 1 / 2 * δ := mul_le_mul_of_nonneg_right hhL hδ
  have e4 : h * L * δ ≤ 1 / 40 * δ := mul_le_mul_of_nonneg_right hhl hδ
  have e6 : 0 ≤ K * h ^ 4 := by positivity
  linarith

end

/-! ### Problems -/

/-- The dynamics of a problem give its highest derivatives: `A` of the levels below `M`, the controls and the number of the coordinate. -/
def Explicit (F : Dyn) (M n_q : ℕ) (A : (ℕ → ℕ → ℝ) → (ℕ → ℝ) → ℕ → ℝ) : Prop :=
  ∀ x xd u lam, zero (F x xd u lam) → ∀ j < n_q, xd ((M - 1) * n_q + j) = A (fun p j => x (p * n_q + j)) u j

/-- The highest derivatives have the Lipschitz constant `L` in a region and depend on nothing but the levels and the `n_u` controls. -/
def LipA (A : (ℕ → ℕ → ℝ) → (ℕ → ℝ) → ℕ → ℝ) (S : (ℕ → ℕ → ℝ) → Prop) (M n_q n_u : ℕ) (L : ℝ) : Prop :=
  ∀ ξ η u w d, S ξ → S η → (∀ p < M, ∀ j < n_q, |ξ p j - η p j| ≤ d) → (∀ m < n_u, u m = w m) → ∀ j < n_q, |A ξ u j - A η w j| ≤ L * d

/-- The motion of the system: `Z i j k` is the derivative of order `k` of the coordinate `j` in the interval `i`, `w i` the controls in it, and the levels pass by
the states `y` at the ends of the intervals. -/
structure Motions (A : (ℕ → ℕ → ℝ) → (ℕ → ℝ) → ℕ → ℝ) (M n_q r : ℕ) (h : ℝ) (N : ℕ) (y : ℕ → ℕ → ℕ → ℝ) (w : ℕ → ℝ → ℕ → ℝ)
    (Z : ℕ → ℕ → ℕ → ℝ → ℝ) : Prop where
  tower : ∀ i < N, ∀ j < n_q, ∀ k < M + r, ∀ s ∈ Icc (0 : ℝ) h, HasDerivWithinAt (Z i j k) (Z i j (k + 1) s) (Icc 0 h) s
  dyn : ∀ i < N, ∀ s ∈ Icc (0 : ℝ) h, ∀ j < n_q, Z i j M s = A (fun p j => Z i j p s) (w i s) j
  start : ∀ i < N, ∀ j < n_q, ∀ p < M, Z i j p 0 = y i p j
  stop : ∀ i < N, ∀ j < n_q, ∀ p < M, Z i j p h = y (i + 1) p j

/-- The states of the samples (and centres) and of the motion are in a region. -/
structure InRegion (S : (ℕ → ℕ → ℝ) → Prop) (n_q N : ℕ) (h : ℝ) (v c : Vars) (Z : ℕ → ℕ → ℕ → ℝ → ℝ) : Prop where
  samples : ∀ i ≤ N, S fun p j => v.x i (p * n_q + j)
  centres : ∀ i < N, S fun p j => c.x i (p * n_q + j)
  motion : ∀ i < N, ∀ s ∈ Icc (0 : ℝ) h, S fun p j => Z i j p s

/-- The motion has the controls of the samples. -/
def SampleControls (n_u N : ℕ) (h : ℝ) (v : Vars) (w : ℕ → ℝ → ℕ → ℝ) : Prop := ∀ i < N, ∀ m < n_u, v.u i m = w i 0 m ∧ v.u (i + 1) m = w i h m

/-- The samples are as close to the motion as a bound. -/
def SamplesNear (order n_q N : ℕ) (v : Vars) (y : ℕ → ℕ → ℕ → ℝ) (b : ℕ → ℝ) : Prop :=
  ∀ i ≤ N, ∀ j < n_q, ∀ p < order, |v.lev order n_q p i j - y i p j| ≤ b i

/-- In every interval, the curves of the scheme through the samples are as close to the motion as a bound, at all instants. -/
def CurvesNear (s : Shape) (order n_q N : ℕ) (h : ℝ) (v c : Vars) (Z : ℕ → ℕ → ℕ → ℝ → ℝ) (b : ℕ → ℝ) : Prop :=
  ∀ i < N, ∀ j < n_q, ∃ z, StepMotion s order (fun p => v.lev order n_q p i j) (v.lev order n_q order i j) (c.lev order n_q order i j)
    (v.lev order n_q order (i + 1) j) h z ∧ ∀ p < order, ∀ τ ∈ Icc (0 : ℝ) h, |z p τ - Z i j p τ| ≤ b i

/-- The same for schemes of first order, with a curve for every level. -/
def LevelsNear (s : Shape) (order n_q N : ℕ) (h : ℝ) (v c : Vars) (Z : ℕ → ℕ → ℕ → ℝ → ℝ) (b : ℕ → ℝ) : Prop :=
  ∀ i < N, ∀ p < order, ∀ j < n_q, ∃ z, StepMotion s 1 (fun _ => v.lev order n_q p i j) (v.lev order n_q (p + 1) i j) (c.lev order n_q (p + 1) i j)
    (v.lev order n_q (p + 1) (i + 1) j) h z ∧ ∀ τ ∈ Icc (0 : ℝ) h, |z 0 τ - Z i j p τ| ≤ b i

private theorem bound_mono {L' C d0 h : ℝ} (hL : 0 ≤ L') (hC : 0 ≤ C) (hd : 0 ≤ d0) (hh : 0 ≤ h) {b : ℕ → ℝ}
    (hb : ∀ i : ℕ, b i = Real.exp (4 * L' * (i * h)) * (d0 + i * h * C)) (i : ℕ) : 0 ≤ b (i + 1) ∧ b i ≤ b (i + 1) := by
  rw [hb, hb]
  refine ⟨by positivity, mul_le_mul (Real.exp_le_exp.2 ?_) ?_ (by positivity) (Real.exp_nonneg _)⟩
  · push_cast
    nlinarith [mul_nonneg hL hh]
  · push_cast
    nlinarith [mul_nonneg hh hC]

section
variable {F : Dyn} {M n_q n_u N r : ℕ} {A : (ℕ → ℕ → ℝ) → (ℕ → ℝ) → ℕ → ℝ} {S : (ℕ → ℕ → ℝ) → Prop} {L h : ℝ} {v c : Vars} {y : ℕ → ℕ → ℕ → ℝ}
  {w : ℕ → ℝ → ℕ → ℝ} {Z : ℕ → ℕ → ℕ → ℝ → ℝ}

private theorem lev_lt (v : Vars) {M n_q p i j : ℕ} (hp : p < M) : v.lev M n_q p i j = v.x i (p * n_q + j) := by
  unfold Vars.lev
  rw [if_pos hp, mul_comm]

private theorem lev_top (v : Vars) {M n_q i j : ℕ} : v.lev M n_q M i j = v.xd i ((M - 1) * n_q + j) := by
  unfold Vars.lev
  rw [if_neg (lt_irrefl _), mul_comm]

private theorem motions_exact (hM : Motions A M n_q r h N y w Z) : Exact (ι := Fin n_q) M r h N (fun i p j => y i p j) (fun i j => Z i j) :=
  ⟨fun i hi j => hM.tower i hi j j.2, fun i hi j => hM.start i hi j j.2, fun i hi j => hM.stop i hi j j.2⟩

/-- Errors of the highest derivative at an instant. -/
private theorem top_err (hM : Motions A M n_q r h N y w Z) (hF : Explicit F M n_q A) (hL : LipA A S M n_q n_u L) {i : ℕ} (hi : i < N) {s : ℝ}
    (hs : s ∈ Icc (0 : ℝ) h) {V : Vars} {k : ℕ} (hz : zero (F (V.x k) (V.xd k) (V.u k) (V.lam k))) (hu : ∀ m < n_u, V.u k m = w i s m)
    (h1 : S fun p j => V.x k (p * n_q + j)) (h2 : S fun p j => Z i j p s) (d : ℝ)
    (hw : ∀ p < M, ∀ j < n_q, |V.lev M n_q p k j - Z i j p s| ≤ d) : ∀ j < n_q, |V.lev M n_q M k j - Z i j M s| ≤ L * d := by
  intro j hj
  rw [lev_top, hF _ _ _ _ hz j hj, hM.dyn i hi s hs j hj]
  refine hL _ _ _ _ d h1 h2 (fun p hp j hj => ?_) hu j hj
  have := hw p hp j hj
  rwa [lev_lt V hp] at this

end

/-- C155, schemes of the order of the problem with the highest derivative on lines: order two. -/
theorem C155_line {F : Dyn} {scheme : String} {order : ℕ} (hs : SchemeIs (some order) scheme .line order) {N n_q n_u : ℕ} (hN : 0 < N) {t_start t_end : ℝ}
    (hT : t_start < t_end) {A : (ℕ → ℕ → ℝ) → (ℕ → ℝ) → ℕ → ℝ} (hF : Explicit F order n_q A) {S : (ℕ → ℕ → ℝ) → Prop} {L K d0 h : ℝ} (hL0 : 0 ≤ L)
    (hL : LipA A S order n_q n_u L) (hh : h = (t_end - t_start) / N) (hhL : h * (2 + 2 * L) ≤ 1 / 2) {y : ℕ → ℕ → ℕ → ℝ} {w : ℕ → ℝ → ℕ → ℝ}
    {Z : ℕ → ℕ → ℕ → ℝ → ℝ} (hM : Motions A order n_q 2 h N y w Z) (hK0 : 0 ≤ K) (hK : ∀ i < N, ∀ j < n_q, ∀ s ∈ Icc (0 : ℝ) h, |Z i j (order + 2) s| ≤ K)
    (hd : 0 ≤ d0) :
    ∃ P, equiConstraints F scheme N order n_q n_u t_start t_end = .ok P ∧ ∀ v c : Vars, P v c → SampleControls n_u N h v w → InRegion S n_q N h v c Z →
      (∀ j < n_q, ∀ p < order, |v.lev order n_q p 0 j - y 0 p j| ≤ d0) →
      SamplesNear order n_q N v y (fun i => Real.exp (4 * (2 + 2 * L) * (i * h)) * (d0 + i * h * (4 * K) * h ^ 2)) ∧
      CurvesNear .line order n_q N h v c Z fun i => 2 * (Real.exp (4 * (2 + 2 * L) * ((i + 1 : ℕ) * h)) * (d0 + (i + 1 : ℕ) * h * (4 * K) * h ^ 2)) + 3 * K * h ^ 3 := by
  obtain ⟨P, hP, hv⟩ := C91_motion F hs N n_q n_u hN hT.ne
  have hpos : 0 < h := by rw [hh]; have : (0 : ℝ) < N := by exact_mod_cast hN
                          exact div_pos (by linarith) this
  refine ⟨P, hP, fun v c hvc hu hS h0 => ?_⟩
  obtain ⟨g1, g2, -⟩ := (hv v c).1 hvc
  rw [← hh] at g1
  have ha : ∀ i < N, ∀ d, Within order (fun p (j : Fin n_q) => v.lev order n_q p i j) (fun p (j : Fin n_q) => y i p j) d → ∀ j : Fin n_q, |v.lev order n_q order i j - Z i j order 0| ≤ L * d :=
    fun i hi d hw j => top_err hM hF hL hi ⟨le_rfl, hpos.le⟩ (g2 i hi.le) (fun m hm => (hu i hi m hm).1) (hS.samples i hi.le) (hS.motion i hi 0 ⟨le_rfl, hpos.le⟩) d
      (fun p hp j hj => by rw [hM.start i hi j hj p hp]; exact hw p hp ⟨j, hj⟩) j j.2
  have hb : ∀ i < N, ∀ d, Within order (fun p (j : Fin n_q) => v.lev order n_q p (i + 1) j) (fun p (j : Fin n_q) => y (i + 1) p j) d → ∀ j : Fin n_q, |v.lev order n_q order (i + 1) j - Z i j order h| ≤ L * d :=
    fun i hi d hw j => top_err hM hF hL hi ⟨hpos.le, le_rfl⟩ (g2 (i + 1) hi) (fun m hm => (hu i hi m hm).2) (hS.samples (i + 1) hi) (hS.motion i hi h ⟨hpos.le, le_rfl⟩) d
      (fun p hp j hj => by rw [hM.stop i hi j hj p hp]; exact hw p hp ⟨j, hj⟩) j j.2
  have := line_near (ι := Fin n_q) (M := order) (N := N) (x := fun i p j => v.lev order n_q p i j) (xc := fun i p j => c.lev order n_q p i j)
    (a := fun i j => v.lev order n_q order i j) (ac := fun i j => c.lev order n_q order i j) (motions_exact hM) hpos hL0 hhL hK0 (fun i hi j => hK i hi j j.2)
    (fun i hi j => g1 i hi j j.2) ha hb
    (fun p hp j => h0 j j.2 p hp) hd
  have hmono := bound_mono (L' := 2 + 2 * L) (C := 4 * K * h ^ 2) (d0 := d0) (h := h) (by linarith) (by positivity) hd hpos.le (fun i => rfl)
  refine ⟨fun i hi j hj p hp => this i hi p hp ⟨j, hj⟩, fun i hi j hj => ?_⟩
  obtain ⟨z, hz, hzn⟩ := line_curve (ι := Fin n_q) (M := order) (N := N) (x := fun i p j => v.lev order n_q p i j) (xc := fun i p j => c.lev order n_q p i j)
    (a := fun i j => v.lev order n_q order i j) (ac := fun i j => c.lev order n_q order i j) (motions_exact hM) hpos hL0 hhL (fun i hi j => hK i hi j j.2)
    (fun i hi j => g1 i hi j j.2) ha hb hi (hmono i).1
    (fun p hp j => (this i hi.le p hp j).trans (le_of_eq_of_le (by ring) (hmono i).2)) (fun p hp j => (this (i + 1) hi p hp j).trans (le_of_eq (by ring))) ⟨j, hj⟩
  exact ⟨z, hz, fun p hp τ hτ => (hzn p hp τ hτ).trans (le_of_eq (by ring))⟩

/-- C155, schemes of the order of the problem with the highest derivative on parabolas: order three. -/
theorem C155_parab {F : Dyn} {scheme : String} {θ : ℝ} {order : ℕ} (hs : SchemeIs (some order) scheme (.parab θ) order) {N n_q n_u : ℕ} (hN : 0 < N)
    {t_start t_end : ℝ} (hT : t_start < t_end) {A : (ℕ → ℕ → ℝ) → (ℕ → ℝ) → ℕ → ℝ} (hF : Explicit F order n_q A) {S : (ℕ → ℕ → ℝ) → Prop} {L K d0 h : ℝ}
    (hL0 : 0 ≤ L) (hL : LipA A S order n_q n_u L) (hh : h = (t_end - t_start) / N) (hhL : h * (2 + 20 * L) ≤ 1 / 2) {y : ℕ → ℕ → ℕ → ℝ}
    {w : ℕ → ℝ → ℕ → ℝ} {Z : ℕ → ℕ → ℕ → ℝ → ℝ} (hM : Motions A order n_q 3 h N y w Z) (hK0 : 0 ≤ K)
    (hK : ∀ i < N, ∀ j < n_q, ∀ s ∈ Icc (0 : ℝ) h, |Z i j (order + 3) s| ≤ K) (hd : 0 ≤ d0) :
    ∃ P, equiConstraints F scheme N order n_q n_u t_start t_end = .ok P ∧ ∀ v c : Vars, P v c → SampleControls n_u N h v w →
      (∀ i < N, ∀ m < n_u, c.u i m = w i (θ * h) m) → InRegion S n_q N h v c Z →
      (∀ j < n_q, ∀ p < order, |v.lev order n_q p 0 j - y 0 p j| ≤ d0) →
      SamplesNear order n_q N v y (fun i => Real.exp (4 * (2 + 20 * L) * (i * h)) * (d0 + i * h * (6 * K) * h ^ 3)) ∧
      CurvesNear (.parab θ) order n_q N h v c Z fun i => 2 * (Real.exp (4 * (2 + 20 * L) * ((i + 1 : ℕ) * h)) * (d0 + (i + 1 : ℕ) * h * (6 * K) * h ^ 3)) + 3 * K * h ^ 4 := by
  obtain ⟨P, hP, hv⟩ := C91_motion F hs N n_q n_u hN hT.ne
  have hpos : 0 < h := by rw [hh]; have : (0 : ℝ) < N := by exact_mod_cast hN
                          exact div_pos (by linarith) this
  have hθ : θ = 1 / 2 ∨ θ = 2 / 5 := by cases hs <;> simp
  have hth : θ * h ∈ Icc (0 : ℝ) h := by obtain rfl | rfl := hθ <;> constructor <;> linarith
  refine ⟨P, hP, fun v c hvc hu huc hS h0 => ?_⟩
  obtain ⟨g1, g2, g3⟩ := (hv v c).1 hvc
  rw [← hh] at g1
  have ha : ∀ i < N, ∀ d, Within order (fun p (j : Fin n_q) => v.lev order n_q p i j) (fun p (j : Fin n_q) => y i p j) d → ∀ j : Fin n_q, |v.lev order n_q order i j - Z i j order 0| ≤ L * d :=
    fun i hi d hw j => top_err hM hF hL hi ⟨le_rfl, hpos.le⟩ (g2 i hi.le) (fun m hm => (hu i hi m hm).1) (hS.samples i hi.le) (hS.motion i hi 0 ⟨le_rfl, hpos.le⟩) d
      (fun p hp j hj => by rw [hM.start i hi j hj p hp]; exact hw p hp ⟨j, hj⟩) j j.2
  have hb : ∀ i < N, ∀ d, Within order (fun p (j : Fin n_q) => v.lev order n_q p (i + 1) j) (fun p (j : Fin n_q) => y (i + 1) p j) d → ∀ j : Fin n_q, |v.lev order n_q order (i + 1) j - Z i j order h| ≤ L * d :=
    fun i hi d hw j => top_err hM hF hL hi ⟨hpos.le, le_rfl⟩ (g2 (i + 1) hi) (fun m hm => (hu i hi m hm).2) (hS.samples (i + 1) hi) (hS.motion i hi h ⟨hpos.le, le_rfl⟩) d
      (fun p hp j hj => by rw [hM.stop i hi j hj p hp]; exact hw p hp ⟨j, hj⟩) j j.2
  have hg : ∀ i < N, ∀ d, Within order (fun p (j : Fin n_q) => c.lev order n_q p i j) (fun p (j : Fin n_q) => Z i j p (θ * h)) d → ∀ j : Fin n_q, |c.lev order n_q order i j - Z i j order (θ * h)| ≤ L * d :=
    fun i hi d hw j => top_err hM hF hL hi hth ((g3 θ rfl).1 i hi) (huc i hi) (hS.centres i hi) (hS.motion i hi _ hth) d
      (fun p hp j hj => hw p hp ⟨j, hj⟩) j j.2
  have := parab_near (ι := Fin n_q) (M := order) (N := N) (x := fun i p j => v.lev order n_q p i j) (xc := fun i p j => c.lev order n_q p i j)
    (a := fun i j => v.lev order n_q order i j) (ac := fun i j => c.lev order n_q order i j) hθ (motions_exact hM) hpos hL0 hhL hK0 (fun i hi j => hK i hi j j.2)
    (fun i hi j => g1 i hi j j.2) ha hb hg
    (fun p hp j => h0 j j.2 p hp) hd
  have hmono := bound_mono (L' := 2 + 20 * L) (C := 6 * K * h ^ 3) (d0 := d0) (h := h) (by linarith) (by positivity) hd hpos.le (fun i => rfl)
  refine ⟨fun i hi j hj p hp => this i hi p hp ⟨j, hj⟩, fun i hi j hj => ?_⟩
  obtain ⟨z, hz, hzn⟩ := parab_curve (ι := Fin n_q) (M := order) (N := N) (x := fun i p j => v.lev order n_q p i j) (xc := fun i p j => c.lev order n_q p i j)
    (a := fun i j => v.lev order n_q order i j) (ac := fun i j => c.lev order n_q order i j) hθ (motions_exact hM) hpos hL0 hhL hK0 (fun i hi j => hK i hi j j.2)
    (fun i hi j => g1 i hi j j.2) ha hb hg hi (hmono i).1
    (fun p hp j => (this i hi.le p hp j).trans (le_of_eq_of_le (by ring) (hmono i).2)) (fun p hp j => (this (i + 1) hi p hp j).trans (le_of_eq (by ring))) ⟨j, hj⟩
  exact ⟨z, hz, fun p hp τ hτ => (hzn p hp τ hτ).trans (le_of_eq (by ring))⟩

/-- C155, schemes of the order of the problem with the highest derivative on parabolas with the third point in the middle: order four. -/
theorem C155_half {F : Dyn} {scheme : String} {order : ℕ} (hs : SchemeIs (some order) scheme (.parab (1 / 2)) order) {N n_q n_u : ℕ} (hN : 0 < N)
    {t_start t_end : ℝ} (hT : t_start < t_end) {A : (ℕ → ℕ → ℝ) → (ℕ → ℝ) → ℕ → ℝ} (hF : Explicit F order n_q A) {S : (ℕ → ℕ → ℝ) → Prop} {L K K' d0 h : ℝ}
    (hL0 : 0 ≤ L) (hL : LipA A S order n_q n_u L) (hh : h = (t_end - t_start) / N) (hhL : h * (2 + 20 * L) ≤ 1 / 2) {y : ℕ → ℕ → ℕ → ℝ}
    {w : ℕ → ℝ → ℕ → ℝ} {Z : ℕ → ℕ → ℕ → ℝ → ℝ} (hM : Motions A order n_q 4 h N y w Z) (hK0 : 0 ≤ K) (hK0' : 0 ≤ K')
    (hK : ∀ i < N, ∀ j < n_q, ∀ s ∈ Icc (0 : ℝ) h, |Z i j (order + 3) s| ≤ K ∧ |Z i j (order + 4) s| ≤ K') (hd : 0 ≤ d0) :
    ∃ P, equiConstraints F scheme N order n_q n_u t_start t_end = .ok P ∧ ∀ v c : Vars, P v c → SampleControls n_u N h v w →
      (∀ i < N, ∀ m < n_u, c.u i m = w i (1 / 2 * h) m) → InRegion S n_q N h v c Z →
      (∀ j < n_q, ∀ p < order, |v.lev order n_q p 0 j - y 0 p j| ≤ d0) →
      SamplesNear order n_q N v y (fun i => Real.exp (4 * (2 + 20 * L) * (i * h)) * (d0 + i * h * (8 * K + 6 * L * K + K' / 24) * h ^ 4)) ∧
      CurvesNear (.parab (1 / 2)) order n_q N h v c Z fun i => 2 * (Real.exp (4 * (2 + 20 * L) * ((i + 1 : ℕ) * h)) * (d0 + (i + 1 : ℕ) * h * (8 * K + 6 * L * K + K' / 24) * h ^ 4)) + 3 * K * h ^ 4 := by
  obtain ⟨P, hP, hv⟩ := C91_motion F hs N n_q n_u hN hT.ne
  have hpos : 0 < h := by rw [hh]; have : (0 : ℝ) < N := by exact_mod_cast hN
                          exact div_pos (by linarith) this
  have hth : 1 / 2 * h ∈ Icc (0 : ℝ) h := by constructor <;> linarith
  refine ⟨P, hP, fun v c hvc hu huc hS h0 => ?_⟩
  obtain ⟨g1, g2, g3⟩ := (hv v c).1 hvc
  rw [← hh] at g1
  have ha : ∀ i < N, ∀ d, Within order (fun p (j : Fin n_q) => v.lev order n_q p i j) (fun p (j : Fin n_q) => y i p j) d → ∀ j : Fin n_q, |v.lev order n_q order i j - Z i j order 0| ≤ L * d :=
    fun i hi d hw j => top_err hM hF hL hi ⟨le_rfl, hpos.le⟩ (g2 i hi.le) (fun m hm => (hu i hi m hm).1) (hS.samples i hi.le) (hS.motion i hi 0 ⟨le_rfl, hpos.le⟩) d
      (fun p hp j hj => by rw [hM.start i hi j hj p hp]; exact hw p hp ⟨j, hj⟩) j j.2
  have hb : ∀ i < N, ∀ d, Within order (fun p (j : Fin n_q) => v.lev order n_q p (i + 1) j) (fun p (j : Fin n_q) => y (i + 1) p j) d → ∀ j : Fin n_q, |v.lev order n_q order (i + 1) j - Z i j order h| ≤ L * d :=
    fun i hi d hw j => top_err hM hF hL hi ⟨hpos.le, le_rfl⟩ (g2 (i + 1) hi) (fun m hm => (hu i hi m hm).2) (hS.samples (i + 1) hi) (hS.motion i hi h ⟨hpos.le, le_rfl⟩) d
      (fun p hp j hj => by rw [hM.stop i hi j hj p hp]; exact hw p hp ⟨j, hj⟩) j j.2
  have hg : ∀ i < N, ∀ d, Within order (fun p (j : Fin n_q) => c.lev order n_q p i j) (fun p (j : Fin n_q) => Z i j p (1 / 2 * h)) d → ∀ j : Fin n_q, |c.lev order n_q order i j - Z i j order (1 / 2 * h)| ≤ L * d :=
    fun i hi d hw j => top_err hM hF hL hi hth ((g3 _ rfl).1 i hi) (huc i hi) (hS.centres i hi) (hS.motion i hi _ hth) d
      (fun p hp j hj => hw p hp ⟨j, hj⟩) j j.2
  have := simpson_near (ι := Fin n_q) (M := order) (N := N) (x := fun i p j => v.lev order n_q p i j) (xc := fun i p j => c.lev order n_q p i j)
    (a := fun i j => v.lev order n_q order i j) (ac := fun i j => c.lev order n_q order i j) (motions_exact hM) hpos hL0 hhL hK0 hK0'
    (fun i hi j => hK i hi j j.2) (fun i hi j => g1 i hi j j.2) ha hb hg
    (fun p hp j => h0 j j.2 p hp) hd
  have hM3 : Motions A order n_q 3 h N y w Z := ⟨fun i hi j hj k hk => hM.tower i hi j hj k (by omega), hM.dyn, hM.start, hM.stop⟩
  have hmono := bound_mono (L' := 2 + 20 * L) (C := (8 * K + 6 * L * K + K' / 24) * h ^ 4) (d0 := d0) (h := h) (by linarith) (by positivity) hd hpos.le (fun i => rfl)
  refine ⟨fun i hi j hj p hp => this i hi p hp ⟨j, hj⟩, fun i hi j hj => ?_⟩
  obtain ⟨z, hz, hzn⟩ := parab_curve (ι := Fin n_q) (M := order) (N := N) (x := fun i p j => v.lev order n_q p i j) (xc := fun i p j => c.lev order n_q p i j)
    (a := fun i j => v.lev order n_q order i j) (ac := fun i j => c.lev order n_q order i j) (.inl rfl) (motions_exact hM3) hpos hL0 hhL hK0
    (fun i hi j s hs => (hK i hi j j.2 s hs).1) (fun i hi j => g1 i hi j j.2) ha hb hg hi (hmono i).1
    (fun p hp j => (this i hi.le p hp j).trans (le_of_eq_of_le (by ring) (hmono i).2)) (fun p hp j => (this (i + 1) hi p hp j).trans (le_of_eq (by ring))) ⟨j, hj⟩
  exact ⟨z, hz, fun p hp τ hτ => (hzn p hp τ hτ).trans (le_of_eq (by ring))⟩

/-! ### Schemes of first order on problems of any order -/

section
variable {F : Dyn} {M n_q n_u N r : ℕ} {A : (ℕ → ℕ → ℝ) → (ℕ → ℝ) → ℕ → ℝ} {S : (ℕ → ℕ → ℝ) → Prop} {L h : ℝ} {v c : Vars} {y : ℕ → ℕ → ℕ → ℝ}
  {w : ℕ → ℝ → ℕ → ℝ} {Z : ℕ → ℕ → ℕ → ℝ → ℝ}

private theorem levels_exact (hM : Motions A M n_q r h N y w Z) : Exact (ι := Fin M × Fin n_q) 1 r h N (fun i _ j => y i j.1 j.2) (fun i j k => Z i j.2 (j.1 + k)) := by
  refine ⟨fun i hi j k hk => hM.tower i hi j.2 j.2.2 _ ?_, fun i hi j p hp => ?_, fun i hi j p hp => ?_⟩
  · have := j.1.2
    omega
  · obtain rfl : p = 0 := by omega
    exact hM.start i hi j.2 j.2.2 j.1 j.1.2
  · obtain rfl : p = 0 := by omega
    exact hM.stop i hi j.2 j.2.2 j.1 j.1.2

private theorem level_err (hM : Motions A M n_q r h N y w Z) (hF : Explicit F M n_q A) (hL1 : 1 ≤ L) (hL : LipA A S M n_q n_u L) {i : ℕ} (hi : i < N) {s : ℝ}
    (hs : s ∈ Icc (0 : ℝ) h) {V : Vars} {k : ℕ} (hz : zero (F (V.x k) (V.xd k) (V.u k) (V.lam k))) (hu : ∀ m < n_u, V.u k m = w i s m)
    (h1 : S fun p j => V.x k (p * n_q + j)) (h2 : S fun p j => Z i j p s) (d : ℝ)
    (hw : ∀ p < M, ∀ j < n_q, |V.lev M n_q p k j - Z i j p s| ≤ d) (j : Fin M × Fin n_q) :
    |V.lev M n_q (j.1 + 1) k j.2 - Z i j.2 (j.1 + 1) s| ≤ L * d := by
  rcases Nat.lt_or_ge (j.1 + 1) M with hp | hp
  · have := hw (j.1 + 1) hp j.2 j.2.2
    exact this.trans (le_mul_of_one_le_left ((abs_nonneg _).trans this) hL1)
  · have e : (j.1 + 1 : ℕ) = M := by have := j.1.2; omega
    rw [e]
    exact top_err hM hF hL hi hs hz hu h1 h2 d hw j.2 j.2.2

end

/-- C155, "trapz" on a problem of any order: order two. -/
theorem C155_trapz {F : Dyn} {N order n_q n_u : ℕ} (hN : 0 < N) {t_start t_end : ℝ} (hT : t_start < t_end) {A : (ℕ → ℕ → ℝ) → (ℕ → ℝ) → ℕ → ℝ}
    (hF : Explicit F order n_q A) {S : (ℕ → ℕ → ℝ) → Prop} {L K d0 h : ℝ} (hL1 : 1 ≤ L) (hL : LipA A S order n_q n_u L) (hh : h = (t_end - t_start) / N)
    (hhL : h * (2 + 2 * L) ≤ 1 / 2) {y : ℕ → ℕ → ℕ → ℝ} {w : ℕ → ℝ → ℕ → ℝ} {Z : ℕ → ℕ → ℕ → ℝ → ℝ} (hM : Motions A order n_q 2 h N y w Z) (hK0 : 0 ≤ K)
    (hK : ∀ i < N, ∀ j < n_q, ∀ p < order, ∀ s ∈ Icc (0 : ℝ) h, |Z i j (p + 3) s| ≤ K) (hd : 0 ≤ d0) :
    ∃ P, equiConstraints F "trapz" N order n_q n_u t_start t_end = .ok P ∧ ∀ v c : Vars, P v c → SampleControls n_u N h v w → InRegion S n_q N h v c Z →
      (∀ j < n_q, ∀ p < order, |v.lev order n_q p 0 j - y 0 p j| ≤ d0) →
      SamplesNear order n_q N v y (fun i => Real.exp (4 * (2 + 2 * L) * (i * h)) * (d0 + i * h * (4 * K) * h ^ 2)) ∧
      LevelsNear .line order n_q N h v c Z fun i => 2 * (Real.exp (4 * (2 + 2 * L) * ((i + 1 : ℕ) * h)) * (d0 + (i + 1 : ℕ) * h * (4 * K) * h ^ 2)) + 3 * K * h ^ 3 := by
  obtain ⟨P, hP, hv⟩ := C91_levels F (.inl ⟨rfl, rfl⟩) N order n_q n_u hN hT.ne
  have hpos : 0 < h := by rw [hh]; have : (0 : ℝ) < N := by exact_mod_cast hN
                          exact div_pos (by linarith) this
  refine ⟨P, hP, fun v c hvc hu hS h0 => ?_⟩
  obtain ⟨g1, g2, -⟩ := (hv v c).1 hvc
  rw [← hh] at g1
  have ha : ∀ i < N, ∀ d, Within 1 (fun _ (j : Fin order × Fin n_q) => v.lev order n_q j.1 i j.2) (fun _ (j : Fin order × Fin n_q) => y i j.1 j.2) d → ∀ j : Fin order × Fin n_q, |v.lev order n_q (j.1 + 1) i j.2 - Z i j.2 (j.1 + 1) 0| ≤ L * d :=
    fun i hi d hw j => level_err hM hF hL1 hL hi ⟨le_rfl, hpos.le⟩ (g2 i hi.le) (fun m hm => (hu i hi m hm).1) (hS.samples i hi.le)
      (hS.motion i hi 0 ⟨le_rfl, hpos.le⟩) d (fun p hp j hj => by rw [hM.start i hi j hj p hp]; exact hw 0 one_pos (⟨p, hp⟩, ⟨j, hj⟩)) j
  have hb : ∀ i < N, ∀ d, Within 1 (fun _ (j : Fin order × Fin n_q) => v.lev order n_q j.1 (i + 1) j.2) (fun _ (j : Fin order × Fin n_q) => y (i + 1) j.1 j.2) d → ∀ j : Fin order × Fin n_q, |v.lev order n_q (j.1 + 1) (i + 1) j.2 - Z i j.2 (j.1 + 1) h| ≤ L * d :=
    fun i hi d hw j => level_err hM hF hL1 hL hi ⟨hpos.le, le_rfl⟩ (g2 (i + 1) hi) (fun m hm => (hu i hi m hm).2) (hS.samples (i + 1) hi)
      (hS.motion i hi h ⟨hpos.le, le_rfl⟩) d (fun p hp j hj => by rw [hM.stop i hi j hj p hp]; exact hw 0 one_pos (⟨p, hp⟩, ⟨j, hj⟩)) j
  have := line_near (ι := Fin order × Fin n_q) (M := 1) (N := N) (x := fun i _ j => v.lev order n_q j.1 i j.2) (xc := fun i _ j => c.lev order n_q j.1 i j.2)
    (a := fun i j => v.lev order n_q (j.1 + 1) i j.2) (ac := fun i j => c.lev order n_q (j.1 + 1) i j.2) (levels_exact hM) hpos (by linarith) hhL hK0
    (fun i hi j => hK i hi j.2 j.2.2 j.1 j.1.2) (fun i hi j => g1 i hi j.2 j.2.2 j.1 j.1.2) ha hb
    (fun p hp j => h0 j.2 j.2.2 j.1 j.1.2) hd
  have hmono := bound_mono (L' := 2 + 2 * L) (C := 4 * K * h ^ 2) (d0 := d0) (h := h) (by linarith) (by positivity) hd hpos.le (fun i => rfl)
  refine ⟨fun i hi j hj p hp => this i hi 0 one_pos (⟨p, hp⟩, ⟨j, hj⟩), fun i hi p hp j hj => ?_⟩
  obtain ⟨z, hz, hzn⟩ := line_curve (ι := Fin order × Fin n_q) (M := 1) (N := N) (x := fun i _ j => v.lev order n_q j.1 i j.2) (xc := fun i _ j => c.lev order n_q j.1 i j.2)
    (a := fun i j => v.lev order n_q (j.1 + 1) i j.2) (ac := fun i j => c.lev order n_q (j.1 + 1) i j.2) (levels_exact hM) hpos (by linarith) hhL
    (fun i hi j => hK i hi j.2 j.2.2 j.1 j.1.2) (fun i hi j => g1 i hi j.2 j.2.2 j.1 j.1.2) ha hb hi (hmono i).1
    (fun p hp j => (this i hi.le p hp j).trans (le_of_eq_of_le (by ring) (hmono i).2)) (fun p hp j => (this (i + 1) hi p hp j).trans (le_of_eq (by ring))) (⟨p, hp⟩, ⟨j, hj⟩)
  exact ⟨z, hz, fun τ hτ => (hzn 0 one_pos τ hτ).trans (le_of_eq (by ring))⟩

/-- C155, "hs" and "hs_parab" on a problem of any order: order four. -/
theorem C155_hs {F : Dyn} {scheme : String} (hs : scheme = "hs" ∨ scheme = "hs_parab") {N order n_q n_u : ℕ} (hN : 0 < N) {t_start t_end : ℝ}
    (hT : t_start < t_end) {A : (ℕ → ℕ → ℝ) → (ℕ → ℝ) → ℕ → ℝ} (hF : Explicit F order n_q A) {S : (ℕ → ℕ → ℝ) → Prop} {L K K' d0 h : ℝ} (hL1 : 1 ≤ L)
    (hL : LipA A S order n_q n_u L) (hh : h = (t_end - t_start) / N) (hhL : h * (2 + 20 * L) ≤ 1 / 2) {y : ℕ → ℕ → ℕ → ℝ} {w : ℕ → ℝ → ℕ → ℝ}
    {Z : ℕ → ℕ → ℕ → ℝ → ℝ} (hM : Motions A order n_q 4 h N y w Z) (hK0 : 0 ≤ K) (hK0' : 0 ≤ K')
    (hK : ∀ i < N, ∀ j < n_q, ∀ p < order, ∀ s ∈ Icc (0 : ℝ) h, |Z i j (p + 4) s| ≤ K ∧ |Z i j (p + 5) s| ≤ K') (hd : 0 ≤ d0) :
    ∃ P, equiConstraints F scheme N order n_q n_u t_start t_end = .ok P ∧ ∀ v c : Vars, P v c → SampleControls n_u N h v w →
      (∀ i < N, ∀ m < n_u, c.u i m = w i (1 / 2 * h) m) → InRegion S n_q N h v c Z →
      (∀ j < n_q, ∀ p < order, |v.lev order n_q p 0 j - y 0 p j| ≤ d0) →
      SamplesNear order n_q N v y (fun i => Real.exp (4 * (2 + 20 * L) * (i * h)) * (d0 + i * h * (8 * K + 6 * L * K + K' / 24) * h ^ 4)) ∧
      LevelsNear (.parab (1 / 2)) order n_q N h v c Z fun i => 2 * (Real.exp (4 * (2 + 20 * L) * ((i + 1 : ℕ) * h)) * (d0 + (i + 1 : ℕ) * h * (8 * K + 6 * L * K + K' / 24) * h ^ 4)) + 3 * K * h ^ 4 := by
  obtain ⟨P, hP, hv⟩ := C91_levels F (.inr ⟨hs, rfl⟩) N order n_q n_u hN hT.ne
  have hpos : 0 < h := by rw [hh]; have : (0 : ℝ) < N := by exact_mod_cast hN
                          exact div_pos (by linarith) this
  have hth : 1 / 2 * h ∈ Icc (0 : ℝ) h := by constructor <;> linarith
  refine ⟨P, hP, fun v c hvc hu huc hS h0 => ?_⟩
  obtain ⟨g1, g2, g3⟩ := (hv v c).1 hvc
  have g3 := (g3 (by simp)).1
  rw [← hh] at g1
  have ha : ∀ i < N, ∀ d, Within 1 (fun _ (j : Fin order × Fin n_q) => v.lev order n_q j.1 i j.2) (fun _ (j : Fin order × Fin n_q) => y i j.1 j.2) d → ∀ j : Fin order × Fin n_q, |v.lev order n_q (j.1 + 1) i j.2 - Z i j.2 (j.1 + 1) 0| ≤ L * d :=
    fun i hi d hw j => level_err hM hF hL1 hL hi ⟨le_rfl, hpos.le⟩ (g2 i hi.le) (fun m hm => (hu i hi m hm).1) (hS.samples i hi.le)
      (hS.motion i hi 0 ⟨le_rfl, hpos.le⟩) d (fun p hp j hj => by rw [hM.start i hi j hj p hp]; exact hw 0 one_pos (⟨p, hp⟩, ⟨j, hj⟩)) j
  have hb : ∀ i < N, ∀ d, Within 1 (fun _ (j : Fin order × Fin n_q) => v.lev order n_q j.1 (i + 1) j.2) (fun _ (j : Fin order × Fin n_q) => y (i + 1) j.1 j.2) d → ∀ j : Fin order × Fin n_q, |v.lev order n_q (j.1 + 1) (i + 1) j.2 - Z i j.2 (j.1 + 1) h| ≤ L * d :=
    fun i hi d hw j => level_err hM hF hL1 hL hi ⟨hpos.le, le_rfl⟩ (g2 (i + 1) hi) (fun m hm => (hu i hi m hm).2) (hS.samples (i + 1) hi)
      (hS.motion i hi h ⟨hpos.le, le_rfl⟩) d (fun p hp j hj => by rw [hM.stop i hi j hj p hp]; exact hw 0 one_pos (⟨p, hp⟩, ⟨j, hj⟩)) j
  have hg : ∀ i < N, ∀ d, Within 1 (fun _ (j : Fin order × Fin n_q) => c.lev order n_q j.1 i j.2) (fun p (j : Fin order × Fin n_q) => Z i j.2 (j.1 + p) (1 / 2 * h)) d → ∀ j : Fin order × Fin n_q, |c.lev order n_q (j.1 + 1) i j.2 - Z i j.2 (j.1 + 1) (1 / 2 * h)| ≤ L * d :=
    fun i hi d hw j => level_err hM hF hL1 hL hi hth (g3 i hi) (huc i hi) (hS.centres i hi) (hS.motion i hi _ hth) d
      (fun p hp j hj => hw 0 one_pos (⟨p, hp⟩, ⟨j, hj⟩)) j
  have := simpson_near (ι := Fin order × Fin n_q) (M := 1) (N := N) (x := fun i _ j => v.lev order n_q j.1 i j.2) (xc := fun i _ j => c.lev order n_q j.1 i j.2)
    (a := fun i j => v.lev order n_q (j.1 + 1) i j.2) (ac := fun i j => c.lev order n_q (j.1 + 1) i j.2) (levels_exact hM) hpos (by linarith) hhL hK0 hK0'
    (fun i hi j => hK i hi j.2 j.2.2 j.1 j.1.2) (fun i hi j => g1 i hi j.2 j.2.2 j.1 j.1.2) ha hb hg
    (fun p hp j => h0 j.2 j.2.2 j.1 j.1.2) hd
  have hM3 : Motions A order n_q 3 h N y w Z := ⟨fun i hi j hj k hk => hM.tower i hi j hj k (by omega), hM.dyn, hM.start, hM.stop⟩
  have hmono := bound_mono (L' := 2 + 20 * L) (C := (8 * K + 6 * L * K + K' / 24) * h ^ 4) (d0 := d0) (h := h) (by linarith) (by positivity) hd hpos.le (fun i => rfl)
  refine ⟨fun i hi j hj p hp => this i hi 0 one_pos (⟨p, hp⟩, ⟨j, hj⟩), fun i hi p hp j hj => ?_⟩
  obtain ⟨z, hz, hzn⟩ := parab_curve (ι := Fin order × Fin n_q) (M := 1) (N := N) (x := fun i _ j => v.lev order n_q j.1 i j.2) (xc := fun i _ j => c.lev order n_q j.1 i j.2)
    (a := fun i j => v.lev order n_q (j.1 + 1) i j.2) (ac := fun i j => c.lev order n_q (j.1 + 1) i j.2) (.inl rfl) (levels_exact hM3) hpos (by linarith) hhL hK0
    (fun i hi j s hs => (hK i hi j.2 j.2.2 j.1 j.1.2 s hs).1) (fun i hi j => g1 i hi j.2 j.2.2 j.1 j.1.2) ha hb hg hi (hmono i).1
    (fun p hp j => (this i hi.le p hp j).trans (le_of_eq_of_le (by ring) (hmono i).2)) (fun p hp j => (this (i + 1) hi p hp j).trans (le_of_eq (by ring))) (⟨p, hp⟩, ⟨j, hj⟩)
  exact ⟨z, hz, fun τ hτ => (hzn 0 one_pos τ hτ).trans (le_of_eq (by ring))⟩

/-! ### Concrete cases -/

/-- The exponential is a motion of `q'' = q + u` without controls. -/
theorem exp_motions (r N : ℕ) (h : ℝ) : Motions (fun ξ u _ => ξ 0 0 + u 0) 2 1 r h N (fun i _ _ => Real.exp (i * h)) (fun _ _ _ => 0)
    (fun i _ _ s => Real.exp (i * h + s)) where
  tower := fun i _ _ _ k _ s _ => ((Real.hasDerivAt_exp (i * h + s)).comp_const_add (i * h) s).hasDerivWithinAt
  dyn := fun _ _ _ _ _ _ => by simp
  start := fun _ _ _ _ _ _ => by simp
  stop := fun _ _ _ _ _ _ => by push_cast; ring_nf

/-- The hypotheses of `C155_half` hold of `q'' = q + u` with "hs_mod" over one unit of time: the feasible points without controls that start at position and speed
one are samples of the exponential up to an error of order four. -/
example (N : ℕ) (hN : 44 ≤ N) : ∃ P, equiConstraints (fun x xd u _ => [xd 0 - x 1, xd 1 - (x 0 + u 0)]) "hs_mod" N 2 1 1 0 1 = .ok P ∧
    ∀ v c : Vars, P v c → (∀ i ≤ N, v.u i 0 = 0) → (∀ i < N, c.u i 0 = 0) → v.x 0 0 = 1 → v.x 0 1 = 1 →
      SamplesNear 2 1 N v (fun i _ _ => Real.exp (i * (1 / N))) (fun i =>
        Real.exp (4 * (2 + 20 * 1) * (i * (1 / N))) * (0 + i * (1 / N) * (8 * 3 + 6 * 1 * 3 + 3 / 24) * (1 / N) ^ 4)) ∧
      CurvesNear (.parab (1 / 2)) 2 1 N (1 / N) v c (fun i _ _ s => Real.exp (i * (1 / N) + s)) fun i =>
        2 * (Real.exp (4 * (2 + 20 * 1) * ((i + 1 : ℕ) * (1 / N))) * (0 + (i + 1 : ℕ) * (1 / N) * (8 * 3 + 6 * 1 * 3 + 3 / 24) * (1 / N) ^ 4)) +
          3 * 3 * (1 / N) ^ 4 := by
  have hN' : (44 : ℝ) ≤ N := by exact_mod_cast hN
  have hb : ∀ i < N, ∀ s ∈ Icc (0 : ℝ) (1 / N), |Real.exp (i * (1 / N) + s)| ≤ 3 := by
    intro i hi s hs
    rw [abs_of_pos (Real.exp_pos _)]
    have h1 : (i : ℝ) + 1 ≤ N := by exact_mod_cast hi
    have : (i : ℝ) * (1 / N) + s ≤ 1 := by
      have : ((i : ℝ) + 1) * (1 / N) ≤ 1 := by
        rw [mul_one_div, div_le_one (by linarith)]
        exact h1
      linarith [hs.2]
    exact (Real.exp_le_exp.2 this).trans (Real.exp_one_lt_d9.le.trans (by norm_num))
  obtain ⟨P, hP, h⟩ := C155_half (F := fun x xd u _ => [xd 0 - x 1, xd 1 - (x 0 + u 0)]) (scheme := "hs_mod") .hs_mod (N := N) (n_q := 1) (n_u := 1) (by omega)
    (t_start := 0) (t_end := 1) one_pos (A := fun ξ u _ => ξ 0 0 + u 0)
    (fun x xd u _ hz j hj => by
      obtain rfl : j = 0 := by omega
      have := hz (xd 1 - (x 0 + u 0)) (by simp)
      simpa [sub_eq_zero] using this)
    (S := fun _ => True) (L := 1) (K := 3) (K' := 3) (d0 := 0) (h := 1 / N) (by norm_num)
    (fun ξ η u w d _ _ h1 h2 j _ => by
      have := h1 0 (by norm_num) 0 (by norm_num)
      have h3 := h2 0 (by norm_num)
      simpa [h3] using this)
    (by norm_num) (by rw [one_div, inv_mul_le_iff₀ (by linarith)]; linarith) (exp_motions 4 N (1 / N)) (by norm_num) (by norm_num)
    (fun i hi j hj s hs => ⟨hb i hi s hs, hb i hi s hs⟩) le_rfl
  refine ⟨P, hP, fun v c hvc hu huc h0 h1 => h v c hvc (fun i hi m hm => ?_) (fun i hi m hm => ?_) ⟨fun _ _ => trivial, fun _ _ => trivial, fun _ _ _ _ => trivial⟩ ?_⟩
  · obtain rfl : m = 0 := by omega
    exact ⟨hu i hi.le, hu (i + 1) hi⟩
  · obtain rfl : m = 0 := by omega
    exact huc i hi
  · intro j hj p hp
    obtain rfl : j = 0 := by omega
    interval_cases p <;> simp [Vars.lev, h0, h1]

end Chords.Conv
