import Mathlib.Analysis.Calculus.MeanValue
import Mathlib.Analysis.Calculus.Deriv.Pow
import Mathlib.Analysis.Calculus.Deriv.Mul
import Mathlib.Analysis.Calculus.Deriv.Add
import Mathlib.Analysis.SpecialFunctions.Exp
import Mathlib.Analysis.Complex.Exponential
import Mathlib.Tactic.Module
import Mathlib.Tactic.Positivity
import Mathlib.Tactic.Linarith
import Mathlib.Tactic.FieldSimp

/-! # Remainders of smooth curves and accumulation of errors -/

namespace Chords.Conv
open Set

variable {E : Type*} [NormedAddCommGroup E] [NormedSpace ℝ E]

/-- The functions `D 0, D 1, …, D n` are successive derivatives on `[0, h]`. -/
def Tower (D : ℕ → ℝ → E) (n : ℕ) (h : ℝ) : Prop :=
  ∀ k < n, ∀ s ∈ Icc (0 : ℝ) h, HasDerivWithinAt (D k) (D (k + 1) s) (Icc 0 h) s

theorem Tower.mono {D : ℕ → ℝ → E} {n m : ℕ} {h : ℝ} (hD : Tower D n h) (hm : m ≤ n) : Tower D m h :=
  fun k hk => hD k (by omega)

/-- A curve that starts at zero with a derivative bounded by `C s ^ n`. -/
theorem bound_of_deriv {g g' : ℝ → E} {h C : ℝ} (n : ℕ) (hg : ∀ s ∈ Icc (0 : ℝ) h, HasDerivWithinAt g (g' s) (Icc 0 h) s)
    (h0 : g 0 = 0) (hb : ∀ s ∈ Icc (0 : ℝ) h, ‖g' s‖ ≤ C * s ^ n) : ∀ s ∈ Icc (0 : ℝ) h, ‖g s‖ ≤ C * s ^ (n + 1) / (n + 1) := by
  have hB : ∀ x : ℝ, HasDerivAt (fun s : ℝ => C * s ^ (n + 1) / (n + 1)) (C * x ^ n) x := by
    intro x
    have := ((hasDerivAt_pow (n + 1) x).const_mul C).div_const ((n : ℝ) + 1)
    refine this.congr_deriv ?_
    have : ((n : ℝ) + 1) ≠ 0 := by positivity
    push_cast
    field_simp
  refine fun s hs => image_norm_le_of_norm_deriv_right_le_deriv_boundary (f' := g')
    (fun s hs => (hg s hs).continuousWithinAt) (fun x hx => ?_) ?_ hB ?_ hs
  · exact (hg x ⟨hx.1, hx.2.le⟩).mono_of_mem_nhdsWithin (Icc_mem_nhdsGE_of_mem hx)
  · simp [h0]
  · exact fun x hx => hb x ⟨hx.1, hx.2.le⟩

/-- Taylor's theorem with the remainder bounded by the last derivative. -/
theorem taylor {n : ℕ} {h K : ℝ} : ∀ {D : ℕ → ℝ → E}, Tower D n h → (∀ s ∈ Icc (0 : ℝ) h, ‖D n s‖ ≤ K) →
    ∀ s ∈ Icc (0 : ℝ) h, ‖D 0 s - ∑ i ∈ Finset.range n, (s ^ i / (Nat.factorial i : ℝ)) • D i 0‖ ≤ K * s ^ n / (Nat.factorial n : ℝ) := by
  induction n with
  | zero => intro D _ hK s hs; simpa using hK s hs
  | succ n ih =>
    intro D hD hK s hs
    have h1 := ih (D := fun k => D (k + 1)) (fun k hk => hD (k + 1) (by omega)) hK
    have h2 := bound_of_deriv (C := K / (Nat.factorial n : ℝ)) n
      (g := fun s => D 0 s - ∑ i ∈ Finset.range (n + 1), (s ^ i / (Nat.factorial i : ℝ)) • D i 0)
      (g' := fun s => D 1 s - ∑ i ∈ Finset.range n, (s ^ i / (Nat.factorial i : ℝ)) • D (i + 1) 0) (h := h) ?_ ?_ ?_ s hs
    · refine h2.trans (le_of_eq ?_)
      rw [Nat.factorial_succ]
      push_cast
      have : (Nat.factorial n : ℝ) ≠ 0 := by positivity
      have : ((n : ℝ) + 1) ≠ 0 := by positivity
      field_simp
    · intro x hx
      refine (hD 0 (by omega) x hx).sub (HasDerivAt.hasDerivWithinAt ?_)
      have : HasDerivAt (fun s : ℝ => ∑ i ∈ Finset.range (n + 1), (s ^ i / (Nat.factorial i : ℝ)) • D i 0)
          (∑ i ∈ Finset.range (n + 1), ((i : ℝ) * x ^ (i - 1) / (Nat.factorial i : ℝ)) • D i 0) x := by
        have := HasDerivAt.fun_sum (u := Finset.range (n + 1)) (A := fun i s => (s ^ i / (Nat.factorial i : ℝ)) • D i 0)
          (A' := fun i => ((i : ℝ) * x ^ (i - 1) / (Nat.factorial i : ℝ)) • D i 0) (x := x)
          (fun i _ => ((hasDerivAt_pow i x).div_const _).smul_const _)
        exact this
      refine this.congr_deriv ?_
      rw [Finset.sum_range_succ']
      simp only [Nat.cast_zero, zero_mul, zero_div, zero_smul, add_zero]
      refine Finset.sum_congr rfl fun i _ => ?_
      congr 1
      rw [Nat.factorial_succ]
      push_cast
      have : (Nat.factorial i : ℝ) ≠ 0 := by positivity
      have : ((i : ℝ) + 1) ≠ 0 := by positivity
      field_simp
    · rw [Finset.sum_range_succ']
      simp
    · intro x hx
      refine (h1 x hx).trans (le_of_eq ?_)
      ring

/-- The same for a derivative. -/
theorem taylor_at {n : ℕ} {h K : ℝ} {D : ℕ → ℝ → E} (hD : Tower D n h) (hK : ∀ s ∈ Icc (0 : ℝ) h, ‖D n s‖ ≤ K) {j : ℕ} (hj : j ≤ n)
    {s : ℝ} (hs : s ∈ Icc (0 : ℝ) h) :
    ‖D j s - ∑ i ∈ Finset.range (n - j), (s ^ i / (Nat.factorial i : ℝ)) • D (i + j) 0‖
      ≤ K * s ^ (n - j) / (Nat.factorial (n - j) : ℝ) := by
  have := taylor (n := n - j) (D := fun k => D (k + j)) (h := h) (K := K) ?_ ?_ s hs
  · simpa using this
  · intro k hk x hx
    have := hD (k + j) (by omega) x hx
    dsimp only
    rwa [show k + 1 + j = k + j + 1 by omega]
  · intro x hx
    have := hK x hx
    rwa [show n - j + j = n by omega]

/-- Errors of a one-step method do not grow faster than exponentially. -/
theorem gronwall {δ : ℕ → ℝ} {h L τ : ℝ} {n : ℕ} (hδ : ∀ i, 0 ≤ δ i) (hh : 0 ≤ h) (hL : 0 ≤ L) (hτ : 0 ≤ τ) (hhL : h * L ≤ 1 / 2)
    (hs : ∀ i < n, δ (i + 1) ≤ δ i + h * L * (δ i + δ (i + 1)) + τ) :
    ∀ i ≤ n, δ i ≤ Real.exp (4 * L * (i * h)) * (δ 0 + 2 * i * τ) := by
  intro i
  induction i with
  | zero => intro _; simp
  | succ i ih =>
    intro hi
    have h1 := ih (by omega)
    have h2 := hs i (by omega)
    obtain ⟨z, hz⟩ : ∃ z, z = h * L := ⟨_, rfl⟩
    rw [← hz] at h2 hhL
    have hz0 : 0 ≤ z := hz ▸ mul_nonneg hh hL
    have h3 : δ (i + 1) ≤ (1 + 4 * z) * δ i + 2 * τ := by
      have a1 : (1 - z) * δ (i + 1) ≤ (1 + z) * δ i + τ := by linarith
      have a2 : (1 + z) * δ i + τ ≤ (1 - z) * ((1 + 4 * z) * δ i + 2 * τ) := by
        have b1 : 0 ≤ z * (1 - 2 * z) * δ i := mul_nonneg (mul_nonneg hz0 (by linarith)) (hδ i)
        have b2 : 0 ≤ (1 - 2 * z) * τ := mul_nonneg (by linarith) hτ
        nlinarith
      have a3 : 0 < 1 - z := by linarith
      exact le_of_mul_le_mul_left (a1.trans a2) a3
    have h4 : 1 + 4 * z ≤ Real.exp (4 * z) := by
      have := Real.add_one_le_exp (4 * z)
      linarith
    have h5 : Real.exp (4 * L * ((i + 1 : ℕ) * h)) = Real.exp (4 * z) * Real.exp (4 * L * (i * h)) := by
      rw [← Real.exp_add]
      congr 1
      push_cast
      rw [hz]
      ring
    have h6 : 1 ≤ Real.exp (4 * L * ((i + 1 : ℕ) * h)) := Real.one_le_exp (by positivity)
    rw [h5] at h6 ⊢
    have h7 : (1 + 4 * z) * δ i ≤ Real.exp (4 * z) * (Real.exp (4 * L * (i * h)) * (δ 0 + 2 * i * τ)) :=
      (mul_le_mul_of_nonneg_right h4 (hδ i)).trans (mul_le_mul_of_nonneg_left h1 (Real.exp_pos _).le)
    have h8 : 2 * τ ≤ Real.exp (4 * z) * Real.exp (4 * L * (i * h)) * (2 * τ) := le_mul_of_one_le_left (by linarith) h6
    push_cast
    calc δ (i + 1) ≤ _ := h3
      _ ≤ Real.exp (4 * z) * (Real.exp (4 * L * (i * h)) * (δ 0 + 2 * i * τ)) + Real.exp (4 * z) * Real.exp (4 * L * (i * h)) * (2 * τ) :=
        add_le_add h7 h8
      _ = _ := by ring

/-- The same for explicit methods. -/
theorem gronwall_explicit {δ : ℕ → ℝ} {a τ : ℝ} {n : ℕ} (hδ : ∀ i, 0 ≤ δ i) (ha : 0 ≤ a) (hτ : 0 ≤ τ)
    (hs : ∀ i < n, δ (i + 1) ≤ (1 + a) * δ i + τ) : ∀ i ≤ n, δ i ≤ Real.exp (i * a) * (δ 0 + i * τ) := by
  intro i
  induction i with
  | zero => intro _; simp
  | succ i ih =>
    intro hi
    have h1 := ih (by omega)
    have h2 := hs i (by omega)
    have h4 : 1 + a ≤ Real.exp a := by
      have := Real.add_one_le_exp a
      linarith
    have h5 : Real.exp ((i + 1 : ℕ) * a) = Real.exp a * Real.exp (i * a) := by
      rw [← Real.exp_add]
      congr 1
      push_cast
      ring
    have h6 : 1 ≤ Real.exp ((i + 1 : ℕ) * a) := Real.one_le_exp (by positivity)
    rw [h5] at h6 ⊢
    have h7 : (1 + a) * δ i ≤ Real.exp a * (Real.exp (i * a) * (δ 0 + i * τ)) :=
      (mul_le_mul_of_nonneg_right h4 (hδ i)).trans (mul_le_mul_of_nonneg_left h1 (Real.exp_pos _).le)
    have h8 : τ ≤ Real.exp a * Real.exp (i * a) * τ := le_mul_of_one_le_left hτ h6
    push_cast
    calc δ (i + 1) ≤ _ := h2
      _ ≤ Real.exp a * (Real.exp (i * a) * (δ 0 + i * τ)) + Real.exp a * Real.exp (i * a) * τ := add_le_add h7 h8
      _ = _ := by ring

section Local
variable {D : ℕ → ℝ → E} {h K s : ℝ}

theorem taylor3 (hD : Tower D 3 h) (hK : ∀ s ∈ Icc (0 : ℝ) h, ‖D 3 s‖ ≤ K) (hs : s ∈ Icc (0 : ℝ) h) :
    ‖D 0 s - (D 0 0 + s • D 1 0 + (s ^ 2 / 2) • D 2 0)‖ ≤ K * s ^ 3 / 6 ∧ ‖D 1 s - (D 1 0 + s • D 2 0)‖ ≤ K * s ^ 2 / 2 := by
  have h0 := taylor_at hD hK (j := 0) (by omega) hs
  have h1 := taylor_at hD hK (j := 1) (by omega) hs
  simp only [Finset.sum_range_succ, Finset.sum_range_zero, Nat.factorial, zero_add, pow_zero, pow_one, Nat.sub_zero, Nat.reduceSub, Nat.reduceAdd,
    Nat.reduceMul, Nat.cast_one, Nat.cast_ofNat, div_one, one_smul, Nat.succ_eq_add_one, mul_one] at h0 h1
  exact ⟨h0, h1⟩

theorem taylor4 (hD : Tower D 4 h) (hK : ∀ s ∈ Icc (0 : ℝ) h, ‖D 4 s‖ ≤ K) (hs : s ∈ Icc (0 : ℝ) h) :
    ‖D 0 s - (D 0 0 + s • D 1 0 + (s ^ 2 / 2) • D 2 0 + (s ^ 3 / 6) • D 3 0)‖ ≤ K * s ^ 4 / 24 ∧
    ‖D 1 s - (D 1 0 + s • D 2 0 + (s ^ 2 / 2) • D 3 0)‖ ≤ K * s ^ 3 / 6 := by
  have h0 := taylor_at hD hK (j := 0) (by omega) hs
  have h1 := taylor_at hD hK (j := 1) (by omega) hs
  simp only [Finset.sum_range_succ, Finset.sum_range_zero, Nat.factorial, zero_add, pow_zero, pow_one, Nat.sub_zero, Nat.reduceSub, Nat.reduceAdd,
    Nat.reduceMul, Nat.cast_one, Nat.cast_ofNat, div_one, one_smul, Nat.succ_eq_add_one, mul_one] at h0 h1
  exact ⟨h0, h1⟩

theorem taylor5 (hD : Tower D 5 h) (hK : ∀ s ∈ Icc (0 : ℝ) h, ‖D 5 s‖ ≤ K) (hs : s ∈ Icc (0 : ℝ) h) :
    ‖D 0 s - (D 0 0 + s • D 1 0 + (s ^ 2 / 2) • D 2 0 + (s ^ 3 / 6) • D 3 0 + (s ^ 4 / 24) • D 4 0)‖ ≤ K * s ^ 5 / 120 ∧
    ‖D 1 s - (D 1 0 + s • D 2 0 + (s ^ 2 / 2) • D 3 0 + (s ^ 3 / 6) • D 4 0)‖ ≤ K * s ^ 4 / 24 := by
  have h0 := taylor_at hD hK (j := 0) (by omega) hs
  have h1 := taylor_at hD hK (j := 1) (by omega) hs
  simp only [Finset.sum_range_succ, Finset.sum_range_zero, Nat.factorial, zero_add, pow_zero, pow_one, Nat.sub_zero, Nat.reduceSub, Nat.reduceAdd,
    Nat.reduceMul, Nat.cast_one, Nat.cast_ofNat, div_one, one_smul, Nat.succ_eq_add_one, mul_one] at h0 h1
  exact ⟨h0, h1⟩

theorem taylor2 (hD : Tower D 2 h) (hK : ∀ s ∈ Icc (0 : ℝ) h, ‖D 2 s‖ ≤ K) (hs : s ∈ Icc (0 : ℝ) h) :
    ‖D 0 s - (D 0 0 + s • D 1 0)‖ ≤ K * s ^ 2 / 2 ∧ ‖D 1 s - D 1 0‖ ≤ K * s := by
  have h0 := taylor_at hD hK (j := 0) (by omega) hs
  have h1 := taylor_at hD hK (j := 1) (by omega) hs
  simp only [Finset.sum_range_succ, Finset.sum_range_zero, Nat.factorial, zero_add, pow_zero, pow_one, Nat.sub_zero, Nat.reduceSub, Nat.reduceAdd,
    Nat.reduceMul, Nat.cast_one, Nat.cast_ofNat, div_one, one_smul, Nat.succ_eq_add_one, mul_one] at h0 h1
  exact ⟨h0, h1⟩

theorem norm_smul_le {c b : ℝ} {e : E} (hc : 0 ≤ c) (he : ‖e‖ ≤ b) : ‖c • e‖ ≤ c * b := by
  rw [norm_smul, Real.norm_of_nonneg hc]
  exact mul_le_mul_of_nonneg_left he hc

/-- The trapezoidal rule on a smooth curve. -/
theorem trapz_local (hh : 0 ≤ h) (hD : Tower D 3 h) (hK : ∀ s ∈ Icc (0 : ℝ) h, ‖D 3 s‖ ≤ K) :
    ‖D 0 h - (D 0 0 + (h / 2) • (D 1 0 + D 1 h))‖ ≤ 5 / 12 * K * h ^ 3 := by
  obtain ⟨h0, h1⟩ := taylor3 hD hK ⟨hh, le_rfl⟩
  have : D 0 h - (D 0 0 + (h / 2) • (D 1 0 + D 1 h))
      = (D 0 h - (D 0 0 + h • D 1 0 + (h ^ 2 / 2) • D 2 0)) - (h / 2) • (D 1 h - (D 1 0 + h • D 2 0)) := by module
  rw [this]
  refine (norm_sub_le _ _).trans ((add_le_add h0 (norm_smul_le (by positivity) h1)).trans (le_of_eq ?_))
  ring

/-- Simpson's rule on a smooth curve. -/
theorem simpson_local (hh : 0 ≤ h) (hD : Tower D 5 h) (hK : ∀ s ∈ Icc (0 : ℝ) h, ‖D 5 s‖ ≤ K) :
    ‖D 0 h - (D 0 0 + (h / 6) • (D 1 0 + (4 : ℝ) • D 1 (h / 2) + D 1 h))‖ ≤ K * h ^ 5 / 48 := by
  have hK0 : 0 ≤ K := (norm_nonneg _).trans (hK 0 ⟨le_rfl, hh⟩)
  obtain ⟨h0, h1⟩ := taylor5 hD hK ⟨hh, le_rfl⟩
  obtain ⟨-, h2⟩ := taylor5 hD hK (s := h / 2) ⟨by linarith, by linarith⟩
  have : D 0 h - (D 0 0 + (h / 6) • (D 1 0 + (4 : ℝ) • D 1 (h / 2) + D 1 h))
      = (D 0 h - (D 0 0 + h • D 1 0 + (h ^ 2 / 2) • D 2 0 + (h ^ 3 / 6) • D 3 0 + (h ^ 4 / 24) • D 4 0))
        - (h / 6) • (D 1 h - (D 1 0 + h • D 2 0 + (h ^ 2 / 2) • D 3 0 + (h ^ 3 / 6) • D 4 0))
        - (4 * h / 6) • (D 1 (h / 2) - (D 1 0 + (h / 2) • D 2 0 + ((h / 2) ^ 2 / 2) • D 3 0 + ((h / 2) ^ 3 / 6) • D 4 0)) := by module
  rw [this]
  refine (norm_sub_le _ _).trans ((add_le_add ((norm_sub_le _ _).trans (add_le_add h0 (norm_smul_le (by positivity) h1)))
    (norm_smul_le (by positivity) h2)).trans ?_)
  have : 0 ≤ K * h ^ 5 := by positivity
  linarith

/-- The middle of the cubic of Hermite-Simpson on a smooth curve. -/
theorem middle_local (hh : 0 ≤ h) (hD : Tower D 4 h) (hK : ∀ s ∈ Icc (0 : ℝ) h, ‖D 4 s‖ ≤ K) :
    ‖D 0 (h / 2) - ((1 / 2 : ℝ) • (D 0 0 + D 0 h) + (h / 8) • (D 1 0 - D 1 h))‖ ≤ K * h ^ 4 / 16 := by
  have hK0 : 0 ≤ K := (norm_nonneg _).trans (hK 0 ⟨le_rfl, hh⟩)
  obtain ⟨h0, h1⟩ := taylor4 hD hK ⟨hh, le_rfl⟩
  obtain ⟨h2, -⟩ := taylor4 hD hK (s := h / 2) ⟨by linarith, by linarith⟩
  have : D 0 (h / 2) - ((1 / 2 : ℝ) • (D 0 0 + D 0 h) + (h / 8) • (D 1 0 - D 1 h))
      = (D 0 (h / 2) - (D 0 0 + (h / 2) • D 1 0 + ((h / 2) ^ 2 / 2) • D 2 0 + ((h / 2) ^ 3 / 6) • D 3 0))
        - (1 / 2 : ℝ) • (D 0 h - (D 0 0 + h • D 1 0 + (h ^ 2 / 2) • D 2 0 + (h ^ 3 / 6) • D 3 0))
        + (h / 8) • (D 1 h - (D 1 0 + h • D 2 0 + (h ^ 2 / 2) • D 3 0)) := by module
  rw [this]
  refine (norm_add_le _ _).trans ((add_le_add ((norm_sub_le _ _).trans (add_le_add h2 (norm_smul_le (by positivity) h0)))
    (norm_smul_le (by positivity) h1)).trans ?_)
  have : 0 ≤ K * h ^ 4 := by positivity
  linarith

set_option maxHeartbeats 1000000 in
/-- One step of the classical Runge-Kutta method from a point of a smooth motion. `p` and `p'` are the velocities in the middle and at the end, `k2`, `k3` and
`k4` the stages, which differ from the velocities as the linear maps `J` and `J'` say, up to squares. -/
theorem rk4_local {K2 K3 K4 K5 L B C : ℝ} (hh : 0 ≤ h) (hh1 : h ≤ 1) (hL0 : 0 ≤ L) (hhL : h * L ≤ 1 / 2) (hB : 0 ≤ B) (hC : 0 ≤ C)
    (hD : Tower D 5 h) (hK2 : ∀ s ∈ Icc (0 : ℝ) h, ‖D 2 s‖ ≤ K2) (hK3 : ∀ s ∈ Icc (0 : ℝ) h, ‖D 3 s‖ ≤ K3)
    (hK4 : ∀ s ∈ Icc (0 : ℝ) h, ‖D 4 s‖ ≤ K4) (hK5 : ∀ s ∈ Icc (0 : ℝ) h, ‖D 5 s‖ ≤ K5)
    (J J' : E →ₗ[ℝ] E) (hJ : ∀ v, ‖J v‖ ≤ L * ‖v‖) (hJ' : ∀ v, ‖J' v - J v‖ ≤ C * h * ‖v‖) {k2 k3 k4 : E}
    (h2 : ‖k2 - D 1 (h / 2)‖ ≤ L * ‖D 0 0 + (h / 2) • D 1 0 - D 0 (h / 2)‖)
    (h2' : ‖k2 - D 1 (h / 2) - J (D 0 0 + (h / 2) • D 1 0 - D 0 (h / 2))‖ ≤ B * ‖D 0 0 + (h / 2) • D 1 0 - D 0 (h / 2)‖ ^ 2)
    (h3 : ‖k3 - D 1 (h / 2)‖ ≤ L * ‖D 0 0 + (h / 2) • k2 - D 0 (h / 2)‖)
    (h3' : ‖k3 - D 1 (h / 2) - J (D 0 0 + (h / 2) • k2 - D 0 (h / 2))‖ ≤ B * ‖D 0 0 + (h / 2) • k2 - D 0 (h / 2)‖ ^ 2)
    (h4' : ‖k4 - D 1 h - J' (D 0 0 + h • k3 - D 0 h)‖ ≤ B * ‖D 0 0 + h • k3 - D 0 h‖ ^ 2) :
    ‖D 0 h - (D 0 0 + (h / 6) • (D 1 0 + (2 : ℝ) • k2 + (2 : ℝ) • k3 + k4))‖
      ≤ h ^ 5 * (K5 / 48 + (L * K4 + L ^ 2 * (K3 + L * K2) + B * K2 ^ 2 + C * (K3 + L * K2) + B * (K3 + L * K2) ^ 2) / 6) := by
  have m0 : (0 : ℝ) ∈ Icc 0 h := ⟨le_rfl, hh⟩
  have mh : h ∈ Icc 0 h := ⟨hh, le_rfl⟩
  have mc : h / 2 ∈ Icc 0 h := ⟨by linarith, by linarith⟩
  have n2 : 0 ≤ K2 := (norm_nonneg _).trans (hK2 0 m0)
  have n3 : 0 ≤ K3 := (norm_nonneg _).trans (hK3 0 m0)
  have n4 : 0 ≤ K4 := (norm_nonneg _).trans (hK4 0 m0)
  have n5 : 0 ≤ K5 := (norm_nonneg _).trans (hK5 0 m0)
  obtain ⟨W, hW⟩ : ∃ W, W = K3 + L * K2 := ⟨_, rfl⟩
  have nW : 0 ≤ W := by rw [hW]; positivity
  rw [← hW]
  obtain ⟨a0, a1⟩ := taylor2 (hD.mono (by omega)) hK2 mc
  obtain ⟨b0, b1⟩ := taylor3 (hD.mono (by omega)) hK3 mc
  obtain ⟨b2, -⟩ := taylor3 (hD.mono (by omega)) hK3 mh
  obtain ⟨c0, c1⟩ := taylor4 (hD.mono (by omega)) hK4 mc
  obtain ⟨c2, -⟩ := taylor4 (hD.mono (by omega)) hK4 mh
  have sim := simpson_local hh hD hK5
  obtain ⟨d1, hd1⟩ : ∃ d, d = D 0 0 + (h / 2) • D 1 0 - D 0 (h / 2) := ⟨_, rfl⟩
  obtain ⟨d2, hd2⟩ : ∃ d, d = D 0 0 + (h / 2) • k2 - D 0 (h / 2) := ⟨_, rfl⟩
  obtain ⟨d3, hd3⟩ : ∃ d, d = D 0 0 + h • k3 - D 0 h := ⟨_, rfl⟩
  rw [← hd1] at h2 h2'
  rw [← hd2] at h3 h3'
  rw [← hd3] at h4'
  obtain ⟨r2, hr2⟩ : ∃ r, r = k2 - D 1 (h / 2) - J d1 := ⟨_, rfl⟩
  obtain ⟨r3, hr3⟩ : ∃ r, r = k3 - D 1 (h / 2) - J d2 := ⟨_, rfl⟩
  obtain ⟨r4, hr4⟩ : ∃ r, r = k4 - D 1 h - J' d3 := ⟨_, rfl⟩
  rw [← hr2] at h2'
  rw [← hr3] at h3'
  rw [← hr4] at h4'
  have e1 : ‖d1‖ ≤ K2 * h ^ 2 / 8 := by
    have : d1 = -(D 0 (h / 2) - (D 0 0 + (h / 2) • D 1 0)) := by rw [hd1]; module
    rw [this, norm_neg]
    refine a0.trans (le_of_eq ?_)
    ring
  have f2 : ‖k2 - D 1 (h / 2)‖ ≤ L * (K2 * h ^ 2 / 8) := h2.trans (mul_le_mul_of_nonneg_left e1 hL0)
  have e2 : ‖d2‖ ≤ K2 * h ^ 2 / 2 := by
    have : d2 = (h / 2) • (D 1 (h / 2) - D 1 0) - (D 0 (h / 2) - (D 0 0 + (h / 2) • D 1 0)) + (h / 2) • (k2 - D 1 (h / 2)) := by rw [hd2]; module
    rw [this]
    refine (norm_add_le _ _).trans ((add_le_add ((norm_sub_le _ _).trans (add_le_add (norm_smul_le (by positivity) a1) a0))
      (norm_smul_le (by positivity) f2)).trans ?_)
    have : h * L * (K2 * h ^ 2) ≤ 1 / 2 * (K2 * h ^ 2) := mul_le_mul_of_nonneg_right hhL (by positivity)
    have : 0 ≤ K2 * h ^ 2 := by positivity
    linarith
  have f3 : ‖k3 - D 1 (h / 2)‖ ≤ L * (K2 * h ^ 2 / 2) := h3.trans (mul_le_mul_of_nonneg_left e2 hL0)
  have e3 : ‖d3‖ ≤ W * h ^ 3 := by
    have : d3 = h • (D 1 (h / 2) - (D 1 0 + (h / 2) • D 2 0)) - (D 0 h - (D 0 0 + h • D 1 0 + (h ^ 2 / 2) • D 2 0)) + h • (k3 - D 1 (h / 2)) := by
      rw [hd3]; module
    rw [this]
    refine (norm_add_le _ _).trans ((add_le_add ((norm_sub_le _ _).trans (add_le_add (norm_smul_le (by positivity) b1) b2))
      (norm_smul_le (by positivity) f3)).trans ?_)
    have : 0 ≤ K3 * h ^ 3 := by positivity
    have : 0 ≤ L * K2 * h ^ 3 := by positivity
    rw [hW]
    linarith
  have e12 : ‖d1 + d2‖ ≤ W * h ^ 3 := by
    have : d1 + d2 = (h / 2) • (D 1 (h / 2) - (D 1 0 + (h / 2) • D 2 0)) - (2 : ℝ) • (D 0 (h / 2) - (D 0 0 + (h / 2) • D 1 0 + ((h / 2) ^ 2 / 2) • D 2 0))
        + (h / 2) • (k2 - D 1 (h / 2)) := by rw [hd1, hd2]; module
    rw [this]
    refine (norm_add_le _ _).trans ((add_le_add ((norm_sub_le _ _).trans (add_le_add (norm_smul_le (by positivity) b1) (norm_smul_le (by positivity) b0)))
      (norm_smul_le (by positivity) f2)).trans ?_)
    have : 0 ≤ K3 * h ^ 3 := by positivity
    have : 0 ≤ L * K2 * h ^ 3 := by positivity
    rw [hW]
    linarith
  have g2 : ‖r2‖ ≤ B * K2 ^ 2 * h ^ 4 / 64 := by
    refine h2'.trans ((mul_le_mul_of_nonneg_left (pow_le_pow_left₀ (norm_nonneg _) e1 2) hB).trans (le_of_eq ?_))
    ring
  have g3 : ‖r3‖ ≤ B * K2 ^ 2 * h ^ 4 / 4 := by
    refine h3'.trans ((mul_le_mul_of_nonneg_left (pow_le_pow_left₀ (norm_nonneg _) e2 2) hB).trans (le_of_eq ?_))
    ring
  have g4 : ‖r4‖ ≤ B * W ^ 2 * h ^ 4 := by
    refine h4'.trans ((mul_le_mul_of_nonneg_left (pow_le_pow_left₀ (norm_nonneg _) e3 2) hB).trans ?_)
    have : h ^ 6 ≤ h ^ 4 := pow_le_pow_of_le_one hh hh1 (by norm_num)
    have := mul_le_mul_of_nonneg_left this (show 0 ≤ B * W ^ 2 by positivity)
    linarith
  have e : ‖(2 : ℝ) • (d1 + d2) + d3‖ ≤ h ^ 4 * (K4 / 8 + L * W + h * (17 / 64) * (B * K2 ^ 2)) := by
    have : (2 : ℝ) • (d1 + d2) + d3 = (2 * h) • (D 1 (h / 2) - (D 1 0 + (h / 2) • D 2 0 + ((h / 2) ^ 2 / 2) • D 3 0))
        - (4 : ℝ) • (D 0 (h / 2) - (D 0 0 + (h / 2) • D 1 0 + ((h / 2) ^ 2 / 2) • D 2 0 + ((h / 2) ^ 3 / 6) • D 3 0))
        - (D 0 h - (D 0 0 + h • D 1 0 + (h ^ 2 / 2) • D 2 0 + (h ^ 3 / 6) • D 3 0)) + h • J (d1 + d2) + h • (r2 + r3) := by
      rw [map_add, hr2, hr3]
      nth_rewrite 1 [hd1]
      nth_rewrite 1 [hd2]
      rw [hd3]
      module
    rw [this]
    have hj := (hJ (d1 + d2)).trans (mul_le_mul_of_nonneg_left e12 hL0)
    refine (norm_add_le _ _).trans ((add_le_add ((norm_add_le _ _).trans (add_le_add ((norm_sub_le _ _).trans (add_le_add ((norm_sub_le _ _).trans
      (add_le_add (norm_smul_le (by positivity) c1) (norm_smul_le (by positivity) c0))) c2)) (norm_smul_le hh hj)))
      (norm_smul_le hh ((norm_add_le _ _).trans (add_le_add g2 g3)))).trans ?_)
    have : 0 ≤ K4 * h ^ 4 := by positivity
    linarith
  have tot : D 0 h - (D 0 0 + (h / 6) • (D 1 0 + (2 : ℝ) • k2 + (2 : ℝ) • k3 + k4))
      = (D 0 h - (D 0 0 + (h / 6) • (D 1 0 + (4 : ℝ) • D 1 (h / 2) + D 1 h)))
        - (h / 6) • (J ((2 : ℝ) • (d1 + d2) + d3) + (J' d3 - J d3) + (2 : ℝ) • r2 + (2 : ℝ) • r3 + r4) := by
    rw [hr2, hr3, hr4, map_add, map_smul, map_add]
    module
  rw [tot]
  have hj := (hJ ((2 : ℝ) • (d1 + d2) + d3)).trans (mul_le_mul_of_nonneg_left e hL0)
  have hj' := (hJ' d3).trans (mul_le_mul_of_nonneg_left e3 (by positivity))
  refine (norm_sub_le _ _).trans ((add_le_add sim (norm_smul_le (by positivity) ((norm_add_le _ _).trans (add_le_add ((norm_add_le _ _).trans
    (add_le_add ((norm_add_le _ _).trans (add_le_add ((norm_add_le _ _).trans (add_le_add hj hj')) (norm_smul_le (by norm_num) g2)))
    (norm_smul_le (by norm_num) g3))) g4)))).trans ?_)
  have q1 : 0 ≤ L * K4 * h ^ 5 := by positivity
  have q2 : 0 ≤ B * K2 ^ 2 * h ^ 5 := by positivity
  have q3 : h * L * (B * K2 ^ 2 * h ^ 5) ≤ 1 / 2 * (B * K2 ^ 2 * h ^ 5) := mul_le_mul_of_nonneg_right hhL q2
  linarith

theorem taylor5_two (hD : Tower D 5 h) (hK : ∀ s ∈ Icc (0 : ℝ) h, ‖D 5 s‖ ≤ K) (hs : s ∈ Icc (0 : ℝ) h) :
    ‖D 2 s - (D 2 0 + s • D 3 0 + (s ^ 2 / 2) • D 4 0)‖ ≤ K * s ^ 3 / 6 := by
  have h0 := taylor_at hD hK (j := 2) (by omega) hs
  simpa only [Finset.sum_range_succ, Finset.sum_range_zero, Nat.factorial, zero_add, pow_zero, pow_one, Nat.sub_zero, Nat.reduceSub, Nat.reduceAdd,
    Nat.reduceMul, Nat.cast_one, Nat.cast_ofNat, div_one, one_smul, Nat.succ_eq_add_one, mul_one] using h0

theorem taylor4_two (hD : Tower D 4 h) (hK : ∀ s ∈ Icc (0 : ℝ) h, ‖D 4 s‖ ≤ K) (hs : s ∈ Icc (0 : ℝ) h) :
    ‖D 2 s - (D 2 0 + s • D 3 0)‖ ≤ K * s ^ 2 / 2 := by
  have h0 := taylor_at hD hK (j := 2) (by omega) hs
  simpa only [Finset.sum_range_succ, Finset.sum_range_zero, Nat.factorial, zero_add, pow_zero, pow_one, Nat.sub_zero, Nat.reduceSub, Nat.reduceAdd,
    Nat.reduceMul, Nat.cast_one, Nat.cast_ofNat, div_one, one_smul, Nat.succ_eq_add_one, mul_one] using h0

/-- Position in the second order trapezoidal scheme. -/
theorem trapzMod_local (hh : 0 ≤ h) (hD : Tower D 4 h) (hK : ∀ s ∈ Icc (0 : ℝ) h, ‖D 4 s‖ ≤ K) :
    ‖D 0 h - (D 0 0 + h • D 1 0 + (h ^ 2 / 6) • (D 2 h + (2 : ℝ) • D 2 0))‖ ≤ K * h ^ 4 / 8 := by
  have mh : h ∈ Icc 0 h := ⟨hh, le_rfl⟩
  obtain ⟨h0, -⟩ := taylor4 hD hK mh
  have h2 := taylor4_two hD hK mh
  have : D 0 h - (D 0 0 + h • D 1 0 + (h ^ 2 / 6) • (D 2 h + (2 : ℝ) • D 2 0))
      = (D 0 h - (D 0 0 + h • D 1 0 + (h ^ 2 / 2) • D 2 0 + (h ^ 3 / 6) • D 3 0)) - (h ^ 2 / 6) • (D 2 h - (D 2 0 + h • D 3 0)) := by module
  rw [this]
  refine (norm_sub_le _ _).trans ((add_le_add h0 (norm_smul_le (by positivity) h2)).trans (le_of_eq ?_))
  ring

/-- Position in the second order Hermite-Simpson scheme. -/
theorem hsMod_local (hh : 0 ≤ h) (hD : Tower D 5 h) (hK : ∀ s ∈ Icc (0 : ℝ) h, ‖D 5 s‖ ≤ K) :
    ‖D 0 h - (D 0 0 + h • D 1 0 + (h ^ 2 / 6) • (D 2 0 + (2 : ℝ) • D 2 (h / 2)))‖ ≤ K * h ^ 5 / 48 := by
  have hK0 : 0 ≤ K := (norm_nonneg _).trans (hK 0 ⟨le_rfl, hh⟩)
  obtain ⟨h0, -⟩ := taylor5 hD hK ⟨hh, le_rfl⟩
  have h2 := taylor5_two hD hK (s := h / 2) ⟨by linarith, by linarith⟩
  have : D 0 h - (D 0 0 + h • D 1 0 + (h ^ 2 / 6) • (D 2 0 + (2 : ℝ) • D 2 (h / 2)))
      = (D 0 h - (D 0 0 + h • D 1 0 + (h ^ 2 / 2) • D 2 0 + (h ^ 3 / 6) • D 3 0 + (h ^ 4 / 24) • D 4 0))
        - (h ^ 2 / 3) • (D 2 (h / 2) - (D 2 0 + (h / 2) • D 3 0 + ((h / 2) ^ 2 / 2) • D 4 0)) := by module
  rw [this]
  refine (norm_sub_le _ _).trans ((add_le_add h0 (norm_smul_le (by positivity) h2)).trans ?_)
  have : 0 ≤ K * h ^ 5 := by positivity
  linarith

/-- Position in the middle of the second order Hermite-Simpson scheme. -/
theorem hsMod_middle (hh : 0 ≤ h) (hD : Tower D 5 h) (hK : ∀ s ∈ Icc (0 : ℝ) h, ‖D 5 s‖ ≤ K) :
    ‖D 0 (h / 2) - ((1 / 16 : ℝ) • ((13 : ℝ) • D 0 0 + (3 : ℝ) • D 0 h) + (5 * h / 16) • D 1 0 + (h ^ 2 / 96) • ((4 : ℝ) • D 2 0 - D 2 h))‖
      ≤ K * h ^ 5 / 16 := by
  have hK0 : 0 ≤ K := (norm_nonneg _).trans (hK 0 ⟨le_rfl, hh⟩)
  have mh : h ∈ Icc 0 h := ⟨hh, le_rfl⟩
  obtain ⟨h0, -⟩ := taylor5 hD hK (s := h / 2) ⟨by linarith, by linarith⟩
  obtain ⟨h1, -⟩ := taylor5 hD hK mh
  have h2 := taylor5_two hD hK mh
  have : D 0 (h / 2) - ((1 / 16 : ℝ) • ((13 : ℝ) • D 0 0 + (3 : ℝ) • D 0 h) + (5 * h / 16) • D 1 0 + (h ^ 2 / 96) • ((4 : ℝ) • D 2 0 - D 2 h))
      = (D 0 (h / 2) - (D 0 0 + (h / 2) • D 1 0 + ((h / 2) ^ 2 / 2) • D 2 0 + ((h / 2) ^ 3 / 6) • D 3 0 + ((h / 2) ^ 4 / 24) • D 4 0))
        - (3 / 16 : ℝ) • (D 0 h - (D 0 0 + h • D 1 0 + (h ^ 2 / 2) • D 2 0 + (h ^ 3 / 6) • D 3 0 + (h ^ 4 / 24) • D 4 0))
        + (h ^ 2 / 96) • (D 2 h - (D 2 0 + h • D 3 0 + (h ^ 2 / 2) • D 4 0)) := by module
  rw [this]
  refine (norm_add_le _ _).trans ((add_le_add ((norm_sub_le _ _).trans (add_le_add h0 (norm_smul_le (by positivity) h1)))
    (norm_smul_le (by positivity) h2)).trans ?_)
  have : 0 ≤ K * h ^ 5 := by positivity
  linarith

/-- Position in the scheme with the inner point at two fifths. -/
theorem hsj_local (hh : 0 ≤ h) (hD : Tower D 5 h) (hK : ∀ s ∈ Icc (0 : ℝ) h, ‖D 5 s‖ ≤ K) :
    ‖D 0 h - (D 0 0 + h • D 1 0 + (h ^ 2 / 72) • ((9 : ℝ) • D 2 0 + (25 : ℝ) • D 2 (2 * h / 5) + (2 : ℝ) • D 2 h))‖ ≤ K * h ^ 5 / 48 := by
  have hK0 : 0 ≤ K := (norm_nonneg _).trans (hK 0 ⟨le_rfl, hh⟩)
  have mh : h ∈ Icc 0 h := ⟨hh, le_rfl⟩
  obtain ⟨h0, -⟩ := taylor5 hD hK mh
  have h1 := taylor5_two hD hK mh
  have h2 := taylor5_two hD hK (s := 2 * h / 5) ⟨by linarith, by linarith⟩
  have : D 0 h - (D 0 0 + h • D 1 0 + (h ^ 2 / 72) • ((9 : ℝ) • D 2 0 + (25 : ℝ) • D 2 (2 * h / 5) + (2 : ℝ) • D 2 h))
      = (D 0 h - (D 0 0 + h • D 1 0 + (h ^ 2 / 2) • D 2 0 + (h ^ 3 / 6) • D 3 0 + (h ^ 4 / 24) • D 4 0))
        - (25 * h ^ 2 / 72) • (D 2 (2 * h / 5) - (D 2 0 + (2 * h / 5) • D 3 0 + ((2 * h / 5) ^ 2 / 2) • D 4 0))
        - (2 * h ^ 2 / 72) • (D 2 h - (D 2 0 + h • D 3 0 + (h ^ 2 / 2) • D 4 0)) := by module
  rw [this]
  refine (norm_sub_le _ _).trans ((add_le_add ((norm_sub_le _ _).trans (add_le_add h0 (norm_smul_le (by positivity) h2)))
    (norm_smul_le (by positivity) h1)).trans ?_)
  have : 0 ≤ K * h ^ 5 := by positivity
  linarith

/-- Velocity in the scheme with the inner point at two fifths. -/
theorem hsj_local_v (hh : 0 ≤ h) (hD : Tower D 4 h) (hK : ∀ s ∈ Icc (0 : ℝ) h, ‖D 4 s‖ ≤ K) :
    ‖D 0 h - (D 0 0 + (h / 36) • ((3 : ℝ) • D 1 0 + (25 : ℝ) • D 1 (2 * h / 5) + (8 : ℝ) • D 1 h))‖ ≤ K * h ^ 4 / 8 := by
  have hK0 : 0 ≤ K := (norm_nonneg _).trans (hK 0 ⟨le_rfl, hh⟩)
  obtain ⟨h0, h1⟩ := taylor4 hD hK ⟨hh, le_rfl⟩
  obtain ⟨-, h2⟩ := taylor4 hD hK (s := 2 * h / 5) ⟨by linarith, by linarith⟩
  have : D 0 h - (D 0 0 + (h / 36) • ((3 : ℝ) • D 1 0 + (25 : ℝ) • D 1 (2 * h / 5) + (8 : ℝ) • D 1 h))
      = (D 0 h - (D 0 0 + h • D 1 0 + (h ^ 2 / 2) • D 2 0 + (h ^ 3 / 6) • D 3 0))
        - (25 * h / 36) • (D 1 (2 * h / 5) - (D 1 0 + (2 * h / 5) • D 2 0 + ((2 * h / 5) ^ 2 / 2) • D 3 0))
        - (8 * h / 36) • (D 1 h - (D 1 0 + h • D 2 0 + (h ^ 2 / 2) • D 3 0)) := by module
  rw [this]
  refine (norm_sub_le _ _).trans ((add_le_add ((norm_sub_le _ _).trans (add_le_add h0 (norm_smul_le (by positivity) h2)))
    (norm_smul_le (by positivity) h1)).trans ?_)
  have : 0 ≤ K * h ^ 4 := by positivity
  linarith

/-- Position at the inner point at two fifths. -/
theorem hsj_middle (hh : 0 ≤ h) (hD : Tower D 5 h) (hK : ∀ s ∈ Icc (0 : ℝ) h, ‖D 5 s‖ ≤ K) :
    ‖D 0 (2 * h / 5) - (D 0 0 + (h / 625) • ((218 : ℝ) • D 1 0 + (32 : ℝ) • D 1 h) + (h ^ 2 / 1875) • ((82 : ℝ) • D 2 0 - (28 : ℝ) • D 2 h))‖
      ≤ K * h ^ 5 / 16 := by
  have hK0 : 0 ≤ K := (norm_nonneg _).trans (hK 0 ⟨le_rfl, hh⟩)
  have mh : h ∈ Icc 0 h := ⟨hh, le_rfl⟩
  obtain ⟨h0, -⟩ := taylor5 hD hK (s := 2 * h / 5) ⟨by linarith, by linarith⟩
  obtain ⟨-, h1⟩ := taylor5 hD hK mh
  have h2 := taylor5_two hD hK mh
  have : D 0 (2 * h / 5) - (D 0 0 + (h / 625) • ((218 : ℝ) • D 1 0 + (32 : ℝ) • D 1 h) + (h ^ 2 / 1875) • ((82 : ℝ) • D 2 0 - (28 : ℝ) • D 2 h))
      = (D 0 (2 * h / 5) - (D 0 0 + (2 * h / 5) • D 1 0 + ((2 * h / 5) ^ 2 / 2) • D 2 0 + ((2 * h / 5) ^ 3 / 6) • D 3 0 + ((2 * h / 5) ^ 4 / 24) • D 4 0))
        - (32 * h / 625) • (D 1 h - (D 1 0 + h • D 2 0 + (h ^ 2 / 2) • D 3 0 + (h ^ 3 / 6) • D 4 0))
        + (28 * h ^ 2 / 1875) • (D 2 h - (D 2 0 + h • D 3 0 + (h ^ 2 / 2) • D 4 0)) := by module
  rw [this]
  refine (norm_add_le _ _).trans ((add_le_add ((norm_sub_le _ _).trans (add_le_add h0 (norm_smul_le (by positivity) h1)))
    (norm_smul_le (by positivity) h2)).trans ?_)
  have : 0 ≤ K * h ^ 5 := by positivity
  linarith

/-- Velocity at the inner point at two fifths. -/
theorem hsj_middle_v (hh : 0 ≤ h) (hD : Tower D 4 h) (hK : ∀ s ∈ Icc (0 : ℝ) h, ‖D 4 s‖ ≤ K) :
    ‖D 0 (2 * h / 5) - ((1 / 125 : ℝ) • ((81 : ℝ) • D 0 0 + (44 : ℝ) • D 0 h) + (h / 125) • ((18 : ℝ) • D 1 0 - (12 : ℝ) • D 1 h))‖
      ≤ K * h ^ 4 / 16 := by
  have hK0 : 0 ≤ K := (norm_nonneg _).trans (hK 0 ⟨le_rfl, hh⟩)
  obtain ⟨h0, h1⟩ := taylor4 hD hK ⟨hh, le_rfl⟩
  obtain ⟨h2, -⟩ := taylor4 hD hK (s := 2 * h / 5) ⟨by linarith, by linarith⟩
  have : D 0 (2 * h / 5) - ((1 / 125 : ℝ) • ((81 : ℝ) • D 0 0 + (44 : ℝ) • D 0 h) + (h / 125) • ((18 : ℝ) • D 1 0 - (12 : ℝ) • D 1 h))
      = (D 0 (2 * h / 5) - (D 0 0 + (2 * h / 5) • D 1 0 + ((2 * h / 5) ^ 2 / 2) • D 2 0 + ((2 * h / 5) ^ 3 / 6) • D 3 0))
        - (44 / 125 : ℝ) • (D 0 h - (D 0 0 + h • D 1 0 + (h ^ 2 / 2) • D 2 0 + (h ^ 3 / 6) • D 3 0))
        + (12 * h / 125) • (D 1 h - (D 1 0 + h • D 2 0 + (h ^ 2 / 2) • D 3 0)) := by module
  rw [this]
  refine (norm_add_le _ _).trans ((add_le_add ((norm_sub_le _ _).trans (add_le_add h2 (norm_smul_le (by positivity) h0)))
    (norm_smul_le (by positivity) h1)).trans ?_)
  have : 0 ≤ K * h ^ 4 := by positivity
  linarith

end Local

end Chords.Conv
