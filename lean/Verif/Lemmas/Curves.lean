import Mathlib.Analysis.Calculus.Deriv.Add
import Mathlib.Analysis.Calculus.Deriv.Pow
import Mathlib.Analysis.Calculus.Deriv.Mul
import Mathlib.Analysis.Calculus.MeanValue
import Mathlib.Tactic.Module
import Mathlib.Tactic.FieldSimp
import Mathlib.Tactic.Ring
import Verif.Spec.Curves
import Verif.Model.Schemes

namespace Chords
open Spec Finset
variable {V : Type*} [NormedAddCommGroup V] [NormedSpace ℝ V]

/-- Truncated Taylor sum of a coefficient sequence. -/
noncomputable def taylorSum (L : ℕ → V) (n s : ℕ) (τ : ℝ) : V :=
  ∑ i ∈ range n, (τ ^ i / (Nat.factorial i : ℝ)) • L (i + s)

theorem hasDerivAt_taylorSum (L : ℕ → V) (n s : ℕ) (τ : ℝ) :
    HasDerivAt (taylorSum L n s) (taylorSum L (n - 1) (s + 1) τ) τ := by
  cases n with
  | zero =>
    have : taylorSum L 0 s = fun _ => 0 := by funext t; simp [taylorSum]
    rw [this]
    simpa [taylorSum] using hasDerivAt_const τ (0 : V)
  | succ n =>
    induction n with
    | zero =>
      have : taylorSum L 1 s = fun _ => L s := by
        funext t; simp [taylorSum]
      rw [this]
      simpa [taylorSum] using hasDerivAt_const τ (L s)
    | succ n ih =>
      have h1 : taylorSum L (n + 1 + 1) s = fun t => taylorSum L (n + 1) s t
          + (t ^ (n + 1) / (Nat.factorial (n + 1) : ℝ)) • L (n + 1 + s) := by
        funext t; simp [taylorSum, sum_range_succ]
      have h2 : taylorSum L (n + 1 + 1 - 1) (s + 1) τ = taylorSum L (n + 1 - 1) (s + 1) τ
          + (τ ^ n / (Nat.factorial n : ℝ)) • L (n + (s + 1)) := by
        simp [taylorSum, sum_range_succ]
      rw [h1, h2]
      refine ih.add ?_
      have h3 : HasDerivAt (fun t : ℝ => t ^ (n + 1) / (Nat.factorial (n + 1) : ℝ))
          (τ ^ n / (Nat.factorial n : ℝ)) τ := by
        have := (hasDerivAt_pow (n + 1) τ).div_const (Nat.factorial (n + 1) : ℝ)
        refine this.congr_deriv ?_
        rw [Nat.factorial_succ]; push_cast
        have hn : ((n : ℝ) + 1) ≠ 0 := by positivity
        have hf : (Nat.factorial n : ℝ) ≠ 0 := by positivity
        field_simp
      have e : n + (s + 1) = n + 1 + s := by omega
      rw [e]
      exact h3.smul_const (L (n + 1 + s))

theorem taylorSum_zero (L : ℕ → V) (n s : ℕ) : taylorSum L (n + 1) s 0 = L s := by
  unfold taylorSum
  rw [sum_range_succ']
  simp

/-- Two motions with the same `M`-th derivative and the same start agree below and at `M`. -/
theorem motion_unique {c d : ℕ → ℝ → V} (hc : Motion c) (hd : Motion d) (M : ℕ)
    (hM : ∀ τ, c M τ = d M τ) (h0 : ∀ p, p < M → c p 0 = d p 0) :
    ∀ p, ∀ τ, c p τ = d p τ := by
  have down : ∀ j, j ≤ M → ∀ τ, c (M - j) τ = d (M - j) τ := by
    intro j
    induction j with
    | zero => intro _ τ; simpa using hM τ
    | succ j ih =>
      intro hj τ
      have hs : M - (j + 1) + 1 = M - j := by omega
      have key : ∀ t, HasDerivAt (fun s => c (M - (j + 1)) s - d (M - (j + 1)) s) (0 : V) t := by
        intro t
        have h1 := (hc (M - (j + 1)) t).sub (hd (M - (j + 1)) t)
        rw [hs, ih (by omega) t, sub_self] at h1
        exact h1
      have hdiff : Differentiable ℝ (fun s => c (M - (j + 1)) s - d (M - (j + 1)) s) :=
        fun t => (key t).differentiableAt
      have hconst := is_const_of_deriv_eq_zero hdiff (fun t => (key t).deriv) τ 0
      rw [h0 _ (by omega), sub_self] at hconst
      exact sub_eq_zero.mp hconst
  have up : ∀ j, ∀ τ, c (M + j) τ = d (M + j) τ := by
    intro j
    induction j with
    | zero => simpa using hM
    | succ j ih =>
      intro τ
      have h1 := hc (M + j) τ
      have h2 := hd (M + j) τ
      have : c (M + j) = d (M + j) := funext ih
      rw [this] at h1
      exact h1.unique h2
  intro p τ
  rcases le_total p M with h | h
  · have := down (M - p) (by omega) τ
    rwa [Nat.sub_sub_self h] at this
  · obtain ⟨j, rfl⟩ := Nat.exists_eq_add_of_le h
    exact up j τ

theorem tzInterp_eq_taylor (M k : ℕ) (x : ℕ → V) (a an : V) (τ h : ℝ) (p : ℕ) :
    tzInterp M k x a an τ h p = taylorSum (tzList M x a an h) (M + 2 - (p + k)) (p + k) τ := by
  simp [tzInterp, taylorSum, Nat.add_assoc]

theorem hsInterp_eq_taylor (M k : ℕ) (x : ℕ → V) (a an ac : V) (τ h : ℝ) (p : ℕ) :
    hsInterp M k x a an τ h ac p = taylorSum (hsList M x a an ac h) (M + 3 - (p + k)) (p + k) τ := by
  simp [hsInterp, taylorSum, Nat.add_assoc]

theorem tzInterp_motion (M : ℕ) (x : ℕ → V) (a an : V) (h : ℝ) :
    Motion (fun k τ => tzInterp M k x a an τ h 0) := by
  intro k τ
  have := hasDerivAt_taylorSum (tzList M x a an h) (M + 2 - (0 + k)) (0 + k) τ
  have e : M + 2 - (0 + k) - 1 = M + 2 - (0 + (k + 1)) := by omega
  simp only [tzInterp_eq_taylor]
  rw [e] at this
  exact this

theorem hsInterp_motion (M : ℕ) (x : ℕ → V) (a an ac : V) (h : ℝ) :
    Motion (fun k τ => hsInterp M k x a an τ h ac 0) := by
  intro k τ
  have := hasDerivAt_taylorSum (hsList M x a an ac h) (M + 3 - (0 + k)) (0 + k) τ
  have e : M + 3 - (0 + k) - 1 = M + 3 - (0 + (k + 1)) := by omega
  simp only [hsInterp_eq_taylor]
  rw [e] at this
  exact this

theorem tzInterp_shift (M k : ℕ) (x : ℕ → V) (a an : V) (τ h : ℝ) (p : ℕ) :
    tzInterp M k x a an τ h p = tzInterp M (p + k) x a an τ h 0 := by
  simp [tzInterp_eq_taylor]

theorem hsInterp_shift (M k : ℕ) (x : ℕ → V) (a an ac : V) (τ h : ℝ) (p : ℕ) :
    hsInterp M k x a an τ h ac p = hsInterp M (p + k) x a an τ h ac 0 := by
  simp [hsInterp_eq_taylor]

theorem tzInterp_top (M : ℕ) (x : ℕ → V) (a an : V) (τ h : ℝ) :
    tzInterp M M x a an τ h 0 = a + τ • ((1 / h) • (-a + an)) := by
  rw [tzInterp_eq_taylor]
  have e : M + 2 - (0 + M) = 2 := by omega
  rw [e]
  simp [taylorSum, sum_range_succ, tzList, Nat.add_comm 1 M]

theorem hsInterp_top (M : ℕ) (x : ℕ → V) (a an ac : V) (τ h : ℝ) :
    hsInterp M M x a an τ h ac 0 = a + τ • ((1 / h) • (-(3 : ℝ) • a + (4 : ℝ) • ac - an))
      + τ ^ 2 • ((1 / 2 : ℝ) • ((1 / h ^ 2) • ((4 : ℝ) • a - (8 : ℝ) • ac + (4 : ℝ) • an))) := by
  rw [hsInterp_eq_taylor]
  have e : M + 3 - (0 + M) = 3 := by omega
  rw [e]
  simp [taylorSum, sum_range_succ, hsList, Nat.add_comm 1 M, Nat.add_comm 2 M]
  module

theorem tzInterp_linearMotion (M : ℕ) (x : ℕ → V) (a an : V) (h : ℝ) (hh : h ≠ 0) :
    LinearMotion M x a an h (fun k τ => tzInterp M k x a an τ h 0) where
  motion := tzInterp_motion M x a an h
  start := by
    intro p hp
    simp only [tzInterp_eq_taylor]
    have e : M + 2 - (0 + p) = (M + 1 - p) + 1 := by omega
    rw [e, taylorSum_zero]
    simp [tzList, hp]
  top_line := ⟨(1 / h) • (-a + an), fun τ => tzInterp_top M x a an τ h⟩
  top_end := by
    simp only [tzInterp_top]
    match_scalars <;> field_simp
    simp

theorem hsInterp_parabolicMotion (M : ℕ) (x : ℕ → V) (a an ac : V) (h : ℝ) (hh : h ≠ 0) :
    ParabolicMotion M x a ac an (h / 2) h (fun k τ => hsInterp M k x a an τ h ac 0) where
  motion := hsInterp_motion M x a an ac h
  start := by
    intro p hp
    simp only [hsInterp_eq_taylor]
    have e : M + 3 - (0 + p) = (M + 2 - p) + 1 := by omega
    rw [e, taylorSum_zero]
    simp [hsList, hp]
  top_parabola := ⟨_, _, fun τ => hsInterp_top M x a an ac τ h⟩
  top_mid := by
    simp only [hsInterp_top]
    match_scalars <;> field_simp <;> ring
  top_end := by
    simp only [hsInterp_top]
    match_scalars <;> field_simp <;> ring

theorem linearMotion_unique {M : ℕ} {x : ℕ → V} {a an : V} {h : ℝ} (hh : h ≠ 0)
    {c d : ℕ → ℝ → V} (hc : LinearMotion M x a an h c) (hd : LinearMotion M x a an h d) :
    ∀ p τ, c p τ = d p τ := by
  obtain ⟨b, hb⟩ := hc.top_line
  obtain ⟨b', hb'⟩ := hd.top_line
  have e : b = b' := by
    have h1 := hc.top_end; have h2 := hd.top_end
    rw [hb] at h1; rw [hb'] at h2
    have : h • b = h • b' := by
      have := h1.trans h2.symm
      exact add_left_cancel this
    exact smul_right_injective V hh this
  refine motion_unique hc.motion hd.motion M ?_ ?_
  · intro τ; rw [hb, hb', e]
  · intro p hp; rw [hc.start p hp, hd.start p hp]

theorem parabolicMotion_unique {M : ℕ} {x : ℕ → V} {a ac an : V} {m h : ℝ} (hm : m ≠ 0)
    (hh : h ≠ 0) (hmh : m ≠ h) {c d : ℕ → ℝ → V} (hc : ParabolicMotion M x a ac an m h c)
    (hd : ParabolicMotion M x a ac an m h d) : ∀ p τ, c p τ = d p τ := by
  obtain ⟨b, e, hb⟩ := hc.top_parabola
  obtain ⟨b', e', hb'⟩ := hd.top_parabola
  have h1 : m • b + m ^ 2 • e = m • b' + m ^ 2 • e' := by
    have h1 := hc.top_mid; have h2 := hd.top_mid
    rw [hb] at h1; rw [hb'] at h2
    have := h1.trans h2.symm
    rw [add_assoc, add_assoc] at this
    exact add_left_cancel this
  have h2 : h • b + h ^ 2 • e = h • b' + h ^ 2 • e' := by
    have h1 := hc.top_end; have h2 := hd.top_end
    rw [hb] at h1; rw [hb'] at h2
    have := h1.trans h2.symm
    rw [add_assoc, add_assoc] at this
    exact add_left_cancel this
  have g1 : b + m • e = b' + m • e' := by
    refine smul_right_injective V hm ?_
    simpa [smul_add, smul_smul, ← pow_two] using h1
  have g2 : b + h • e = b' + h • e' := by
    refine smul_right_injective V hh ?_
    simpa [smul_add, smul_smul, ← pow_two] using h2
  have g3 : (m - h) • e = (m - h) • e' := by
    have := congrArg₂ (· - ·) g1 g2
    simp only [add_sub_add_left_eq_sub] at this
    simpa [sub_smul] using this
  have ee : e = e' := smul_right_injective V (sub_ne_zero.mpr hmh) g3
  have bb : b = b' := by rw [ee] at g1; exact add_right_cancel g1
  refine motion_unique hc.motion hd.motion M ?_ ?_
  · intro τ; rw [hb, hb', ee, bb]
  · intro p hp; rw [hc.start p hp, hd.start p hp]

/-- Value of the order-`M` trapezoidal interpolant at the end of the step. -/
theorem tzInterp_end (M : ℕ) (x : ℕ → V) (a an : V) (h : ℝ) (hh : h ≠ 0) (p : ℕ) (hp : p < M) :
    tzInterp M 0 x a an h h p =
      ((h ^ (M - p) * (1 / (Nat.factorial (M - p + 1) : ℝ))) • (((M - p : ℕ) : ℝ) • a + an)
        + ∑ i ∈ range (M - p), (h ^ i * (1 / (Nat.factorial i : ℝ))) • x (i + M - (M - p))) := by
  obtain ⟨l, rfl⟩ := Nat.exists_eq_add_of_lt hp
  have e1 : p + l + 1 - p = l + 1 := by omega
  rw [tzInterp_eq_taylor]
  have e2 : p + l + 1 + 2 - (p + 0) = l + 1 + 1 + 1 := by omega
  rw [e2, e1]
  unfold taylorSum
  rw [sum_range_succ, sum_range_succ]
  have s1 : ∑ i ∈ range (l + 1), (h ^ i / (Nat.factorial i : ℝ)) •
        tzList (p + l + 1) x a an h (i + (p + 0))
      = ∑ i ∈ range (l + 1), (h ^ i * (1 / (Nat.factorial i : ℝ))) •
        x (i + (p + l + 1) - (l + 1)) := by
    refine sum_congr rfl ?_
    intro i hi
    have hi' := mem_range.mp hi
    have e3 : i + (p + l + 1) - (l + 1) = i + (p + 0) := by omega
    rw [e3, tzList, if_pos (by omega), mul_one_div]
  rw [s1]
  have t1 : tzList (p + l + 1) x a an h (l + 1 + (p + 0)) = a := by
    rw [tzList, if_neg (by omega), if_pos (by omega)]
  have t2 : tzList (p + l + 1) x a an h (l + 1 + 1 + (p + 0)) = (1 / h) • (-a + an) := by
    rw [tzList, if_neg (by omega), if_neg (by omega), if_pos (by omega)]
  rw [t1, t2, Nat.factorial_succ (l + 1)]
  have hf : (Nat.factorial (l + 1) : ℝ) ≠ 0 := by positivity
  have hl : ((l : ℝ) + 1 + 1) ≠ 0 := by positivity
  push_cast
  generalize (∑ i ∈ range (l + 1), (h ^ i * (1 / (Nat.factorial i : ℝ))) •
        x (i + (p + l + 1) - (l + 1))) = S
  match_scalars <;> field_simp <;> ring

/-- Value of the order-`M` Hermite-Simpson interpolant at the end of the step. -/
theorem hsInterp_end (M : ℕ) (x : ℕ → V) (a an ac : V) (h : ℝ) (hh : h ≠ 0) (p : ℕ) (hp : p < M) :
    hsInterp M 0 x a an h h ac p =
      ((h ^ (M - p) / (Nat.factorial (M - p + 2) : ℝ)) •
        ((((M - p : ℕ) : ℝ) ^ 2) • a + (4 * ((M - p : ℕ) : ℝ)) • ac + (2 - ((M - p : ℕ) : ℝ)) • an)
        + ∑ i ∈ range (M - p), (h ^ i * (1 / (Nat.factorial i : ℝ))) • x (i + M - (M - p))) := by
  obtain ⟨l, rfl⟩ := Nat.exists_eq_add_of_lt hp
  have e1 : p + l + 1 - p = l + 1 := by omega
  rw [hsInterp_eq_taylor]
  have e2 : p + l + 1 + 3 - (p + 0) = l + 1 + 1 + 1 + 1 := by omega
  rw [e2, e1]
  unfold taylorSum
  rw [sum_range_succ, sum_range_succ, sum_range_succ]
  have s1 : ∑ i ∈ range (l + 1), (h ^ i / (Nat.factorial i : ℝ)) •
        hsList (p + l + 1) x a an ac h (i + (p + 0))
      = ∑ i ∈ range (l + 1), (h ^ i * (1 / (Nat.factorial i : ℝ))) •
        x (i + (p + l + 1) - (l + 1)) := by
    refine sum_congr rfl ?_
    intro i hi
    have hi' := mem_range.mp hi
    have e3 : i + (p + l + 1) - (l + 1) = i + (p + 0) := by omega
    rw [e3, hsList, if_pos (by omega), mul_one_div]
  rw [s1]
  have t1 : hsList (p + l + 1) x a an ac h (l + 1 + (p + 0)) = a := by
    rw [hsList, if_neg (by omega), if_pos (by omega)]
  have t2 : hsList (p + l + 1) x a an ac h (l + 1 + 1 + (p + 0))
      = (1 / h) • (-(3 : ℝ) • a + (4 : ℝ) • ac - an) := by
    rw [hsList, if_neg (by omega), if_neg (by omega), if_pos (by omega)]
  have t3 : hsList (p + l + 1) x a an ac h (l + 1 + 1 + 1 + (p + 0))
      = (1 / h ^ 2) • ((4 : ℝ) • a - (8 : ℝ) • ac + (4 : ℝ) • an) := by
    rw [hsList, if_neg (by omega), if_neg (by omega), if_neg (by omega), if_pos (by omega)]
  rw [t1, t2, t3, Nat.factorial_succ (l + 1 + 1), Nat.factorial_succ (l + 1)]
  have hf : (Nat.factorial (l + 1) : ℝ) ≠ 0 := by positivity
  have hl : ((l : ℝ) + 1 + 1) ≠ 0 := by positivity
  have hl' : ((l : ℝ) + 1 + 1 + 1) ≠ 0 := by positivity
  push_cast
  generalize (∑ i ∈ range (l + 1), (h ^ i * (1 / (Nat.factorial i : ℝ))) •
        x (i + (p + l + 1) - (l + 1))) = S
  match_scalars <;> field_simp <;> ring

/-- Value of the order-`M` Hermite-Simpson interpolant at the middle of the step, when the last
division arrives at `xn (M-1)`. -/
theorem hsInterp_half (M : ℕ) (x xn : ℕ → V) (a an ac : V) (h : ℝ) (hh : h ≠ 0)
    (hv : xn (M - 1) = x (M - 1) + (h / 6) • (a + (4 : ℝ) • ac + an)) (p : ℕ) (hp : p < M) :
    hsInterp M 0 x a an (h / 2) h ac p = hsMHalfX M x xn a an h p := by
  obtain ⟨l, rfl⟩ := Nat.exists_eq_add_of_lt hp
  have e1 : p + l + 1 - p = l + 1 := by omega
  rw [hsInterp_eq_taylor]
  have e2 : p + l + 1 + 3 - (p + 0) = l + 1 + 1 + 1 + 1 := by omega
  simp only [hsMHalfX]
  rw [e2, e1, hv]
  unfold taylorSum
  rw [sum_range_succ, sum_range_succ, sum_range_succ, sum_range_succ]
  have e0 : l + 1 - 1 = l := by omega
  have s1 : ∑ i ∈ range l, ((h / 2) ^ i / (Nat.factorial i : ℝ)) •
        hsList (p + l + 1) x a an ac h (i + (p + 0))
      = ∑ i ∈ range l, (h ^ i * (1 / (2 ^ i * Nat.factorial i : ℝ))) •
        x (i + (p + l + 1) - (l + 1)) := by
    refine sum_congr rfl ?_
    intro i hi
    have hi' := mem_range.mp hi
    have e3 : i + (p + l + 1) - (l + 1) = i + (p + 0) := by omega
    rw [e3, hsList, if_pos (by omega), mul_one_div, div_pow, div_div]
  rw [e0, s1]
  have t0 : hsList (p + l + 1) x a an ac h (l + (p + 0)) = x (p + l + 1 - 1) := by
    rw [hsList, if_pos (by omega)]; congr 1; omega
  have t1 : hsList (p + l + 1) x a an ac h (l + 1 + (p + 0)) = a := by
    rw [hsList, if_neg (by omega), if_pos (by omega)]
  have t2 : hsList (p + l + 1) x a an ac h (l + 1 + 1 + (p + 0))
      = (1 / h) • (-(3 : ℝ) • a + (4 : ℝ) • ac - an) := by
    rw [hsList, if_neg (by omega), if_neg (by omega), if_pos (by omega)]
  have t3 : hsList (p + l + 1) x a an ac h (l + 1 + 1 + 1 + (p + 0))
      = (1 / h ^ 2) • ((4 : ℝ) • a - (8 : ℝ) • ac + (4 : ℝ) • an) := by
    rw [hsList, if_neg (by omega), if_neg (by omega), if_neg (by omega), if_pos (by omega)]
  rw [t0, t1, t2, t3, Nat.factorial_succ (l + 1 + 1), Nat.factorial_succ (l + 1),
    Nat.factorial_succ l]
  have hf : (Nat.factorial l : ℝ) ≠ 0 := by positivity
  have hl0 : ((l : ℝ) + 1) ≠ 0 := by positivity
  have hl : ((l : ℝ) + 1 + 1) ≠ 0 := by positivity
  have hl' : ((l : ℝ) + 1 + 1 + 1) ≠ 0 := by positivity
  have hl2 : ((l : ℝ) + 1 + 2) ≠ 0 := by positivity
  push_cast
  generalize (∑ i ∈ range l, (h ^ i * (1 / (2 ^ i * Nat.factorial i : ℝ))) •
        x (i + (p + l + 1) - (l + 1))) = S
  simp only [div_pow, pow_succ]
  match_scalars <;> field_simp <;> ring

end Chords
