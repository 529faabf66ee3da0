import Verif.Spec.OrthoPoly
import Mathlib.Algebra.Polynomial.BigOperators
import Mathlib.Topology.Algebra.Polynomial
import Mathlib.Topology.Order.IntermediateValue
import Mathlib.Topology.Instances.Real.Lemmas
import Mathlib.Tactic.Ring
import Mathlib.Tactic.FieldSimp
import Mathlib.Tactic.Linarith
import Mathlib.Tactic.LinearCombination
import Mathlib.Tactic.ComputeDegree
import Mathlib.Tactic.Positivity

/-! # Simple real roots of three-term recurrences, by interlacing -/

namespace Chords.Spec
open Polynomial Finset

/-- A polynomial of degree `m` with `m` increasing roots is the product of its linear factors. -/
theorem factor_of_roots {q : ℝ[X]} {m : ℕ} (hd : q.natDegree = m) (hq : q ≠ 0) {s : ℕ → ℝ}
    (hs : ∀ i j, i < j → j < m → s i < s j) (h0 : ∀ i < m, q.eval (s i) = 0) :
    q.roots = (Multiset.range m).map s ∧ q = C q.leadingCoeff * ∏ i ∈ range m, (X - C (s i)) := by
  have hinj : Set.InjOn s (range m : Set ℕ) := by
    intro i hi j hj e
    simp at hi hj
    rcases lt_trichotomy i j with h | h | h
    · exact absurd e (hs i j h hj).ne
    · exact h
    · exact absurd e.symm (hs j i h hi).ne
  have hsub : (Multiset.range m).map s ≤ q.roots := by
    rw [Multiset.le_iff_subset]
    · intro x hx
      simp at hx
      obtain ⟨i, hi, rfl⟩ := hx
      rw [mem_roots hq]; exact h0 i hi
    · rw [Multiset.nodup_map_iff_inj_on (Multiset.nodup_range m)]
      intro i hi j hj e
      exact hinj (by simpa using hi) (by simpa using hj) e
  have hr : q.roots = (Multiset.range m).map s := by
    symm
    apply Multiset.eq_of_le_of_card_le hsub
    simpa [hd] using card_roots' q
  refine ⟨hr, ?_⟩
  have hc : Multiset.card q.roots = q.natDegree := by rw [hr, hd]; simp
  conv_lhs => rw [← C_leadingCoeff_mul_prod_multiset_X_sub_C hc]
  rw [hr, Multiset.map_map]
  rfl

theorem realRoots_eq {q : ℝ[X]} {m : ℕ} (hd : q.natDegree = m) (hq : q ≠ 0) {s : ℕ → ℝ}
    (hs : ∀ i j, i < j → j < m → s i < s j) (h0 : ∀ i < m, q.eval (s i) = 0) :
    realRoots q = (List.range m).map s := by
  have hr := (factor_of_roots hd hq hs h0).1
  unfold realRoots
  rw [hr]
  have : (Multiset.range m).map s = ((List.range m).map s : List ℝ) := rfl
  rw [this]
  apply List.Perm.eq_of_pairwise (le := (· ≤ ·))
  · intro a b _ _ h1 h2; exact le_antisymm h1 h2
  · exact Multiset.pairwise_sort _ _
  · rw [List.pairwise_map]
    apply List.Pairwise.imp_of_mem (R := (· < ·))
    · intro a b _ hb hab; exact (hs a b hab (by simpa using hb)).le
    · exact List.pairwise_lt_range
  · exact Multiset.coe_eq_coe.1 (by rw [Multiset.sort_eq])

/-- The sign of a product of linear factors between its roots. -/
theorem prod_sign {m : ℕ} {s : ℕ → ℝ} {x : ℝ} {j : ℕ} (hj : j ≤ m) (h1 : ∀ i < j, s i < x)
    (h2 : ∀ i, j ≤ i → i < m → x < s i) : 0 < (-1 : ℝ) ^ (m - j) * ∏ i ∈ range m, (x - s i) := by
  rw [← prod_range_mul_prod_Ico _ hj]
  have e : ∏ i ∈ Ico j m, (x - s i) = (-1 : ℝ) ^ (m - j) * ∏ i ∈ Ico j m, (s i - x) := by
    rw [← Nat.card_Ico, ← prod_const, ← prod_mul_distrib]
    apply prod_congr rfl; intro i _; ring
  rw [e]
  have hp : ((-1 : ℝ) ^ (m - j)) * ((-1 : ℝ) ^ (m - j)) = 1 := by rw [← mul_pow]; simp
  have : (-1 : ℝ) ^ (m - j) * ((∏ i ∈ range j, (x - s i)) * ((-1 : ℝ) ^ (m - j) * ∏ i ∈ Ico j m, (s i - x)))
      = (∏ i ∈ range j, (x - s i)) * ∏ i ∈ Ico j m, (s i - x) := by
    linear_combination ((∏ i ∈ range j, (x - s i)) * ∏ i ∈ Ico j m, (s i - x)) * hp
  rw [this]
  apply mul_pos
  · apply prod_pos; intro i hi; simp at hi; linarith [h1 i hi]
  · apply prod_pos; intro i hi; simp at hi; linarith [h2 i hi.1 hi.2]

/-- A sign change gives a root strictly between. -/
theorem exists_root_between (q : ℝ[X]) {a b : ℝ} (hab : a < b) (h : q.eval a * q.eval b < 0) :
    ∃ x, a < x ∧ x < b ∧ q.eval x = 0 := by
  have hc : ContinuousOn (fun x => q.eval x) (Set.Icc a b) := q.continuous.continuousOn
  rcases mul_neg_iff.1 h with ⟨h1, h2⟩ | ⟨h1, h2⟩
  · obtain ⟨x, hx, e⟩ := intermediate_value_Ioo' hab.le hc ⟨h2, h1⟩
    exact ⟨x, hx.1, hx.2, e⟩
  · obtain ⟨x, hx, e⟩ := intermediate_value_Ioo hab.le hc ⟨h1, h2⟩
    exact ⟨x, hx.1, hx.2, e⟩

/-- Alternating signs at `m + 1` increasing points give `m` interlacing roots. -/
theorem roots_of_alternation (q : ℝ[X]) (m : ℕ) (z : ℕ → ℝ) (hz : ∀ j < m, z j < z (j + 1))
    (ha : ∀ j ≤ m, 0 < (-1 : ℝ) ^ (m - j) * q.eval (z j)) :
    ∃ s : ℕ → ℝ, (∀ j < m, z j < s j ∧ s j < z (j + 1) ∧ q.eval (s j) = 0) ∧
      ∀ i j, i < j → j < m → s i < s j := by
  have h1 : ∀ j, ∃ x, j < m → z j < x ∧ x < z (j + 1) ∧ q.eval x = 0 := by
    intro j
    by_cases hj : j < m
    · have h2 := ha j hj.le
      have h3 := ha (j + 1) hj
      have e : m - j = (m - (j + 1)) + 1 := by omega
      rw [e, pow_succ] at h2
      have h4 : q.eval (z j) * q.eval (z (j + 1)) < 0 := by
        rcases neg_one_pow_eq_or ℝ (m - (j + 1)) with h | h <;> rw [h] at h2 h3 <;> nlinarith
      obtain ⟨x, hx⟩ := exists_root_between q (hz j hj) h4
      exact ⟨x, fun _ => hx⟩
    · exact ⟨0, fun h => absurd h hj⟩
  choose s hs using h1
  refine ⟨s, hs, ?_⟩
  have hmono : ∀ i k, i + k ≤ m → z i ≤ z (i + k) := by
    intro i k
    induction k with
    | zero => intro _; exact le_rfl
    | succ k ih => intro h; exact (ih (by omega)).trans (hz (i + k) (by omega)).le
  intro i j hij hj
  obtain ⟨k, rfl⟩ : ∃ k, j = i + 1 + k := ⟨j - (i + 1), by omega⟩
  have := hmono (i + 1) k (by omega)
  linarith [(hs i (by omega)).2.1, (hs (i + 1 + k) hj).1]

/-- What a recurrence family must satisfy. -/
structure ThreeTerm (p : ℕ → ℝ[X]) : Prop where
  zero : p 0 = 1
  rec_ : ∀ n, ∃ a b c : ℝ, 0 < c ∧ p (n + 2) = (C a * X + C b) * p (n + 1) - C c * p n
  deg : ∀ n, (p n).natDegree = n
  lc : ∀ n, 0 < (p n).leadingCoeff
  right : ∀ n, 0 < (p n).eval 1
  left : ∀ n, 0 < (-1 : ℝ) ^ n * (p n).eval (-1)

/-- Padding root sequences with the end points. -/
noncomputable def pad (n : ℕ) (r : ℕ → ℝ) : ℕ → ℝ
  | 0 => -1
  | j + 1 => if j < n then r j else 1

/-- `p n` has `n` increasing roots inside `(-1, 1)`, at which `p (n-1)` alternates. -/
theorem ThreeTerm.roots {p : ℕ → ℝ[X]} (h : ThreeTerm p) (n : ℕ) :
    ∃ r : ℕ → ℝ, (∀ i < n + 1, -1 < r i ∧ r i < 1 ∧ (p (n + 1)).eval (r i) = 0) ∧
      (∀ i j, i < j → j < n + 1 → r i < r j) ∧
      ∀ i < n + 1, 0 < (-1 : ℝ) ^ (n - i) * (p n).eval (r i) := by
  induction n with
  | zero =>
    obtain ⟨x, h1, h2, h3⟩ := exists_root_between (p 1) (a := -1) (b := 1) (by norm_num) (by
      have := h.left 1; have := h.right 1; simp at *; nlinarith)
    refine ⟨fun _ => x, fun i _ => ⟨h1, h2, h3⟩, fun i j hij hj => by omega, fun i hi => ?_⟩
    simp [h.zero]
  | succ n ih =>
    obtain ⟨r, hr, hrm, ha⟩ := ih
    have hne : p (n + 1) ≠ 0 := by intro e; have := h.lc (n + 1); simp [e] at this
    have hz : ∀ j < n + 2, pad (n + 1) r j < pad (n + 1) r (j + 1) := by
      intro j hj
      cases j with
      | zero => simp [pad]; exact (hr 0 (by omega)).1
      | succ j =>
        have hj1 : j < n + 1 := by omega
        simp only [pad, hj1, if_true]
        split_ifs with h2
        · exact hrm j (j + 1) (by omega) h2
        · exact (hr j hj1).2.1
    obtain ⟨a, b, c, hc, e⟩ := h.rec_ n
    have hal : ∀ j ≤ n + 2, 0 < (-1 : ℝ) ^ (n + 2 - j) * (p (n + 2)).eval (pad (n + 1) r j) := by
      intro j hj
      cases j with
      | zero => simpa [pad] using h.left (n + 2)
      | succ j =>
        by_cases hj1 : j < n + 1
        · simp only [pad, hj1, if_true]
          have e2 : (p (n + 2)).eval (r j) = -c * (p n).eval (r j) := by
            rw [e]; simp [(hr j hj1).2.2]
          rw [e2]
          have e3 : n + 2 - (j + 1) = (n - j) + 1 := by omega
          rw [e3, pow_succ]
          have := mul_pos hc (ha j hj1)
          linarith
        · have : j = n + 1 := by omega
          subst this
          simp only [pad, lt_irrefl, if_false]
          simpa using h.right (n + 2)
    obtain ⟨s, hs, hsm⟩ := roots_of_alternation (p (n + 2)) (n + 2) (pad (n + 1) r) hz hal
    have hpadm : ∀ i k, i + k ≤ n + 2 → pad (n + 1) r i ≤ pad (n + 1) r (i + k) := by
      intro i k
      induction k with
      | zero => intro _; exact le_rfl
      | succ k ih => intro h; exact (ih (by omega)).trans (hz (i + k) (by omega)).le
    have hlast : pad (n + 1) r (n + 2) = 1 := by simp [pad]
    refine ⟨s, fun i hi => ⟨?_, ?_, (hs i hi).2.2⟩, hsm, ?_⟩
    · have := hpadm 0 i (by omega)
      rw [Nat.zero_add] at this
      have h0 : pad (n + 1) r 0 = -1 := rfl
      linarith [(hs i hi).1]
    · have := hpadm (i + 1) (n + 2 - (i + 1)) (by omega)
      rw [show i + 1 + (n + 2 - (i + 1)) = n + 2 by omega, hlast] at this
      linarith [(hs i hi).2.1]
    · intro i hi
      have hf := (factor_of_roots (h.deg (n + 1)) hne hrm (fun i hi => (hr i hi).2.2)).2
      have hpos := prod_sign (m := n + 1) (s := r) (x := s i) (j := i) (by omega) (by
        intro k hk
        have h3 := hpadm (k + 1) (i - (k + 1)) (by omega)
        rw [show k + 1 + (i - (k + 1)) = i by omega] at h3
        have h4 : pad (n + 1) r (k + 1) = r k := by simp [pad]; omega
        linarith [(hs i hi).1]) (by
        intro k hk hk2
        have h3 := hpadm (i + 1) (k + 1 - (i + 1)) (by omega)
        rw [show i + 1 + (k + 1 - (i + 1)) = k + 1 by omega] at h3
        have h4 : pad (n + 1) r (k + 1) = r k := by simp [pad]; omega
        linarith [(hs i hi).2.1])
      rw [hf]
      simp only [eval_mul, eval_C, eval_prod, eval_sub, eval_X]
      have := mul_pos (h.lc (n + 1)) hpos
      linarith

/-- Degrees and leading coefficients of a recurrence with positive slopes. -/
theorem deg_lc_step {p q : ℝ[X]} {n : ℕ} {a b c : ℝ} (ha : 0 < a) (hq : q.natDegree = n + 1)
    (hl : 0 < q.leadingCoeff) (hp : p.natDegree = n) :
    ((C a * X + C b) * q - C c * p).natDegree = n + 2 ∧ 0 < ((C a * X + C b) * q - C c * p).leadingCoeff := by
  have h1 : (C a * X + C b).natDegree = 1 := natDegree_linear ha.ne'
  have h1' : (C a * X + C b).leadingCoeff = a := leadingCoeff_linear ha.ne'
  have hq0 : q ≠ 0 := by intro e; simp [e] at hl
  have hl0 : C a * X + C b ≠ 0 := by intro e; simp [e] at h1
  have h2 : ((C a * X + C b) * q).natDegree = n + 2 := by rw [natDegree_mul hl0 hq0, h1, hq]; omega
  have h3 : (C c * p).natDegree < ((C a * X + C b) * q).natDegree := by
    rw [h2]; exact (natDegree_C_mul_le c p).trans_lt (by omega)
  constructor
  · rw [natDegree_sub_eq_left_of_natDegree_lt h3, h2]
  · rw [leadingCoeff_sub_of_degree_lt (degree_lt_degree h3), leadingCoeff_mul, h1']
    positivity

/-- The Jacobi recurrence, written with a linear factor. -/
theorem jacobi_rec {a b : ℝ} (ha : -1 < a) (hb : -1 < b) (n : ℕ) :
    ∃ α β γ : ℝ, 0 < α ∧ 0 < γ ∧ jacobi a b (n + 2) = (C α * X + C β) * jacobi a b (n + 1) - C γ * jacobi a b n := by
  have hn : (0 : ℝ) ≤ n := Nat.cast_nonneg n
  obtain ⟨i, hi⟩ : ∃ i : ℝ, i = n + 2 := ⟨_, rfl⟩
  have hi2 : 2 ≤ i := by linarith
  refine ⟨(a + b + 2 * i - 1) * (a + b + 2 * i - 2) * (a + b + 2 * i) / (2 * (i * (a + b + i) * (a + b + 2 * i - 2))),
    (a + b + 2 * i - 1) * (a * a - b * b) / (2 * (i * (a + b + i) * (a + b + 2 * i - 2))),
    (a + i - 1) * (b + i - 1) * (a + b + 2 * i) / (i * (a + b + i) * (a + b + 2 * i - 2)), ?_, ?_, ?_⟩
  · apply div_pos
    · apply mul_pos (mul_pos _ _) <;> linarith
    · apply mul_pos (by norm_num) (mul_pos (mul_pos _ _) _) <;> linarith
  · apply div_pos
    · apply mul_pos (mul_pos _ _) <;> linarith
    · apply mul_pos (mul_pos _ _) <;> linarith
  · rw [jacobi]
    simp only [← hi]
    ring

theorem jacobi_deg {a b : ℝ} (ha : -1 < a) (hb : -1 < b) (n : ℕ) :
    ((jacobi a b n).natDegree = n ∧ 0 < (jacobi a b n).leadingCoeff) ∧
    ((jacobi a b (n + 1)).natDegree = n + 1 ∧ 0 < (jacobi a b (n + 1)).leadingCoeff) := by
  induction n with
  | zero =>
    refine ⟨by simp [jacobi], ?_⟩
    have : (0 : ℝ) < (a + b) / 2 + 1 := by linarith
    rw [show jacobi a b (0 + 1) = C ((a + b) / 2 + 1) * X + C ((a - b) / 2) from rfl,
      natDegree_linear this.ne', leadingCoeff_linear this.ne']
    exact ⟨rfl, this⟩
  | succ n ih =>
    refine ⟨ih.2, ?_⟩
    obtain ⟨α, β, γ, hα, hγ, e⟩ := jacobi_rec ha hb n
    rw [show n + 1 + 1 = n + 2 from rfl, e]
    exact deg_lc_step hα ih.2.1 ih.2.2 ih.1.1

theorem jacobi_right {a b : ℝ} (ha : -1 < a) (hb : -1 < b) (n : ℕ) :
    (jacobi a b (n + 1)).eval 1 * (n + 1) = (jacobi a b n).eval 1 * (n + 1 + a) := by
  induction n with
  | zero => simp [jacobi]; ring
  | succ n ih =>
    have hn : (0 : ℝ) ≤ n := Nat.cast_nonneg n
    have h1 : (n : ℝ) + 1 + a ≠ 0 := by linarith
    have e0 : (jacobi a b n).eval 1 = (jacobi a b (n + 1)).eval 1 * (n + 1) / (n + 1 + a) := by
      rw [ih]; field_simp
    rw [show n + 1 + 1 = n + 2 from rfl, jacobi]
    simp only [eval_add, eval_sub, eval_mul, eval_C, eval_X]
    rw [e0]
    have h2 : (n : ℝ) + 2 ≠ 0 := by linarith
    have h3 : a + b + ((n : ℝ) + 2) ≠ 0 := by linarith
    have h4 : a + b + 2 * ((n : ℝ) + 2) - 2 ≠ 0 := by linarith
    have h5 : a + ((n : ℝ) + 2) - 1 ≠ 0 := by linarith
    push_cast
    field_simp
    ring

theorem jacobi_left {a b : ℝ} (ha : -1 < a) (hb : -1 < b) (n : ℕ) :
    (jacobi a b (n + 1)).eval (-1) * (n + 1) = -((jacobi a b n).eval (-1) * (n + 1 + b)) := by
  induction n with
  | zero => simp [jacobi]; ring
  | succ n ih =>
    have hn : (0 : ℝ) ≤ n := Nat.cast_nonneg n
    have h1 : (n : ℝ) + 1 + b ≠ 0 := by linarith
    have e0 : (jacobi a b n).eval (-1) = -((jacobi a b (n + 1)).eval (-1) * (n + 1) / (n + 1 + b)) := by
      rw [ih]; field_simp
    rw [show n + 1 + 1 = n + 2 from rfl, jacobi]
    simp only [eval_add, eval_sub, eval_mul, eval_C, eval_X]
    rw [e0]
    have h2 : (n : ℝ) + 2 ≠ 0 := by linarith
    have h3 : a + b + ((n : ℝ) + 2) ≠ 0 := by linarith
    have h4 : a + b + 2 * ((n : ℝ) + 2) - 2 ≠ 0 := by linarith
    push_cast
    field_simp
    ring

theorem jacobi_threeTerm {a b : ℝ} (ha : -1 < a) (hb : -1 < b) : ThreeTerm (jacobi a b) where
  zero := rfl
  rec_ n := by
    obtain ⟨α, β, γ, _, hγ, e⟩ := jacobi_rec ha hb n
    exact ⟨α, β, γ, hγ, e⟩
  deg n := (jacobi_deg ha hb n).1.1
  lc n := (jacobi_deg ha hb n).1.2
  right n := by
    induction n with
    | zero => simp [jacobi]
    | succ n ih =>
      have hn : (0 : ℝ) ≤ n := Nat.cast_nonneg n
      have := jacobi_right ha hb n
      have h2 : 0 < (jacobi a b n).eval 1 * (n + 1 + a) := mul_pos ih (by linarith)
      rw [← this] at h2
      exact pos_of_mul_pos_left h2 (by positivity)
  left n := by
    induction n with
    | zero => simp [jacobi]
    | succ n ih =>
      have hn : (0 : ℝ) ≤ n := Nat.cast_nonneg n
      have := jacobi_left ha hb n
      have h2 : 0 < (-1) ^ n * (jacobi a b n).eval (-1) * (n + 1 + b) := mul_pos ih (by linarith)
      have h3 : 0 < ((-1) ^ (n + 1) * (jacobi a b (n + 1)).eval (-1)) * (n + 1) := by
        rw [pow_succ]; rw [mul_assoc, this]; linarith
      exact pos_of_mul_pos_left h3 (by positivity)

theorem legendre_eq_jacobi (n : ℕ) : legendre n = jacobi 0 0 n := by
  induction n using Nat.twoStepInduction with
  | zero => rfl
  | one => simp [legendre, jacobi]
  | more n h1 h2 =>
    have hn : (0 : ℝ) ≤ n := Nat.cast_nonneg n
    rw [legendre, jacobi, h1, h2]
    simp only [mul_zero, sub_zero, zero_div, add_zero, zero_add, C_0, zero_mul]
    have h2 : (n : ℝ) + 2 ≠ 0 := by linarith
    have h3 : (n : ℝ) + 1 ≠ 0 := by linarith
    have h4 : 2 * ((n : ℝ) + 2) - 2 = 2 * (n + 1) := by ring
    rw [h4]
    congr 3
    · congr 1
      field_simp
      ring
    · field_simp
      ring

theorem legendre_threeTerm : ThreeTerm legendre := by
  rw [show legendre = jacobi 0 0 from funext legendre_eq_jacobi]
  exact jacobi_threeTerm (by norm_num) (by norm_num)

end Chords.Spec
