import Verif.Lemmas.Roots
import Mathlib.Analysis.Calculus.LocalExtr.Rolle
import Mathlib.Analysis.Calculus.Deriv.Polynomial

/-! # The root lists of the point generators -/

namespace Chords.Spec
open Polynomial Finset

/-- `N` strictly increasing numbers, all strictly between -1 and 1. -/
def InnerPoints (N : ℕ) (l : List ℝ) : Prop :=
  l.length = N ∧ l.Pairwise (· < ·) ∧ ∀ x ∈ l, -1 < x ∧ x < 1

theorem innerPoints_map {m : ℕ} {s : ℕ → ℝ} (hs : ∀ i j, i < j → j < m → s i < s j)
    (h : ∀ i < m, -1 < s i ∧ s i < 1) : InnerPoints m ((List.range m).map s) := by
  refine ⟨by simp, ?_, ?_⟩
  · rw [List.pairwise_map]
    apply List.Pairwise.imp_of_mem (R := (· < ·))
    · intro a b _ hb hab; exact hs a b hab (by simpa using hb)
    · exact List.pairwise_lt_range
  · intro x hx
    simp at hx
    obtain ⟨i, hi, rfl⟩ := hx
    exact h i hi

theorem ThreeTerm.ne_zero {p : ℕ → ℝ[X]} (h : ThreeTerm p) (n : ℕ) : p n ≠ 0 := by
  intro e; have := h.lc n; simp [e] at this

theorem ThreeTerm.innerPoints {p : ℕ → ℝ[X]} (h : ThreeTerm p) (n : ℕ) :
    InnerPoints n (realRoots (p n)) := by
  cases n with
  | zero => simp [h.zero, realRoots, InnerPoints]
  | succ n =>
    obtain ⟨r, h1, h2, _⟩ := h.roots n
    rw [realRoots_eq (h.deg _) (h.ne_zero _) h2 (fun i hi => (h1 i hi).2.2)]
    exact innerPoints_map h2 (fun i hi => ⟨(h1 i hi).1, (h1 i hi).2.1⟩)

theorem legendre_roots (n : ℕ) : InnerPoints n (realRoots (legendre n)) := legendre_threeTerm.innerPoints n

theorem jacobi_roots {a b : ℝ} (ha : -1 < a) (hb : -1 < b) (n : ℕ) :
    InnerPoints n (realRoots (jacobi a b n)) := (jacobi_threeTerm ha hb).innerPoints n

/-- The extrema of a Legendre polynomial (Rolle). -/
theorem legendre_deriv_roots (n : ℕ) : InnerPoints n (realRoots (derivative (legendre (n + 1)))) := by
  have h := legendre_threeTerm
  obtain ⟨r, h1, h2, _⟩ := h.roots n
  have hex : ∀ i, ∃ x, i < n → r i < x ∧ x < r (i + 1) ∧ (derivative (legendre (n + 1))).eval x = 0 := by
    intro i
    by_cases hi : i < n
    · obtain ⟨c, hc, e⟩ := exists_deriv_eq_zero (f := fun x => (legendre (n + 1)).eval x)
        (h2 i (i + 1) (by omega) (by omega)) (legendre (n + 1)).continuous.continuousOn
        (by rw [(h1 i (by omega)).2.2, (h1 (i + 1) (by omega)).2.2])
      refine ⟨c, fun _ => ⟨hc.1, hc.2, ?_⟩⟩
      rw [← e, Polynomial.deriv]
    · exact ⟨0, fun h => absurd h hi⟩
  choose s hs using hex
  have hsm : ∀ i j, i < j → j < n → s i < s j := by
    intro i j hij hj
    have a := (hs i (by omega)).2.1
    have b := (hs j hj).1
    rcases Nat.lt_or_ge (i + 1) j with h3 | h3
    · linarith [h2 (i + 1) j h3 (by omega)]
    · have : j = i + 1 := by omega
      subst this; linarith
  have hd : (derivative (legendre (n + 1))).natDegree = n := by
    rw [natDegree_derivative, h.deg]; rfl
  have hne : derivative (legendre (n + 1)) ≠ 0 := by
    intro e
    have := natDegree_eq_zero_of_derivative_eq_zero e
    rw [h.deg] at this; omega
  rw [realRoots_eq hd hne hsm (fun i hi => (hs i hi).2.2)]
  refine innerPoints_map hsm (fun i hi => ⟨?_, ?_⟩)
  · linarith [(hs i hi).1, (h1 i (by omega)).1]
  · linarith [(hs i hi).2.1, (h1 (i + 1) (by omega)).2.1]

/-- The Radau polynomial: root -1 first, the others strictly inside. -/
theorem radau_roots (n : ℕ) :
    ∃ l, realRoots (legendre (n + 1) + legendre n) = -1 :: l ∧ InnerPoints n l := by
  have h := legendre_threeTerm
  obtain ⟨r, h1, h2, h3⟩ := h.roots n
  obtain ⟨s, hs, hsm⟩ := roots_of_alternation (legendre (n + 1) + legendre n) n r
    (fun j hj => h2 j (j + 1) (by omega) (by omega)) (fun j hj => by
      rw [eval_add, (h1 j (by omega)).2.2, zero_add]; exact h3 j (by omega))
  have hlt : (legendre n).natDegree < (legendre (n + 1)).natDegree := by rw [h.deg, h.deg]; omega
  have hd : (legendre (n + 1) + legendre n).natDegree = n + 1 := by
    rw [natDegree_add_eq_left_of_natDegree_lt hlt, h.deg]
  have hne : legendre (n + 1) + legendre n ≠ 0 := by intro e; simp [e] at hd
  let t : ℕ → ℝ := fun j => match j with | 0 => -1 | j + 1 => s j
  have hin : ∀ j < n, -1 < s j ∧ s j < 1 := fun j hj => by
    constructor
    · linarith [(hs j hj).1, (h1 j (by omega)).1]
    · linarith [(hs j hj).2.1, (h1 (j + 1) (by omega)).2.1]
  have htm : ∀ i j, i < j → j < n + 1 → t i < t j := by
    intro i j hij hj
    cases j with
    | zero => omega
    | succ j =>
      cases i with
      | zero => exact (hin j (by omega)).1
      | succ i => exact hsm i j (by omega) (by omega)
  have ht0 : ∀ i < n + 1, (legendre (n + 1) + legendre n).eval (t i) = 0 := by
    intro i hi
    cases i with
    | zero =>
      have := jacobi_left (a := 0) (b := 0) (by norm_num) (by norm_num) n
      rw [← legendre_eq_jacobi, ← legendre_eq_jacobi, add_zero] at this
      have hn : ((n : ℝ) + 1) ≠ 0 := by positivity
      simp only [t, eval_add]
      have h5 : ((legendre (n + 1)).eval (-1) + (legendre n).eval (-1)) * (n + 1) = 0 := by linarith
      exact (mul_eq_zero.1 h5).resolve_right hn
    | succ i => exact (hs i (by omega)).2.2
  refine ⟨(List.range n).map s, ?_, innerPoints_map hsm hin⟩
  rw [realRoots_eq hd hne htm ht0, List.range_succ_eq_map, List.map_cons, List.map_map]
  rfl

end Chords.Spec
