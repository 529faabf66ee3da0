import Verif.Lemmas.Gauss

/-! # Properties of the Gauss helpers and the quadrature weights: C26, C27, C28 -/

namespace Chords.Props
open Finset Polynomial Chords.Points Chords.Spec Chords.Bary Chords.Gauss

/-! ## C26 -/

/-- C26: `gauss_integral` with `N` points integrates every polynomial of degree up to `2N - 1` exactly, over every
interval, in either direction. (The weights are the ones numpy computes.) -/
theorem C26_integral {N : ℕ} (hN : 1 ≤ N) {p : ℝ[X]} (hp : p.natDegree ≤ 2 * N - 1) (t0 t1 : ℝ) :
    gaussIntegral (fun t => p.eval t) N t0 t1 = ∫ t in t0..t1, p.eval t :=
  gaussIntegral_exact hN (lt_of_le_of_lt degree_le_natDegree (by exact_mod_cast (by omega : p.natDegree < 2 * N)))
    (fun _ => rfl) t0 t1

example : (X ^ 5 : ℝ[X]).natDegree ≤ 2 * 3 - 1 := by rw [natDegree_X_pow]

/-- C26 for several columns. -/
theorem C26_integral_2d {N : ℕ} (hN : 1 ≤ N) {p : ℕ → ℝ[X]} (hp : ∀ c, (p c).natDegree ≤ 2 * N - 1) (t0 t1 : ℝ) (c : ℕ) :
    gaussIntegral2d (fun t c => (p c).eval t) N t0 t1 c = ∫ t in t0..t1, (p c).eval t := by
  rw [gaussIntegral2d_col]; exact C26_integral hN (hp c) t0 t1

/-- C26: `gauss_rep_integral` gives the `n`-fold integral from `t0` of every polynomial of the declared degree. -/
theorem C26_repeated {n_pol n : ℕ} (hn : 1 ≤ n) {p : ℝ[X]} (hp : p.natDegree ≤ n_pol) (t0 t1 : ℝ) :
    gaussRepIntegral (fun t => p.eval t) t0 t1 n_pol n = iterInt t0 n (fun t => p.eval t) t1 := by
  obtain ⟨k, rfl⟩ : ∃ k, n = k + 1 := ⟨n - 1, by omega⟩
  obtain ⟨c1, c2⟩ := ceilHalf_spec (n := n_pol + (k + 1) - 1 + 1) (by omega)
  have hdeg : ((C t1 - X) ^ k * p).degree < ((2 * ceilHalf (n_pol + (k + 1) - 1 + 1) : ℕ) : WithBot ℕ) := by
    refine lt_of_le_of_lt degree_le_natDegree ?_
    have h1 : (C t1 - X : ℝ[X]).natDegree ≤ 1 := by compute_degree
    have h2 : ((C t1 - X) ^ k * p).natDegree ≤ k * 1 + n_pol :=
      natDegree_mul_le.trans (add_le_add (natDegree_pow_le.trans (Nat.mul_le_mul_left _ h1)) hp)
    exact_mod_cast (by omega : ((C t1 - X) ^ k * p).natDegree < 2 * ceilHalf (n_pol + (k + 1) - 1 + 1))
  rw [iterInt_poly]
  unfold gaussRepIntegral
  simp only [Nat.add_sub_cancel]
  rw [gaussIntegral_exact (p := (C t1 - X) ^ k * p) c1 hdeg (by intro x; simp), cauchy_formula]
  have : (Nat.factorial k : ℝ) ≠ 0 := by exact_mod_cast Nat.factorial_ne_zero k
  field_simp

example : (X ^ 2 - 3 * X : ℝ[X]).natDegree ≤ 2 ∧ 1 ≤ 4 := ⟨by compute_degree, by norm_num⟩

/-! ## C27 -/

/-- C27: `poly_integral` of a polynomial of the declared degree is its antiderivative with value `y0` at `t0`; it is
again a polynomial. -/
theorem C27_poly {n : ℕ} {p : ℝ[X]} (hp : p.natDegree ≤ n) {t0 t1 : ℝ} (ht : t0 ≠ t1) (y0 : ℝ) :
    ∃! q : ℝ[X], derivative q = p ∧ q.eval t0 = y0 ∧
      ∀ x, polyIntegral (fun t => p.eval t) n t0 t1 y0 x = q.eval x := by
  have hd : p.degree < (n + 1 : ℕ) :=
    lt_of_le_of_lt degree_le_natDegree (by exact_mod_cast (by omega : p.natDegree < n + 1))
  refine ⟨C y0 + anti t0 p, ⟨by simp [anti_deriv], by simp [anti_eval], fun x => ?_⟩, ?_⟩
  · rw [polyIntegral_eq hd (fun _ => rfl) ht]; simp
  · rintro q ⟨h1, h2, -⟩
    exact eq_of_deriv (a := t0) (by simp [anti_deriv, h1]) (by simp [anti_eval, h2])

/-- The same as an integral: `y0` plus the integral from `t0`, also outside `[t0, t1]`. -/
theorem C27_integral {n : ℕ} {p : ℝ[X]} (hp : p.natDegree ≤ n) {t0 t1 : ℝ} (ht : t0 ≠ t1) (y0 x : ℝ) :
    polyIntegral (fun t => p.eval t) n t0 t1 y0 x = y0 + ∫ t in t0..x, p.eval t := by
  have hd : p.degree < (n + 1 : ℕ) :=
    lt_of_le_of_lt degree_le_natDegree (by exact_mod_cast (by omega : p.natDegree < n + 1))
  rw [polyIntegral_eq hd (fun _ => rfl) ht, ← anti_integ]; rfl

example : (X ^ 3 : ℝ[X]).natDegree ≤ 3 ∧ (0 : ℝ) ≠ 2 := ⟨by rw [natDegree_X_pow], by norm_num⟩

/-- C27 for several columns: with at least two of them, `poly_integral_2d` integrates each one, from a common number or
from one initial value for each column. -/
theorem C27_columns {n D : ℕ} (hD : 2 ≤ D) {p : ℕ → ℝ[X]} (hp : ∀ c < D, (p c).natDegree ≤ n) {t0 t1 : ℝ}
    (ht : t0 ≠ t1) {y0 : VArr} (hy : y0.dim = none ∨ y0.dim = some D) :
    ∃ g, polyIntegral2d ⟨some D, fun t c => (p c).eval t⟩ n t0 t1 y0 = .ok g ∧ g.dim = some D ∧
      ∀ c < D, ∀ x, g.val x c = (if y0.dim = none then y0.val 0 else y0.val c) + ∫ t in t0..x, (p c).eval t := by
  obtain ⟨g, h1, h2, h3⟩ := polyIntegral2d_eq (f := ⟨some D, fun t c => (p c).eval t⟩) (p := p) (n := n) (D := D)
    (by omega) (Or.inl rfl)
    (fun c hc => lt_of_le_of_lt degree_le_natDegree
      (by exact_mod_cast (by have := hp c hc; omega : (p c).natDegree < n + 1)))
    (fun c _ x => rfl) ht hy
  refine ⟨g, h1, by rw [h2, if_neg (by omega)], fun c hc x => ?_⟩
  rw [h3 c hc x, ← anti_integ]; rfl

/-- A wrong number of initial values is refused. -/
theorem C27_columns_error {f : VFun} {D m : ℕ} (hD : 2 ≤ D) (hf : f.dim = some D) (hm : m ≠ 1) (hmD : m ≠ D) (n : ℕ)
    (t0 t1 : ℝ) (v : ℕ → ℝ) : polyIntegral2d f n t0 t1 ⟨some m, v⟩ = .error .valueError := by
  unfold polyIntegral2d
  rw [hf, if_neg (by simp; omega)]
  simp [hmD, hm]

/-- C27: `Lag_integ_2d` of order `k` holds, for every implemented scheme, the `k`-fold integrals from -1 of the Lagrange
polynomials of the scheme's collocation points. -/
theorem C27_lagrange {scheme : String} (hs : scheme ∈ implemented) {order : ℕ} (ho : 1 ≤ order) {N : ℕ}
    (hN : minPoints scheme ≤ N) (k : ℕ) :
    ∃ coll g, collPoints N scheme order = .ok coll ∧ lagInteg2d N scheme k order = .ok g ∧
      ∀ c < N, ∃ l : ℝ[X], l.degree < N ∧ (∀ i < N, l.eval (arr coll i) = if i = c then 1 else 0) ∧
        ∀ x, g.val x c = iterInt (-1) k (fun t => l.eval t) x := by
  obtain ⟨coll, h1, -, h2⟩ := coll_distinct hs ho hN
  have hN1 : 1 ≤ N := le_trans (minPoints_pos scheme) hN
  obtain ⟨g, g1, -, g3⟩ := lagInteg2d_eq hN1 h1 h2 k
  refine ⟨coll, g, h1, g1, fun c hc => ⟨Lagrange.basis (range N) (arr coll) c, basis_degree_lt h2 hc, ?_, ?_⟩⟩
  · intro i hi
    split_ifs with e
    · subst e; exact Lagrange.eval_basis_self h2.injOn (mem_range.2 hi)
    · exact Lagrange.eval_basis_of_ne (Ne.symm e) (mem_range.2 hi)
  · intro x; rw [iterInt_poly, g3 c hc x]

example : "CGL" ∈ implemented ∧ minPoints "CGL" ≤ 4 ∧ 1 ≤ 3 := by decide

/-! ## C28 -/

/-- C28, mode "u": for every implemented scheme the weights integrate over [-1, 1] every polynomial of degree below the
number of points from its values at the collocation points of the same order; in particular they sum to 2. -/
theorem C28_u {scheme : String} (hs : scheme ∈ implemented) {order : ℕ} (ho : 1 ≤ order) {N : ℕ}
    (hN : minPoints scheme ≤ N) :
    ∃ coll w, collPoints N scheme order = .ok coll ∧ getWeights N scheme order "u" = .ok w ∧
      ∑ i ∈ range N, w i = 2 ∧
      ∀ p : ℝ[X], p.degree < N → ∑ i ∈ range N, w i * p.eval (arr coll i) = ∫ x in (-1 : ℝ)..1, p.eval x := by
  obtain ⟨coll, h1, -, h2⟩ := coll_distinct hs ho hN
  have hN1 : 1 ≤ N := le_trans (minPoints_pos scheme) hN
  obtain ⟨w, hw, hwv⟩ : ∃ w, getWeights N scheme order "u" = .ok w ∧
      ∀ c < N, w c = integ (-1) 1 (Lagrange.basis (range N) (arr coll) c) := by
    by_cases hLG : scheme = "LG"
    · subst hLG
      have hc : coll = leggaussPoints N := by
        simp [collPoints] at h1; rw [← h1]; rfl
      subst hc
      refine ⟨arr (leggaussWeights N), by simp [getWeights], fun c hc => leggaussWeights_eq hN1 hc⟩
    · refine ⟨_, by simp only [getWeights, lagPol2d, h1, hLG, if_true, if_false, bind, Except.bind, pure,
        Except.pure], fun c hc => finish_eq h2 hc⟩
  refine ⟨coll, w, h1, hw, ?_, fun p hp => weights_exact h2 hwv hp⟩
  have := weights_exact h2 hwv (p := 1) (lt_of_le_of_lt degree_one_le (by exact_mod_cast hN1))
  simp only [eval_one, mul_one, integ_one] at this
  rw [this]; norm_num

/-- For "LG" the weights are exact up to degree `2N - 1`. -/
theorem C28_LG {N : ℕ} (hN : 1 ≤ N) (order : ℕ) :
    ∃ coll w, collPoints N "LG" order = .ok coll ∧ getWeights N "LG" order "u" = .ok w ∧
      ∀ p : ℝ[X], p.degree < (2 * N : ℕ) → ∑ i ∈ range N, w i * p.eval (arr coll i) = ∫ x in (-1 : ℝ)..1, p.eval x :=
  ⟨leggaussPoints N, arr (leggaussWeights N), by simp [collPoints, LG, leggaussPoints], by simp [getWeights],
    fun _ hp => leggauss_exact hN hp⟩

/-- C28, mode "x": the same over the times of the rows of `x`. -/
theorem C28_x {scheme : String} (hs : scheme ∈ implemented) {N : ℕ} (hN : minPoints scheme ≤ N) (order : ℕ) :
    ∃ full w, arrPoints N scheme = .ok full ∧ getWeights full.length scheme order "x" = .ok w ∧
      ∑ i ∈ range full.length, w i = 2 ∧
      ∀ p : ℝ[X], p.degree < full.length →
        ∑ i ∈ range full.length, w i * p.eval (arr full i) = ∫ x in (-1 : ℝ)..1, p.eval x := by
  obtain ⟨coll, n, nodes, full, s, s', h1, h2, h3, h4, h5, h6, hlen, hsort, hmem, h10, h11, h12, h13, h14, h15⟩ :=
    C21_aligned hs hN
  have hd : Distinct full.length (arr full) := distinct_arr h11
  have hpos : 1 ≤ full.length := by
    cases full with
    | nil => simp at h12
    | cons a l => simp
  have hx : lagPol2dX full.length scheme = .ok ⟨some full.length, baryPoly2d full.length (arr full) eye⟩ := by
    simp only [arrPoints, h2, h3, bind, Except.bind, pure, Except.pure] at h4
    unfold lagPol2dX
    by_cases c1 : scheme ∈ gaussLike
    · rw [if_pos c1] at h4 ⊢
      have e : full = nodes ++ [1] := by injection h4 with h; exact h.symm
      have : full.length - 1 = n := by rw [e]; simp [hlen]
      rw [this, h3, e]
      rfl
    · rw [if_neg c1] at h4 ⊢
      by_cases c2 : scheme ∈ gaussInv
      · rw [if_pos c2] at h4 ⊢
        have e : full = [-1] ++ nodes := by injection h4 with h; exact h.symm
        have : full.length - 1 = n := by rw [e]; simp [hlen]
        rw [this, h3, e]
        rfl
      · rw [if_neg c2] at h4 ⊢
        have e : full = nodes := by injection h4 with h; exact h.symm
        rw [e, hlen, h3]
        rfl
  have hw : getWeights full.length scheme order "x"
      = .ok (gaussIntegral2d (baryPoly2d full.length (arr full) eye) (ceilHalf (full.length + 1)) (-1) 1) := by
    unfold getWeights
    rw [if_neg (by decide), if_pos rfl, hx]
    rfl
  refine ⟨full, _, h4, hw, ?_, fun p hp => weights_exact hd (fun c hc => finish_eq hd hc) hp⟩
  have := weights_exact hd (fun c hc => finish_eq hd hc) (p := 1) (lt_of_le_of_lt degree_one_le (by exact_mod_cast hpos))
  simp only [eval_one, mul_one, integ_one] at this
  rw [this]; norm_num

example : "LG_inv" ∈ implemented ∧ minPoints "LG_inv" ≤ 3 := by decide

/-- C28, error side. -/
theorem C28_errors (N : ℕ) (scheme : String) (order : ℕ) :
    (∀ mode, mode ≠ "u" → mode ≠ "x" → getWeights N scheme order mode = .error .valueError) ∧
    (scheme ∉ implemented → ∀ mode, getWeights N scheme order mode = .error .valueError) := by
  refine ⟨fun mode h1 h2 => by simp [getWeights, h1, h2], fun hs mode => ?_⟩
  have hLG : scheme ≠ "LG" := by rintro rfl; exact hs (by decide)
  have hg : scheme ∉ gaussLike := fun h => hs (by simp [implemented, h])
  have hg' : scheme ∉ gaussInv := fun h => hs (by simp [implemented, h])
  have h1 := fun M => (C21_unknown hs M order).1
  have h2 := fun M => (C21_unknown hs M order).2.1
  by_cases m1 : mode = "u"
  · simp [getWeights, m1, hLG, lagPol2d, h1, bind, Except.bind]
  · by_cases m2 : mode = "x"
    · simp [getWeights, m2, lagPol2dX, hg, hg', h2, bind, Except.bind]
    · simp [getWeights, m1, m2]

end Chords.Props
