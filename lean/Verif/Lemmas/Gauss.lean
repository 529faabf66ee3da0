import Verif.Model.Gauss
import Verif.Lemmas.Anti
import Verif.Props.Points

/-! # Gauss integration of polynomials -/

namespace Chords.Gauss
open Finset Polynomial Chords.Points Chords.Spec Chords.Bary Chords.Props

theorem gaussIntegral_exact {N : ℕ} (hN : 1 ≤ N) {p : ℝ[X]} (hp : p.degree < (2 * N : ℕ)) {f : ℝ → ℝ}
    (hf : ∀ x, f x = p.eval x) (t0 t1 : ℝ) : gaussIntegral f N t0 t1 = integ t0 t1 p := by
  obtain ⟨φ, hφ⟩ : ∃ φ : ℝ[X], φ = C t0 + C ((t1 - t0) / 2) * (X + 1) := ⟨_, rfl⟩
  have hev : ∀ x, φ.eval x = t0 + (t1 - t0) * ((x + 1) / 2) := by intro x; rw [hφ]; simp; ring
  have hφd : φ.natDegree ≤ 1 := by rw [hφ]; compute_degree
  have hdeg : (p.comp φ).degree < (2 * N : ℕ) := by
    rcases eq_or_ne p 0 with rfl | h0
    · rw [zero_comp, degree_zero]; exact WithBot.bot_lt_coe _
    have h1 : p.natDegree < 2 * N := by rw [degree_eq_natDegree h0] at hp; exact_mod_cast hp
    refine lt_of_le_of_lt degree_le_natDegree ?_
    have h2 : (p.comp φ).natDegree ≤ p.natDegree * φ.natDegree := natDegree_comp_le
    have : (p.comp φ).natDegree < 2 * N := lt_of_le_of_lt (h2.trans (Nat.mul_le_mul_left _ hφd)) (by omega)
    exact_mod_cast this
  have hex := leggauss_exact hN hdeg
  have hd : derivative ((anti t0 p).comp φ) = C ((t1 - t0) / 2) * p.comp φ := by
    rw [derivative_comp, anti_deriv, hφ]; simp
  have h2 := integ_derivative (-1) 1 ((anti t0 p).comp φ)
  rw [hd, integ_C_mul, eval_comp, eval_comp, hev, hev] at h2
  have e1 : t0 + (t1 - t0) * ((1 + 1) / 2) = t1 := by ring
  have e2 : t0 + (t1 - t0) * ((-1 + 1) / 2) = t0 := by ring
  rw [e1, e2, anti_eval, sub_zero, ← anti_integ, ← hex] at h2
  rw [← h2]
  unfold gaussIntegral gaussPoint
  simp only [eval_comp, hev, hf]
  ring

theorem gaussIntegral2d_col (f : ℝ → ℕ → ℝ) (N : ℕ) (t0 t1 : ℝ) (c : ℕ) :
    gaussIntegral2d f N t0 t1 c = gaussIntegral (fun t => f t c) N t0 t1 := rfl

theorem ceilHalf_spec {n : ℕ} (hn : 1 ≤ n) : 1 ≤ ceilHalf n ∧ n ≤ 2 * ceilHalf n := by
  unfold ceilHalf; omega

theorem degree_lt_mono {p : ℝ[X]} {m n : ℕ} (hp : p.degree < m) (h : m ≤ n) : p.degree < n :=
  lt_of_lt_of_le hp (by exact_mod_cast h)

theorem gaussPoint_inj {N : ℕ} {t0 t1 : ℝ} (h : t0 ≠ t1) {i j : ℕ} (hi : i < N) (hj : j < N)
    (e : gaussPoint N t0 t1 i = gaussPoint N t0 t1 j) : i = j := by
  have h' := sub_ne_zero.2 h.symm
  unfold gaussPoint at e
  simp only at e
  apply (gauss_nodes N).2.1 i hi j hj
  have := mul_left_cancel₀ h' (add_left_cancel e)
  linarith

theorem integPoints_distinct (n : ℕ) {t0 t1 : ℝ} (h : t0 ≠ t1) : Distinct (n + 2) (integPoints n t0 t1) := by
  have h' := sub_ne_zero.2 h.symm
  have h0 : ∀ i < n + 1, gaussPoint (n + 1) t0 t1 i ≠ t0 := by
    intro i hi e
    have hm := ((gauss_nodes (n + 1)).2.2.1 i hi).1
    unfold gaussPoint at e
    simp only at e
    have : (t1 - t0) * ((arr (leggaussPoints (n + 1)) i + 1) / 2) = 0 := by linarith
    rcases mul_eq_zero.1 this with h1 | h1
    · exact h' h1
    · linarith
  intro i hi j hj e
  match i, j with
  | 0, 0 => rfl
  | 0, j + 1 => exact absurd e.symm (h0 j (by omega))
  | i + 1, 0 => exact absurd e (h0 i (by omega))
  | i + 1, j + 1 => rw [gaussPoint_inj h (by omega) (by omega) e]

theorem baryPoly_poly {n : ℕ} {t y : ℕ → ℝ} (h : Distinct n t) (hn : 1 ≤ n) {p : ℝ[X]} (hp : p.degree < n)
    (hy : ∀ i < n, y i = p.eval (t i)) (x : ℝ) : baryPoly n t y x = p.eval x := by
  rw [baryPoly_eq h hn, interpolate_self h hp hy]

theorem polyIntegral_eq {n : ℕ} {p : ℝ[X]} (hp : p.degree < (n + 1 : ℕ)) {f : ℝ → ℝ} (hf : ∀ x, f x = p.eval x)
    {t0 t1 : ℝ} (h : t0 ≠ t1) (y0 x : ℝ) : polyIntegral f n t0 t1 y0 x = y0 + (anti t0 p).eval x := by
  have hdeg : (C y0 + anti t0 p).degree < (n + 2 : ℕ) := by
    refine lt_of_le_of_lt (degree_add_le _ _) (max_lt (lt_of_le_of_lt degree_C_le ?_) (anti_degree t0 hp))
    exact_mod_cast Nat.succ_pos _
  unfold polyIntegral
  rw [baryPoly_poly (p := C y0 + anti t0 p) (integPoints_distinct n h) (by omega) hdeg]
  · simp
  · intro i hi
    match i with
    | 0 => simp [integPoints, anti_eval]
    | i + 1 =>
      simp only [integPoints, eval_add, eval_C]
      obtain ⟨c1, c2⟩ := ceilHalf_spec (n := n + 1) (by omega)
      rw [gaussIntegral_exact c1 (degree_lt_mono hp c2) hf, anti_integ]

/-- What `poly_integral_2d` returns for a function whose columns are polynomials, started from 0. -/
theorem polyIntegral2d_eq {n : ℕ} {f : VFun} {p : ℕ → ℝ[X]} {D : ℕ} (hD : 1 ≤ D)
    (hdim : f.dim = some D ∨ (f.dim = none ∧ D = 1))
    (hp : ∀ c < D, (p c).degree < (n + 1 : ℕ)) (hf : ∀ c < D, ∀ x, f.val x c = (p c).eval x)
    {t0 t1 : ℝ} (h : t0 ≠ t1) {y0 : VArr} (hy : y0.dim = none ∨ y0.dim = some D) :
    ∃ g, polyIntegral2d f n t0 t1 y0 = .ok g ∧ (g.dim = if D = 1 then none else some D) ∧
      ∀ c < D, ∀ x, g.val x c = (if y0.dim = none then y0.val 0 else y0.val c) + (anti t0 (p c)).eval x := by
  unfold polyIntegral2d
  by_cases h1 : D = 1
  · subst h1
    have hc : f.dim = none ∨ f.dim = some 1 := by tauto
    have hy' : y0.dim = none ∨ y0.dim = some 1 := by tauto
    rw [if_pos hc, if_pos hy']
    refine ⟨_, rfl, by simp, ?_⟩
    intro c hc x
    obtain rfl : c = 0 := by omega
    simp only
    rw [polyIntegral_eq (hp 0 (by omega)) (hf 0 (by omega)) h]
    simp
  · have hfd : f.dim = some D := by tauto
    have hc : ¬ (f.dim = none ∨ f.dim = some 1) := by rw [hfd]; simp [h1]
    rw [if_neg hc]
    have key : ∀ (z : ℕ → ℝ), ∀ c < D, ∀ x,
        baryPoly2d (n + 2) (integPoints n t0 t1) (fun i c => z c + (match i with
          | 0 => fun _ => 0
          | i + 1 => gaussIntegral2d f.val (ceilHalf (n + 1)) t0 (gaussPoint (n + 1) t0 t1 i) : ℕ → ℝ) c) x c
          = z c + (anti t0 (p c)).eval x := by
      intro z c hc x
      rw [← polyIntegral_eq (hp c hc) (hf c hc) h]
      unfold baryPoly2d polyIntegral
      congr 1
      funext i
      match i with
      | 0 => simp
      | i + 1 => simp [gaussIntegral2d_col]
    rcases hy with hy | hy
    · have e1 : y0.dim ≠ f.dim := by rw [hy, hfd]; simp
      rw [if_neg e1, if_pos (Or.inl hy)]
      refine ⟨_, rfl, by simp [hfd, h1], ?_⟩
      intro c hc x
      rw [if_pos hy]
      exact key (fun _ => y0.val 0) c hc x
    · have e1 : y0.dim = f.dim := by rw [hy, hfd]
      rw [if_pos e1]
      refine ⟨_, rfl, by simp [hfd, h1], ?_⟩
      intro c hc x
      rw [if_neg (by rw [hy]; simp)]
      exact key y0.val c hc x

/-- The Lagrange basis polynomials. -/
theorem eye_interpolate {N : ℕ} {t : ℕ → ℝ} (h : Distinct N t) {c : ℕ} (hc : c < N) (x : ℝ) :
    baryPoly2d N t eye x c = (Lagrange.basis (range N) t c).eval x := by
  unfold baryPoly2d
  apply baryPoly_poly h (by omega)
  · rw [Lagrange.degree_basis h.injOn (mem_range.2 hc), card_range]
    exact_mod_cast (by omega : N - 1 < N)
  · intro i hi
    by_cases e : i = c
    · subst e; rw [Lagrange.eval_basis_self h.injOn (mem_range.2 hi)]; simp [eye]
    · rw [Lagrange.eval_basis_of_ne (Ne.symm e) (mem_range.2 hi)]; simp [eye, e]

theorem basis_degree_lt {N : ℕ} {t : ℕ → ℝ} (h : Distinct N t) {c : ℕ} (hc : c < N) :
    (Lagrange.basis (range N) t c).degree < N := by
  rw [Lagrange.degree_basis h.injOn (mem_range.2 hc), card_range]
  exact_mod_cast (by omega : N - 1 < N)

theorem coll_distinct {scheme : String} (hs : scheme ∈ implemented) {order : ℕ} (ho : 1 ≤ order) {N : ℕ}
    (hN : minPoints scheme ≤ N) : ∃ L, collPoints N scheme order = .ok L ∧ L.length = N ∧ Distinct N (arr L) := by
  obtain ⟨L, h1, h2⟩ := coll_shape hs ho hN
  refine ⟨L, h1, h2.length, ?_⟩
  have := distinct_arr h2.sorted
  rwa [h2.length] at this

theorem minPoints_pos (scheme : String) : 1 ≤ minPoints scheme := by unfold minPoints; split <;> omega

/-- `Lag_integ_2d`: the columns are the repeated antiderivatives of the Lagrange basis. -/
theorem lagInteg2d_eq {scheme : String} {order : ℕ} {N : ℕ} (hN : 1 ≤ N) {L : List ℝ}
    (hL : collPoints N scheme order = .ok L) (hd : Distinct N (arr L)) (k : ℕ) :
    ∃ g, lagInteg2d N scheme k order = .ok g ∧
      (g.dim = if N = 1 ∧ 1 ≤ k then none else some N) ∧
      ∀ c < N, ∀ x, g.val x c = (antiK (-1) k (Lagrange.basis (range N) (arr L) c)).eval x := by
  induction k with
  | zero =>
    refine ⟨⟨some N, baryPoly2d N (arr L) eye⟩, ?_, by simp, ?_⟩
    · simp [lagInteg2d, lagPol2d, hL, bind, Except.bind, pure, Except.pure]
    · intro c hc x; exact eye_interpolate hd hc x
  | succ k ih =>
    obtain ⟨g, hg, hgd, hgv⟩ := ih
    have hdeg : ∀ c < N, (antiK (-1) k (Lagrange.basis (range N) (arr L) c)).degree < ((N + (k + 1) - 2) + 1 : ℕ) := by
      intro c hc
      exact degree_lt_mono (antiK_degree (-1) (basis_degree_lt hd hc) k) (by omega)
    obtain ⟨g', h1, h2, h3⟩ := polyIntegral2d_eq (D := N) hN
      (by rw [hgd]; split_ifs with hh <;> simp [hh]) hdeg hgv (t0 := -1) (t1 := 1) (by norm_num)
      (y0 := ⟨none, fun _ => 0⟩) (Or.inl rfl)
    refine ⟨g', ?_, ?_, ?_⟩
    · simp only [lagInteg2d, hg, bind, Except.bind]; exact h1
    · rw [h2]; by_cases h : N = 1 <;> simp [h]
    · intro c hc x
      rw [h3 c hc x, antiK_succ]; simp

/-- Integrating the columns of a Lagrange basis gives the weights of the interpolation quadrature. -/
theorem weights_exact {N : ℕ} {t w : ℕ → ℝ} (hd : Distinct N t)
    (hw : ∀ c < N, w c = integ (-1) 1 (Lagrange.basis (range N) t c)) {p : ℝ[X]} (hp : p.degree < N) :
    ∑ i ∈ range N, w i * p.eval (t i) = integ (-1) 1 p := by
  have e := interpolate_self hd hp (fun i _ => rfl)
  conv_rhs => rw [← e, Lagrange.interpolate_apply, integ_sum]
  apply sum_congr rfl
  intro i hi
  rw [hw i (mem_range.1 hi), integ_C_mul, mul_comm]

theorem finish_eq {N : ℕ} {t : ℕ → ℝ} (hd : Distinct N t) {c : ℕ} (hc : c < N) :
    gaussIntegral2d (baryPoly2d N t eye) (ceilHalf (N + 1)) (-1) 1 c = integ (-1) 1 (Lagrange.basis (range N) t c) := by
  rw [gaussIntegral2d_col]
  obtain ⟨c1, c2⟩ := ceilHalf_spec (n := N + 1) (by omega)
  exact gaussIntegral_exact c1 (degree_lt_mono (basis_degree_lt hd hc) (by omega)) (fun x => eye_interpolate hd hc x) _ _

end Chords.Gauss
