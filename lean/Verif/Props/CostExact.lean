import Verif.Props.Degrees
import Verif.Props.PsCost
import Verif.Props.PhLayout

/-! # C169: the cost of the controls and the controls that are drawn -/

namespace Chords.Props
open Finset Polynomial Chords.Points Chords.Spec Chords.Bary Chords.Gauss Chords.PsCost Chords.TimeScale

theorem natDegree_lt_of_degree {g : ℝ[X]} {N : ℕ} (hN : 1 ≤ N) (hg : g.degree < N) : g.natDegree ≤ N - 1 := by
  rcases eq_or_ne g 0 with rfl | h0
  · simp
  · rw [degree_eq_natDegree h0] at hg
    have : g.natDegree < N := by exact_mod_cast hg
    omega

theorem degree_lt_of_natDegree {g : ℝ[X]} {N : ℕ} (h : g.natDegree < N) : g.degree < N :=
  lt_of_le_of_lt degree_le_natDegree (by exact_mod_cast h)

/-- A rule that is exact for squares, over an interval of time. -/
theorem scaled_square {N : ℕ} (hN : 1 ≤ N) {w : ℕ → ℝ} {pts : List ℝ}
    (hw : ∀ p : ℝ[X], p.natDegree ≤ N - 1 → ∑ i ∈ range N, w i * p.eval (arr pts i) ^ 2 = ∫ x in (-1 : ℝ)..1, p.eval x ^ 2)
    {g : ℝ[X]} (hg : g.degree < N) {a : ℕ → ℝ} {t0 t1 : ℝ} (ha : ∀ i < N, a i = g.eval (tauToT (arr pts i) t0 t1)) :
    (t1 - t0) * ∑ i ∈ range N, w i * a i ^ 2 = 2 * ∫ t in t0..t1, g.eval t ^ 2 := by
  obtain ⟨q, h1, h2, -⟩ := integ_time t0 t1 g
  obtain ⟨r, -, r2, r3⟩ := integ_time t0 t1 (g ^ 2)
  have hr : r = q ^ 2 := Polynomial.funext fun x => by rw [r2, eval_pow, eval_pow, h2]
  have e := hw q (h1.trans (natDegree_lt_of_degree hN hg))
  have e2 : ∑ i ∈ range N, w i * a i ^ 2 = ∑ i ∈ range N, w i * q.eval (arr pts i) ^ 2 :=
    sum_congr rfl fun i hi => by rw [ha i (mem_range.1 hi), h2]
  have e3 : ∫ t in t0..t1, g.eval t ^ 2 = (t1 - t0) / 2 * ∫ x in (-1 : ℝ)..1, q.eval x ^ 2 := by
    have := r3
    rw [hr] at this
    simpa only [integ, eval_pow] using this
  rw [e2, e, e3]
  ring

/-- The weights of the Gauss and Radau schemes are exact for squares. -/
theorem weights_square {scheme : String} (hs : scheme ∈ legendreSchemes) (hl : lost scheme ≤ 1) {order : ℕ} (ho : 1 ≤ order)
    {N : ℕ} (hN : minPoints scheme ≤ N) : ∃ coll w, collPoints N scheme order = .ok coll ∧ getWeights N scheme order "u" = .ok w ∧
      ∀ p : ℝ[X], p.natDegree ≤ N - 1 →
        ∑ i ∈ range N, w i * p.eval (arr coll i) ^ 2 = ∫ x in (-1 : ℝ)..1, p.eval x ^ 2 := by
  obtain ⟨coll, w, h1, h2, h3⟩ := C168_weights hs ho hN
  refine ⟨coll, w, h1, h2, fun p hp => ?_⟩
  have hN1 : 1 ≤ N := le_trans (by
    revert hs
    simp only [legendreSchemes, List.mem_cons, List.not_mem_nil, or_false]
    rintro (rfl | rfl | rfl | rfl | rfl | rfl | rfl) <;> decide) hN
  have := h3 (p ^ 2) (degree_lt_of_natDegree (by
    have := natDegree_pow_le (p := p) (n := 2)
    omega))
  simpa only [eval_pow] using this

theorem legendre_one_le {scheme : String} (hs : scheme ∈ legendreSchemes) {N : ℕ} (hN : minPoints scheme ≤ N) : 1 ≤ N :=
  le_trans (by
    revert hs
    simp only [legendreSchemes, List.mem_cons, List.not_mem_nil, or_false]
    rintro (rfl | rfl | rfl | rfl | rfl | rfl | rfl) <;> decide) hN

/-- C169 for the Gauss and Radau schemes: `u_sq_cost` of the three kinds of pseudospectral problems is twice the integral over
the horizon of the square of the control that interpolates the values, for all values of the variables. The factor 2 is that
of C67. -/
theorem C169_gauss_radau_partial {scheme : String} (hs : scheme ∈ legendreSchemes) (hl : lost scheme ≤ 1) {order : ℕ}
    (ho : 1 ≤ order) {N : ℕ} (hN : minPoints scheme ≤ N) (n_arr : ℕ) (t0 t1 : ℝ) (m : ℕ) :
    ∃ coll, collPoints N scheme order = .ok coll ∧ ∀ (a : ℕ → ℕ → ℝ) (g : ℕ → ℝ[X]), (∀ c < m, (g c).degree < N) →
      (∀ i < N, ∀ c < m, a i c = (g c).eval (tauToT (arr coll i) t0 t1)) →
      uSqCost scheme N n_arr order t0 t1 m a = .ok (2 * ∑ c ∈ range m, ∫ t in t0..t1, (g c).eval t ^ 2) ∧
      buUSqCost scheme N t0 t1 m a = .ok (2 * ∑ c ∈ range m, ∫ t in t0..t1, (g c).eval t ^ 2) := by
  have hN1 := legendre_one_le hs hN
  have hj : scheme ∉ jacobiSchemes := by
    revert hs
    simp only [legendreSchemes, List.mem_cons, List.not_mem_nil, or_false]
    rintro (rfl | rfl | rfl | rfl | rfl | rfl | rfl) <;> decide
  obtain ⟨coll, w, h1, h2, h3⟩ := weights_square hs hl ho hN
  obtain ⟨coll', w', k1, k2, k3⟩ := weights_square hs hl (order := 2) (by omega) hN
  have : coll' = coll := by
    have e1 := coll_order (order := order) (Or.inl hj) N
    rw [h1, k1] at e1
    exact (Except.ok.inj e1).symm
  subst this
  refine ⟨coll', h1, fun a g hg ha => ⟨?_, ?_⟩⟩
  · have e : uSqCost scheme N n_arr order t0 t1 m a = .ok ((t1 - t0) * ∑ c ∈ range m, ∑ i ∈ range N, w i * a i c ^ 2) := by
      simp only [uSqCost, quadCost, PsCost.quadIntCas, if_true, h2, bind, Except.bind, pure, Except.pure]
    rw [e, mul_sum, mul_sum]
    congr 1
    exact sum_congr rfl fun c hc => scaled_square hN1 h3 (hg c (mem_range.1 hc)) fun i hi => ha i hi c (mem_range.1 hc)
  · have e : buUSqCost scheme N t0 t1 m a = .ok ((t1 - t0) * ∑ c ∈ range m, ∑ i ∈ range N, w' i * a i c ^ 2) := by
      simp only [buUSqCost, PsCost.quadIntCas, if_true, k2, bind, Except.bind, pure, Except.pure]
    rw [e, mul_sum, mul_sum]
    congr 1
    exact sum_congr rfl fun c hc => scaled_square hN1 k3 (hg c (mem_range.1 hc)) fun i hi => ha i hi c (mem_range.1 hc)

/-- Three Radau points and controls of degree two: beyond the degree of C67 once squared. -/
example : "LGR" ∈ legendreSchemes ∧ lost "LGR" ≤ 1 ∧ minPoints "LGR" ≤ 3 ∧ (X ^ 2 + 1 : ℝ[X]).degree < (3 : ℕ) := by
  refine ⟨by decide, by decide, by decide, ?_⟩
  refine lt_of_le_of_lt (b := (2 : WithBot ℕ)) (by compute_degree) (by norm_num)

/-- What the Lobatto quadrature of a square leaves over. -/
theorem lobatto_square {N : ℕ} (hN : 2 ≤ N) {w : ℕ → ℝ}
    (hw : ∀ p : ℝ[X], p.degree < (2 * N - 2 : ℕ) → ∑ i ∈ range N, w i * p.eval (arr (LGL N) i) = ∫ x in (-1 : ℝ)..1, p.eval x) :
    ∃ κ : ℝ, 0 < κ ∧ ∀ p : ℝ[X], p.natDegree ≤ N - 1 →
      ∑ i ∈ range N, w i * p.eval (arr (LGL N) i) ^ 2 = (∫ x in (-1 : ℝ)..1, p.eval x ^ 2) + κ * p.coeff (N - 1) ^ 2 := by
  have h := legendre_threeTerm
  have hlen : (LGL N).length = N := (LGL_shape hN).length
  obtain ⟨n, rfl⟩ : ∃ n, N = n + 2 := ⟨N - 2, by omega⟩
  obtain ⟨V, hV⟩ : ∃ V, V = derivative (legendre (n + 1)) := ⟨_, rfl⟩
  have hVd : V.natDegree = n := by
    have := degree_derivative_eq (legendre (n + 1)) (by rw [h.deg]; omega)
    rw [h.deg, ← hV] at this
    exact natDegree_eq_of_degree_eq_some this
  have hV0 : V ≠ 0 := by
    intro e
    have := natDegree_eq_zero_of_derivative_eq_zero (hV.symm.trans e)
    rw [h.deg] at this
    omega
  have hv : V.coeff n ≠ 0 := by
    have := leadingCoeff_ne_zero.mpr hV0
    rwa [leadingCoeff, hVd] at this
  have eL : LGL (n + 2) = -1 :: (realRoots (derivative (legendre (n + 1))) ++ [1]) := by simp [LGL]
  obtain ⟨Q, hQ⟩ : ∃ Q : ℝ[X], Q = (1 - X ^ 2) * V ^ 2 := ⟨_, rfl⟩
  have hQz : ∀ i < n + 2, Q.eval (arr (LGL (n + 2)) i) = 0 := by
    intro i hi
    have hx : arr (LGL (n + 2)) i ∈ LGL (n + 2) := by
      rw [arr, List.getD_eq_getElem?_getD, List.getElem?_eq_getElem (by omega), Option.getD_some]
      exact List.getElem_mem _
    rw [eL, List.mem_cons, List.mem_append, List.mem_singleton, ← eL] at hx
    rcases hx with hx | hx | hx
    · rw [hx, hQ]; simp
    · rw [hQ, eval_mul, eval_pow, hV, roots_eval (hV ▸ hV0) hx]; simp
    · rw [hx, hQ]; simp
  have hQc : Q.coeff (2 * n + 2) = - V.coeff n ^ 2 := by
    have e1 : (V ^ 2).coeff (2 * n) = V.coeff n ^ 2 := by
      have := coeff_pow_of_natDegree_le (p := V) (n := n) (m := 2) hVd.le
      rw [← this]
    have e2 : (V ^ 2).coeff (2 * n + 2) = 0 := coeff_eq_zero_of_natDegree_lt (by
      have := natDegree_pow_le (p := V) (n := 2)
      omega)
    rw [hQ, sub_mul, one_mul, coeff_sub, e2, coeff_X_pow_mul, e1]
    ring
  have hQd : Q.natDegree ≤ 2 * n + 2 := by
    rw [hQ]
    refine natDegree_mul_le.trans ?_
    have e1 : (1 - X ^ 2 : ℝ[X]).natDegree ≤ 2 := by compute_degree
    have e2 := natDegree_pow_le (p := V) (n := 2)
    omega
  have hpos : 0 < ∫ x in (-1 : ℝ)..1, Q.eval x := by
    obtain ⟨x, hx, hx0⟩ : ∃ x ∈ Set.Ioo (-1 : ℝ) 1, V.eval x ≠ 0 := by
      by_contra h'
      push Not at h'
      exact hV0 (eq_zero_of_infinite_isRoot V ((Set.Ioo_infinite (by norm_num : (-1 : ℝ) < 1)).mono fun x hx => h' x hx))
    have hQe : ∀ x, Q.eval x = (1 - x ^ 2) * V.eval x ^ 2 := fun x => by rw [hQ]; simp
    refine intervalIntegral.integral_pos (by norm_num) Q.continuous.continuousOn (fun y hy => ?_) ⟨x, ⟨hx.1.le, hx.2.le⟩, ?_⟩
    · rw [hQe]
      have : y ^ 2 ≤ 1 := by nlinarith [hy.1, hy.2]
      exact mul_nonneg (by linarith) (sq_nonneg _)
    · rw [hQe]
      have : x ^ 2 < 1 := by nlinarith [hx.1, hx.2]
      exact mul_pos (by linarith) (by positivity)
  refine ⟨(∫ x in (-1 : ℝ)..1, Q.eval x) / V.coeff n ^ 2, by positivity, fun p hp => ?_⟩
  rw [show n + 2 - 1 = n + 1 by omega] at hp ⊢
  obtain ⟨b, hb⟩ : ∃ b, b = (p.coeff (n + 1) / V.coeff n) ^ 2 := ⟨_, rfl⟩
  have hfc : (p ^ 2 + C b * Q).coeff (2 * n + 2) = 0 := by
    have := coeff_pow_of_natDegree_le (p := p) (n := n + 1) (m := 2) hp
    rw [coeff_add, coeff_C_mul, hQc, show 2 * n + 2 = 2 * (n + 1) by ring, this, hb]
    field_simp
    ring
  have hfd : (p ^ 2 + C b * Q).degree < (2 * (n + 2) - 2 : ℕ) := by
    have hle : (p ^ 2 + C b * Q).natDegree ≤ 2 * n + 2 := by
      refine (natDegree_add_le _ _).trans (max_le ?_ ?_)
      · have := natDegree_pow_le (p := p) (n := 2)
        omega
      · exact (natDegree_C_mul_le _ _).trans hQd
    rw [show 2 * (n + 2) - 2 = 2 * n + 2 by omega, degree_lt_iff_coeff_zero]
    intro k hk
    rcases Nat.lt_or_ge (2 * n + 2) k with h' | h'
    · exact coeff_eq_zero_of_natDegree_lt (by omega)
    · rw [show k = 2 * n + 2 by omega, hfc]
  have key := hw _ hfd
  have e1 : ∑ i ∈ range (n + 2), w i * (p ^ 2 + C b * Q).eval (arr (LGL (n + 2)) i)
      = ∑ i ∈ range (n + 2), w i * p.eval (arr (LGL (n + 2)) i) ^ 2 :=
    sum_congr rfl fun i hi => by rw [eval_add, eval_mul, hQz i (mem_range.1 hi), eval_pow]; ring
  have e2 : (∫ x in (-1 : ℝ)..1, (p ^ 2 + C b * Q).eval x) = (∫ x in (-1 : ℝ)..1, p.eval x ^ 2) + b * ∫ x in (-1 : ℝ)..1, Q.eval x := by
    have := integ_add (-1) 1 (p ^ 2) (C b * Q)
    rw [integ_C_mul] at this
    simpa only [integ, eval_pow] using this
  rw [← e1, key, e2, hb]
  field_simp

/-- C169 for the Lobatto schemes: the cost is twice the integral of the squared control plus a positive multiple of the square
of its highest coefficient. So it is never below, and it is the integral only for controls of lower degree than the points
allow. -/
theorem C169_lobatto {scheme : String} (hs : scheme ∈ ["LGL", "D2"]) {order : ℕ} (ho : 1 ≤ order) {N : ℕ} (hN : 2 ≤ N) (n_arr : ℕ)
    {t0 t1 : ℝ} (ht : t0 < t1) (m : ℕ) : ∃ κ : ℝ, 0 < κ ∧
      ∃ coll, collPoints N scheme order = .ok coll ∧ ∀ (a : ℕ → ℕ → ℝ) (g : ℕ → ℝ[X]), (∀ c < m, (g c).degree < N) →
      (∀ i < N, ∀ c < m, a i c = (g c).eval (tauToT (arr coll i) t0 t1)) →
      uSqCost scheme N n_arr order t0 t1 m a
        = .ok (2 * ∑ c ∈ range m, ((∫ t in t0..t1, (g c).eval t ^ 2) + κ * (g c).coeff (N - 1) ^ 2)) := by
  have hs' : scheme ∈ legendreSchemes := by
    revert hs
    simp only [legendreSchemes, List.mem_cons, List.not_mem_nil, or_false]
    tauto
  have hl : lost scheme = 2 ∧ minPoints scheme = 2 := by
    revert hs
    simp only [List.mem_cons, List.not_mem_nil, or_false]
    rintro (rfl | rfl) <;> decide
  obtain ⟨coll, w, h1, h2, h3⟩ := C168_weights hs' ho (N := N) (by omega)
  have hc : coll = LGL N := by
    simp only [List.mem_cons, List.not_mem_nil, or_false] at hs
    rcases hs with rfl | rfl <;> simp [collPoints] at h1 <;> exact h1.symm
  subst hc
  rw [hl.1] at h3
  obtain ⟨κ, k1, k2⟩ := lobatto_square hN h3
  have hd : 0 < (t1 - t0) / 2 := by linarith
  refine ⟨(t1 - t0) / 2 * (κ * (((t1 - t0) / 2) ^ (N - 1)) ^ 2), by positivity, LGL N, h1, fun a g hg ha => ?_⟩
  have e : uSqCost scheme N n_arr order t0 t1 m a = .ok ((t1 - t0) * ∑ c ∈ range m, ∑ i ∈ range N, w i * a i c ^ 2) := by
    simp only [uSqCost, quadCost, PsCost.quadIntCas, if_true, h2, bind, Except.bind, pure, Except.pure]
  rw [e, mul_sum, mul_sum]
  congr 1
  refine sum_congr rfl fun c hc => ?_
  have hgn := natDegree_lt_of_degree (by omega) (hg c (mem_range.1 hc))
  obtain ⟨q, q1, q2, -⟩ := integ_time t0 t1 (g c)
  obtain ⟨r, -, r2, r3⟩ := integ_time t0 t1 (g c ^ 2)
  have hr : r = q ^ 2 := Polynomial.funext fun x => by rw [r2, eval_pow, eval_pow, q2]
  have hq : q = (g c).comp (C ((t1 - t0) / 2) * X + C ((t0 + t1) / 2)) := Polynomial.funext fun x => by
    rw [q2, eval_comp]
    congr 1
    simp [tauToT]
    ring
  have hqc : q.coeff (N - 1) = (g c).coeff (N - 1) * ((t1 - t0) / 2) ^ (N - 1) := by
    rcases hgn.lt_or_eq with hlt | heq
    · rw [coeff_eq_zero_of_natDegree_lt (by omega), coeff_eq_zero_of_natDegree_lt hlt, zero_mul]
    · have hL : (C ((t1 - t0) / 2) * X + C ((t0 + t1) / 2) : ℝ[X]).natDegree = 1 := natDegree_linear hd.ne'
      have := coeff_comp_degree_mul_degree (p := g c) (q := C ((t1 - t0) / 2) * X + C ((t0 + t1) / 2)) (by rw [hL]; omega)
      rw [hL, mul_one, ← hq, heq, leadingCoeff_linear hd.ne', leadingCoeff, heq] at this
      exact this
  have e2 : ∑ i ∈ range N, w i * a i c ^ 2 = ∑ i ∈ range N, w i * q.eval (arr (LGL N) i) ^ 2 :=
    sum_congr rfl fun i hi => by rw [ha i (mem_range.1 hi) c (mem_range.1 hc), q2]
  have e3 : ∫ t in t0..t1, (g c).eval t ^ 2 = (t1 - t0) / 2 * ∫ x in (-1 : ℝ)..1, q.eval x ^ 2 := by
    have := r3
    rw [hr] at this
    simpa only [integ, eval_pow] using this
  rw [e2, k2 q (q1.trans hgn), e3, hqc]
  ring

example : "D2" ∈ ["LGL", "D2"] ∧ (0 : ℝ) < 1 ∧ (X : ℝ[X]).degree < (2 : ℕ) := by
  refine ⟨by decide, by norm_num, ?_⟩
  rw [degree_X]; norm_num

/-- C169 is false for Lobatto points also apart from the factor of C67: the control `2t - 1` on two points. -/
theorem C169_refuted : ∃ v, uSqCost "LGL" 2 2 2 0 1 1 (fun i _ => if i = 0 then -1 else 1) = .ok v ∧
    2 * ∫ t in (0 : ℝ)..1, (2 * t - 1) ^ 2 < v := by
  obtain ⟨κ, k1, coll, h1, h2⟩ := C169_lobatto (scheme := "LGL") (by decide) (order := 2) (by norm_num) (N := 2) le_rfl 2
    (t0 := 0) (t1 := 1) (by norm_num) 1
  have hc : coll = [-1, 1] := by
    simp [collPoints] at h1
    rw [← h1]
    have hr : realRoots (derivative (legendre 1)) = [] := by
      have hl := legendre_threeTerm
      have hdd : (derivative (legendre 1)).natDegree = 0 := by
        have := degree_derivative_eq (legendre 1) (by rw [hl.deg]; omega)
        rw [hl.deg] at this
        exact natDegree_eq_of_degree_eq_some this
      unfold realRoots
      rw [eq_C_of_natDegree_eq_zero hdd, roots_C]
      simp
    simp [LGL, hr]
  have hd : (C 2 * X + C (-1) : ℝ[X]).degree < (2 : ℕ) := by
    rw [degree_linear (by norm_num)]; norm_num
  have := h2 (fun i _ => if i = 0 then -1 else 1) (fun _ => C 2 * X + C (-1)) (fun _ _ => hd) (by
    intro i hi c _
    rw [hc]
    interval_cases i <;> simp [tauToT, arr] <;> norm_num)
  refine ⟨_, this, ?_⟩
  simp only [range_one, sum_singleton]
  have e : ∫ t in (0 : ℝ)..1, (C 2 * X + C (-1) : ℝ[X]).eval t ^ 2 = ∫ t in (0 : ℝ)..1, (2 * t - 1) ^ 2 := by
    congr 1
    funext t
    simp
    ring
  rw [e]
  have : (C 2 * X + C (-1) : ℝ[X]).coeff (2 - 1) = 2 := by simp [coeff_X, coeff_C, coeff_one]
  rw [this]
  linarith

/-! ## Segments -/

theorem segment_cost {m : ℕ} {scheme : String} (hs : scheme ∈ legendreSchemes) (hl : lost scheme ≤ 1) {W : ℕ → ℕ → ℝ}
    (hW : ∀ p, minPoints scheme ≤ p → ∃ w, getWeights p scheme 2 "u" = .ok w ∧ ∀ i < p, W p i = w i) :
    ∀ (ps : List ℕ) (h : List ℝ), ps.length = h.length → (∀ p ∈ ps, minPoints scheme ≤ p) →
      ∀ (off : ℕ) (t : ℝ) (g : ℕ → Fin m → ℝ[X]) (a : ℕ → Fin m → ℝ),
      (∀ k < ps.length, ∀ j, (g k j).degree < ps.getD k 0) →
      (∀ k < ps.length, ∃ coll, collPoints (ps.getD k 0) scheme = .ok coll ∧ ∀ i < ps.getD k 0, ∀ j,
        a (off + (ps.take k).sum + i) j
          = (g k j).eval (tauToT (arr coll i) (t + (h.take k).sum) (t + (h.take (k + 1)).sum))) →
      Ph.segmentSquares W a off ps h
        = 2 * ∑ k ∈ range ps.length, ∑ j, ∫ s in (t + (h.take k).sum)..(t + (h.take (k + 1)).sum), (g k j).eval s ^ 2
  | [], _, _, _, _, _, _, _, _, _ => by simp [Ph.segmentSquares]
  | p :: ps, [], hlen, _, _, _, _, _, _, _ => by simp at hlen
  | p :: ps, h :: hs', hlen, hp, off, t, g, a, hg, ha => by
    have hp0 := hp p (by simp)
    have ih := segment_cost hs hl hW ps hs' (by simpa using hlen) (fun q hq => hp q (by simp [hq])) (off + p) (t + h)
      (fun k => g (k + 1)) a (fun k hk j => by simpa using hg (k + 1) (by simpa using hk) j) (fun k hk => by
        obtain ⟨coll, c1, c2⟩ := ha (k + 1) (by simpa using hk)
        refine ⟨coll, by simpa using c1, fun i hi j => ?_⟩
        have := c2 i (by simpa using hi) j
        simpa [add_assoc] using this)
    rw [Ph.segmentSquares, ih, List.length_cons, sum_range_succ', mul_add, add_comm]
    congr 1
    · simp [add_assoc]
    · obtain ⟨w, w1, w2⟩ := hW p hp0
      obtain ⟨coll, w', k1, k2, k3⟩ := weights_square hs hl (order := 2) (by omega) hp0
      rw [w1] at k2
      obtain rfl := Except.ok.inj k2
      obtain ⟨coll', c1, c2⟩ := ha 0 (by simp)
      simp only [List.getD_cons_zero] at c1 c2
      rw [k1] at c1
      obtain rfl := Except.ok.inj c1
      rw [mul_sum, mul_sum]
      refine sum_congr rfl fun j _ => ?_
      have e := scaled_square (legendre_one_le hs hp0) k3 (g := g 0 j) (by simpa using hg 0 (by simp) j)
        (a := fun i => a (off + i) j) (t0 := t) (t1 := t + h) (fun i hi => by simpa using c2 i hi j)
      simp only [List.take_zero, List.sum_nil, add_zero, zero_add, List.take_succ_cons, List.sum_cons]
      rw [← e, add_sub_cancel_left]
      congr 1
      exact sum_congr rfl fun i hi => by rw [w2 i (mem_range.1 hi)]

/-- C169 for segmented problems: with the weights of the package, the cost of the controls is twice the integral of the square
of the control that interpolates, segment by segment, the values at the collocation points. -/
theorem C169_segments_partial {m : ℕ} {scheme : String} (hs : scheme ∈ legendreSchemes) (hl : lost scheme ≤ 1)
    {W : Ph.Weights}
    (hW : ∀ p, minPoints scheme ≤ p → ∃ w, getWeights p scheme 2 "u" = .ok w ∧ ∀ i < p, W p scheme 2 "u" i = w i)
    {ps : List ℕ} {h : List ℝ} (hlen : ps.length = h.length) (hp : ∀ p ∈ ps, minPoints scheme ≤ p)
    (u : ℕ → Fin m → ℝ) (rows : ℕ → ℕ)
    (hrows : ∀ i < ps.sum, ((Ph.segRows 1 ps).map (·.1)).flatten[i]? = some (rows i))
    (t : ℝ) (g : ℕ → Fin m → ℝ[X]) (hg : ∀ k < ps.length, ∀ j, (g k j).degree < ps.getD k 0)
    (ha : ∀ k < ps.length, ∃ coll, collPoints (ps.getD k 0) scheme = .ok coll ∧ ∀ i < ps.getD k 0, ∀ j,
        u (rows ((ps.take k).sum + i)) j
          = (g k j).eval (tauToT (arr coll i) (t + (h.take k).sum) (t + (h.take (k + 1)).sum))) :
    Ph.uSqCost W scheme ps h u
      = .ok (2 * ∑ k ∈ range ps.length, ∑ j, ∫ s in (t + (h.take k).sum)..(t + (h.take (k + 1)).sum), (g k j).eval s ^ 2) := by
  rw [Ph.C35_u_sq_cost W scheme ps h u rows hrows]
  congr 1
  exact segment_cost hs hl hW ps h hlen hp 0 t g _ hg (by simpa only [zero_add] using ha)

/-- Two segments with Radau points and one control. -/
example : "LGR" ∈ legendreSchemes ∧ lost "LGR" ≤ 1 ∧ (∀ p ∈ [2, 3], minPoints "LGR" ≤ p) ∧
    ((Ph.segRows 1 [2, 3]).map (·.1)).flatten = [1, 2, 4, 5, 6] := by
  refine ⟨by decide, by decide, by decide, ?_⟩
  decide

end Chords.Props
