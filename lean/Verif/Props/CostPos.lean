import Verif.Props.Costs
import Verif.Props.CostExact
import Verif.Props.WeightPos

/-! # C184: the cost of the controls is never negative -/

namespace Chords.Props
open Finset Polynomial Chords.Points Chords.Spec Chords.Bary Chords.Gauss Chords.PsCost Chords.TimeScale

/-! ## The weights -/

/-- C184, the weights: those of `get_weights` are never negative and add up to 2, for the Jacobi schemes up to order two. The only
one that is zero is the first of "JGR" of order two with an even number of points. The points are in `[-1, 1]`. -/
theorem C184_weights {scheme : String} (hs : scheme ∈ implemented) {order : ℕ} (ho : 1 ≤ order) (hj : scheme ∈ jacobiSchemes → order ≤ 2)
    {N : ℕ} (hN : minPoints scheme ≤ N) :
    ∃ coll w, collPoints N scheme order = .ok coll ∧ getWeights N scheme order "u" = .ok w ∧
      (∀ i < N, 0 ≤ w i ∧ (w i = 0 ↔ scheme = "JGR" ∧ order = 2 ∧ Even N ∧ i = 0) ∧ -1 ≤ arr coll i ∧ arr coll i ≤ 1) ∧
      ∑ i ∈ range N, w i = 2 := by
  obtain ⟨coll, w, h1, h2, h3, h4⟩ := C28_u hs ho hN
  obtain ⟨L, k1, k2⟩ := coll_shape hs ho hN
  rw [h1] at k1
  obtain rfl := Except.ok.inj k1
  refine ⟨coll, w, h1, h2, ?_, h3⟩
  have pos : (∀ i < N, ¬(scheme = "JGR" ∧ order = 2 ∧ Even N ∧ i = 0) → 0 < w i) ∧
      (scheme = "JGR" ∧ order = 2 ∧ Even N → w 0 = 0) := by
    by_cases hl : scheme ∈ legendreSchemes
    · have hJ : scheme ∉ jacobiSchemes := by
        revert hl
        simp only [legendreSchemes, List.mem_cons, List.not_mem_nil, or_false]
        rintro (rfl | rfl | rfl | rfl | rfl | rfl | rfl) <;> decide
      refine ⟨fun i hi _ => pos_family (List.mem_append_left _ hl) ho (fun h => absurd h hJ) hN h1 h4 i hi, fun h => ?_⟩
      rw [h.1] at hJ
      exact absurd hJ (by decide)
    by_cases hc : scheme ∈ chebSchemes
    · refine ⟨fun i hi _ => pos_chebyshev hc ho hN h1 h4 i hi, fun h => ?_⟩
      rw [h.1] at hc
      exact absurd hc (by decide)
    by_cases hm : scheme = "LGLm"
    · subst hm
      have e : coll = LGLm N := by
        simp [collPoints] at h1
        exact h1.symm
      subst e
      exact ⟨fun i hi _ => pos_LGLm (by simpa [minPoints] using hN) h4 i hi, fun h => absurd h.1 (by decide)⟩
    have hJ : scheme ∈ jacobiSchemes := by
      revert hs hl hc hm
      simp only [implemented_eq, legendreSchemes, chebSchemes, jacobiSchemes, List.mem_cons, List.not_mem_nil, or_false]
      rintro (rfl | rfl | rfl | rfl | rfl | rfl | rfl | rfl | rfl | rfl | rfl | rfl | rfl | rfl | rfl | rfl | rfl | rfl | rfl | rfl) <;> simp
    rcases (by have := hj hJ; omega : order = 1 ∨ order = 2) with rfl | rfl
    · exact ⟨fun i hi _ => pos_family (List.mem_append_right _ hJ) ho (fun _ => rfl) hN h1 h4 i hi, fun h => absurd h.2.1 (by decide)⟩
    · obtain ⟨p1, p2⟩ := pos_jacobi_two hJ hN h1 h4
      refine ⟨fun i hi h => ?_, fun h => (p2 h.1).1 h.2.2⟩
      by_cases h' : scheme = "JGR" ∧ i = 0
      · rw [h'.2]
        refine (p2 h'.1).2 ?_
        rw [← Nat.not_even_iff_odd]
        exact fun he => h ⟨h'.1, rfl, he, h'.2⟩
      · exact p1 i hi fun hJ h0 => h' ⟨hJ, h0⟩
  intro i hi
  have hb := shape_arr k2 hi
  by_cases h : scheme = "JGR" ∧ order = 2 ∧ Even N ∧ i = 0
  · have : w i = 0 := by rw [h.2.2.2]; exact pos.2 ⟨h.1, h.2.1, h.2.2.1⟩
    exact ⟨this.ge, ⟨fun _ => h, fun _ => this⟩, hb⟩
  · have := pos.1 i hi h
    exact ⟨this.le, ⟨fun h0 => absurd h0 this.ne', fun h' => absurd h' h⟩, hb⟩

/-- Four Jacobi-Lobatto points of order two, and four points of Chebyshev of order three. -/
example : "JGL" ∈ implemented ∧ ("JGL" ∈ jacobiSchemes → 2 ≤ 2) ∧ minPoints "JGL" ≤ 4 ∧ "CG" ∈ implemented ∧
    ("CG" ∈ jacobiSchemes → 3 ≤ 2) ∧ minPoints "CG" ≤ 4 := by
  refine ⟨by decide, fun _ => le_rfl, by decide, by decide, fun h => absurd h (by decide), by decide⟩

theorem sum_sq_pos {m N : ℕ} {w : ℕ → ℝ} (hw : ∀ i < N, 0 ≤ w i) (a : ℕ → ℕ → ℝ) :
    0 ≤ ∑ c ∈ range m, ∑ i ∈ range N, w i * a i c ^ 2 ∧
    (∑ c ∈ range m, ∑ i ∈ range N, w i * a i c ^ 2 = 0 ↔ ∀ i < N, w i ≠ 0 → ∀ c < m, a i c = 0) := by
  have h0 : ∀ i ∈ range N, ∀ c, 0 ≤ w i * a i c ^ 2 := fun i hi c => mul_nonneg (hw i (mem_range.1 hi)) (sq_nonneg _)
  refine ⟨sum_nonneg fun c _ => sum_nonneg fun i hi => h0 i hi c, ?_⟩
  rw [sum_eq_zero_iff_of_nonneg fun c _ => sum_nonneg fun i hi => h0 i hi c]
  constructor
  · intro h i hi hwi c hc
    have := h c (mem_range.2 hc)
    rw [sum_eq_zero_iff_of_nonneg fun i hi => h0 i hi c] at this
    have := this i (mem_range.2 hi)
    rcases mul_eq_zero.1 this with h' | h'
    · exact absurd h' hwi
    · exact pow_eq_zero_iff (by norm_num) |>.1 h'
  · intro h c hc
    refine sum_eq_zero fun i hi => ?_
    by_cases hwi : w i = 0
    · rw [hwi, zero_mul]
    · rw [h i (mem_range.1 hi) hwi c (mem_range.1 hc)]
      ring

/-- C184 for node based pseudospectral problems, with the Jacobi schemes up to order two: never negative, and zero only when the
controls are zero at every collocation point, but for the first of "JGR" of order two with an even number of them. -/
theorem C184_pseudospectral_partial {scheme : String} (hs : scheme ∈ implemented) {order : ℕ} (ho : 1 ≤ order)
    (hj : scheme ∈ jacobiSchemes → order ≤ 2) {N : ℕ} (hN : minPoints scheme ≤ N) (n_arr : ℕ) {t0 t1 : ℝ} (ht : t0 < t1) (m : ℕ)
    (a : ℕ → ℕ → ℝ) :
    ∃ v, uSqCost scheme N n_arr order t0 t1 m a = .ok v ∧ 0 ≤ v ∧
      (v = 0 ↔ ∀ i < N, ¬(scheme = "JGR" ∧ order = 2 ∧ Even N ∧ i = 0) → ∀ c < m, a i c = 0) := by
  obtain ⟨coll, w, h1, h2, h3, -⟩ := C184_weights hs ho hj hN
  have p := sum_sq_pos (m := m) (fun i hi => (h3 i hi).1) a
  have ht' : 0 < t1 - t0 := by linarith
  refine ⟨(t1 - t0) * ∑ c ∈ range m, ∑ i ∈ range N, w i * a i c ^ 2, ?_, mul_nonneg ht'.le p.1, ?_⟩
  · simp only [uSqCost, quadCost, PsCost.quadIntCas, if_true, h2, bind, Except.bind, pure, Except.pure]
  · rw [mul_eq_zero, or_iff_right ht'.ne', p.2]
    exact forall₂_congr fun i hi => by rw [Ne, (h3 i hi).2.1]

/-- C184 for bottom-up and top-down problems, with any scheme: never negative, and zero only when the controls are zero at every
collocation point, but for the first of "JGR" with an even number of them. -/
theorem C184_bu_partial {scheme : String} (hs : scheme ∈ implemented) {N : ℕ} (hN : minPoints scheme ≤ N) {t0 t1 : ℝ} (ht : t0 < t1) (m : ℕ)
    (a : ℕ → ℕ → ℝ) :
    ∃ v, buUSqCost scheme N t0 t1 m a = .ok v ∧ 0 ≤ v ∧
      (v = 0 ↔ ∀ i < N, ¬(scheme = "JGR" ∧ Even N ∧ i = 0) → ∀ c < m, a i c = 0) := by
  obtain ⟨v, h1, h2, h3⟩ := C184_pseudospectral_partial hs (order := 2) (by omega) (fun _ => le_rfl) hN 0 ht m a
  refine ⟨v, ?_, h2, by simpa using h3⟩
  rw [← h1]
  simp only [buUSqCost, uSqCost, quadCost, if_true, bind, Except.bind]

/-- Three Lobatto points, and four points of "JGR", on a horizon of length one. -/
example : "LGL" ∈ implemented ∧ minPoints "LGL" ≤ 3 ∧ "JGR" ∈ implemented ∧ minPoints "JGR" ≤ 4 ∧ (0 : ℝ) < 1 :=
  ⟨by decide, by decide, by decide, by decide, by norm_num⟩

/-- C184 for segmented problems, with any scheme: never negative, and zero only when the controls are zero at every collocation
point, but for the first of "JGR" in the segments with an even number of them. -/
theorem C184_segments_partial {m : ℕ} {scheme : String} (hs : scheme ∈ implemented) {W : Ph.Weights}
    (hW : ∀ p, minPoints scheme ≤ p → ∃ w, getWeights p scheme 2 "u" = .ok w ∧ ∀ i < p, W p scheme 2 "u" i = w i)
    {ps : List ℕ} {h : List ℝ} (hlen : ps.length = h.length) (hp : ∀ p ∈ ps, minPoints scheme ≤ p) (hh : ∀ d ∈ h, 0 < d)
    (u : ℕ → Fin m → ℝ) (rows : ℕ → ℕ)
    (hrows : ∀ i < ps.sum, ((Ph.segRows 1 ps).map (·.1)).flatten[i]? = some (rows i)) :
    ∃ v, Ph.uSqCost W scheme ps h u = .ok v ∧ 0 ≤ v ∧
      (v = 0 ↔ ∀ k < ps.length, ∀ i < ps.getD k 0, ¬(scheme = "JGR" ∧ Even (ps.getD k 0) ∧ i = 0) →
        ∀ j, u (rows ((ps.take k).sum + i)) j = 0) := by
  refine ⟨_, Ph.C35_u_sq_cost W scheme ps h u rows hrows, ?_⟩
  have key : ∀ (ps : List ℕ) (h : List ℝ), ps.length = h.length → (∀ p ∈ ps, minPoints scheme ≤ p) → (∀ d ∈ h, 0 < d) →
      ∀ (off : ℕ) (a : ℕ → Fin m → ℝ), 0 ≤ Ph.segmentSquares (fun p i => W p scheme 2 "u" i) a off ps h ∧
        (Ph.segmentSquares (fun p i => W p scheme 2 "u" i) a off ps h = 0 ↔ ∀ k < ps.length, ∀ i < ps.getD k 0,
          ¬(scheme = "JGR" ∧ Even (ps.getD k 0) ∧ i = 0) → ∀ j, a (off + (ps.take k).sum + i) j = 0) := by
    intro ps
    induction ps with
    | nil => intro h _ _ _ off a; simp [Ph.segmentSquares]
    | cons p ps ih =>
      intro h hlen hp hh off a
      cases h with
      | nil => simp at hlen
      | cons d h =>
        obtain ⟨i1, i2⟩ := ih h (by simpa using hlen) (fun q hq => hp q (by simp [hq])) (fun q hq => hh q (by simp [hq])) (off + p) a
        have hd := hh d (by simp)
        obtain ⟨w, w1, w2⟩ := hW p (hp p (by simp))
        obtain ⟨coll, w', -, k2, k3, -⟩ := C184_weights hs (order := 2) (by omega) (fun _ => le_rfl) (hp p (by simp))
        rw [w1] at k2
        obtain rfl := Except.ok.inj k2
        have hn : ∀ i ∈ range p, ∀ j, 0 ≤ W p scheme 2 "u" i * a (off + i) j ^ 2 := fun i hi j => by
          rw [w2 i (mem_range.1 hi)]
          exact mul_nonneg (k3 i (mem_range.1 hi)).1 (sq_nonneg _)
        have hs0 : 0 ≤ ∑ j, ∑ i ∈ range p, W p scheme 2 "u" i * a (off + i) j ^ 2 := sum_nonneg fun j _ => sum_nonneg fun i hi => hn i hi j
        rw [Ph.segmentSquares]
        refine ⟨add_nonneg (mul_nonneg hd.le hs0) i1, ?_⟩
        rw [add_eq_zero_iff_of_nonneg (mul_nonneg hd.le hs0) i1, i2, mul_eq_zero, or_iff_right hd.ne',
          sum_eq_zero_iff_of_nonneg fun j _ => sum_nonneg fun i hi => hn i hi j]
        constructor
        · rintro ⟨z1, z2⟩ k hk i hi hne j
          cases k with
          | zero =>
            simp only [List.getD_cons_zero] at hi hne
            have := z1 j (mem_univ _)
            rw [sum_eq_zero_iff_of_nonneg fun i hi => hn i hi j] at this
            have := this i (mem_range.2 hi)
            rw [w2 i hi] at this
            rcases mul_eq_zero.1 this with h' | h'
            · exact absurd (by simpa using (k3 i hi).2.1.1 h') hne
            · simpa using pow_eq_zero_iff (by norm_num) |>.1 h'
          | succ k =>
            have := z2 k (by simpa using hk) i (by simpa using hi) (by simpa using hne) j
            simpa [add_assoc] using this
        · intro z
          refine ⟨fun j _ => sum_eq_zero fun i hi => ?_, fun k hk i hi hne j => ?_⟩
          · have hi' := mem_range.1 hi
            by_cases hz : w i = 0
            · rw [w2 i hi', hz, zero_mul]
            · have := z 0 (by simp) i (by simpa using hi') (fun h => hz ((k3 i hi').2.1.2 ⟨h.1, rfl, by simpa using h.2.1, h.2.2⟩)) j
              simp at this
              rw [this]
              ring
          · have := z (k + 1) (by simpa using hk) i (by simpa using hi) (by simpa using hne) j
            simpa [add_assoc] using this
  simpa using key ps h hlen hp hh 0 (fun i => u (rows i))

/-- Two segments with Lobatto points. -/
example : "LGL" ∈ implemented ∧ (∀ p ∈ [2, 3], minPoints "LGL" ≤ p) ∧ (∀ d ∈ [(1 : ℝ), 2], 0 < d) ∧
    ((Ph.segRows 1 [2, 3]).map (·.1)).flatten = [1, 2, 4, 5, 6] := by
  refine ⟨by decide, by decide, by simp, ?_⟩
  decide

/-! ## Jacobi-Radau points -/

theorem JGR_two {order : ℕ} : JGR 2 order = [-1, (2 - (order : ℝ)) / (order + 2)] := by
  have h : jacobi ((order : ℝ) - 1) 1 1 = C ((order : ℝ) / 2 + 1) * X + C (((order : ℝ) - 2) / 2) := by
    rw [jacobi]
    congr 3 <;> ring_nf
  have hc : (order : ℝ) / 2 + 1 ≠ 0 := by positivity
  have hr : (C ((order : ℝ) / 2 + 1) * X + C (((order : ℝ) - 2) / 2)).roots = {(2 - (order : ℝ)) / (order + 2)} := by
    rw [roots_C_mul_X_add_C _ hc]
    congr 1
    have : (order : ℝ) + 2 ≠ 0 := by positivity
    field_simp
    ring
  simp only [JGR, realRoots, h, hr, Multiset.sort_singleton]
  rfl

/-- Two Jacobi-Radau points: a control that is 1 at the first of them and 0 at the second costs `(2 - order) / 2` times the
horizon. -/
theorem JGR_cost {order : ℕ} (ho : 1 ≤ order) :
    ∃ w, getWeights 2 "JGR" order "u" = .ok w ∧ w 0 = (2 - (order : ℝ)) / 2 := by
  obtain ⟨coll, w, h1, h2, -, h4⟩ := C28_u (scheme := "JGR") (by rw [implemented_eq]; decide) ho (N := 2) (by decide)
  have hc : coll = JGR 2 order := by
    simp [collPoints] at h1
    exact h1.symm
  rw [JGR_two] at hc
  refine ⟨w, h2, ?_⟩
  obtain ⟨x, hx⟩ : ∃ x, x = (2 - (order : ℝ)) / (order + 2) := ⟨_, rfl⟩
  have := h4 (X - C x) (by rw [degree_X_sub_C]; norm_num)
  rw [hc, ← hx] at this
  simp only [eval_sub, eval_X, eval_C, sum_range_succ, sum_range_zero, arr, List.getD_cons_zero, List.getD_cons_succ, sub_self, mul_zero, add_zero,
    zero_add] at this
  rw [intervalIntegral.integral_sub (by simp) (by simp)] at this
  simp at this
  have ho' : (order : ℝ) + 2 ≠ 0 := by positivity
  rw [hx] at this
  field_simp at this
  linarith

/-- C184 is false for Jacobi-Radau points, already with the order of the default and in bottom-up and top-down problems: with an
even number of points the control at the first of them, the start, is free. -/
theorem C184_refuted {N : ℕ} (hN : 1 ≤ N) (he : Even N) (n_arr : ℕ) (t0 t1 x : ℝ) :
    uSqCost "JGR" N n_arr 2 t0 t1 1 (fun i _ => if i = 0 then x else 0) = .ok 0 ∧
    buUSqCost "JGR" N t0 t1 1 (fun i _ => if i = 0 then x else 0) = .ok 0 := by
  obtain ⟨coll, w, -, h2, h3, -⟩ := C184_weights (scheme := "JGR") (by decide) (order := 2) (by omega) (fun _ => le_rfl) (N := N)
    (by simpa [minPoints] using hN)
  have h0 : w 0 = 0 := (h3 0 (by omega)).2.1.2 ⟨rfl, rfl, he, rfl⟩
  have z : (t1 - t0) * ∑ c ∈ range 1, ∑ i ∈ range N, w i * (if i = 0 then x else 0) ^ 2 = 0 := by
    rw [sum_eq_zero fun c _ => sum_eq_zero fun i _ => ?_, mul_zero]
    split_ifs with h
    · rw [h, h0, zero_mul]
    · ring
  constructor
  · simp only [uSqCost, quadCost, PsCost.quadIntCas, if_true, h2, bind, Except.bind, pure, Except.pure, z]
  · simp only [buUSqCost, PsCost.quadIntCas, if_true, h2, bind, Except.bind, pure, Except.pure, z]

example : 1 ≤ 4 ∧ Even 4 := by decide

/-- With a higher order it costs less than nothing: the optimiser is rewarded for a large control at the start. -/
theorem C184_negative_refuted {order : ℕ} (ho : 3 ≤ order) (n_arr : ℕ) {t0 t1 : ℝ} (ht : t0 < t1) (b : ℝ) :
    ∃ x v, uSqCost "JGR" 2 n_arr order t0 t1 1 (fun i _ => if i = 0 then x else 0) = .ok v ∧ v < b := by
  obtain ⟨w, h2, h3⟩ := JGR_cost (order := order) (by omega)
  have ho' : (3 : ℝ) ≤ order := by exact_mod_cast ho
  have hd : 0 < t1 - t0 := by linarith
  have e : ∀ x : ℝ, uSqCost "JGR" 2 n_arr order t0 t1 1 (fun i _ => if i = 0 then x else 0) = .ok ((t1 - t0) * (w 0 * x ^ 2)) := by
    intro x
    simp only [uSqCost, quadCost, PsCost.quadIntCas, if_true, h2, bind, Except.bind, pure, Except.pure]
    simp [sum_range_succ]
  obtain ⟨x, hx⟩ : ∃ x : ℝ, x = 2 * (|b| + 1) / (t1 - t0) + 1 := ⟨_, rfl⟩
  refine ⟨x, _, e x, ?_⟩
  have h1 : (t1 - t0) * (x - 1) = 2 * (|b| + 1) := by rw [hx]; field_simp; ring
  have hb : 0 ≤ |b| := abs_nonneg b
  have hx1 : 1 ≤ x := by rw [hx]; have : 0 ≤ 2 * (|b| + 1) / (t1 - t0) := by positivity
                         linarith
  have h2' : w 0 ≤ -(1 / 2) := by rw [h3]; linarith
  have h4 : (t1 - t0) * x ≤ (t1 - t0) * x ^ 2 := by nlinarith
  have h5 : 2 * (|b| + 1) ≤ (t1 - t0) * x ^ 2 := by linarith
  have h6 : (t1 - t0) * (w 0 * x ^ 2) = w 0 * ((t1 - t0) * x ^ 2) := by ring
  rw [h6]
  have h7 := neg_abs_le b
  nlinarith

example : (3 : ℕ) ≤ 3 ∧ (0 : ℝ) < 1 := ⟨le_rfl, by norm_num⟩

end Chords.Props

namespace Chords.Costs
open Finset Chords.Spec

/-- The middle values that enter `u_sq_cost`. -/
def middle {m : ℕ} (scheme : String) (a : Controls m) : ℕ → Fin m → ℝ := if scheme = "hsj_parab_mod" then a.u_j else a.u_c

/-- C184 for the equispaced problems, with any scheme: never negative, and zero only when the controls at the grid points and,
in the schemes that have them, the middle ones are zero. -/
theorem C184_equispaced {m : ℕ} (scheme : String) {T : ℝ} (hT : 0 < T) {N : ℕ} (hN : 0 < N) (a : Controls m) :
    0 ≤ uSqCost scheme T N a ∧ (uSqCost scheme T N a = 0 ↔ (∀ i ≤ N, ∀ j, a.u i j = 0) ∧
      (pyIn "parab" scheme = true → ∀ i < N, ∀ j, middle scheme a i j = 0)) := by
  have hN' : (0 : ℝ) < N := by exact_mod_cast hN
  have nn : ∀ (f : ℕ → Fin m → ℝ) (s t : ℕ) (j : Fin m), 0 ≤ sum1 (sqArr f) s t j := fun f s t j => sum_nonneg fun i _ => sq_nonneg _
  have z : ∀ (f : ℕ → Fin m → ℝ) (s t : ℕ) (j : Fin m), sum1 (sqArr f) s t j = 0 ↔ ∀ i, s ≤ i → i < t → f i j = 0 := by
    intro f s t j
    rw [sum1, sum_eq_zero_iff_of_nonneg (f := fun i => sqArr f i j) fun i _ => sq_nonneg _]
    simp only [mem_Ico, sqArr, pow_eq_zero_iff (two_ne_zero), and_imp]
  have full : ∀ (g : Fin m → ℝ) (d : ℝ), 0 < d → (∀ j, 0 ≤ g j) → 0 ≤ T * sum2 (fun j => g j / d) ∧
      (T * sum2 (fun j => g j / d) = 0 ↔ ∀ j, g j = 0) := by
    intro g d hd hg
    have h0 : ∀ j ∈ (univ : Finset (Fin m)), 0 ≤ g j / d := fun j _ => div_nonneg (hg j) hd.le
    refine ⟨mul_nonneg hT.le (sum_nonneg h0), ?_⟩
    rw [mul_eq_zero, or_iff_right hT.ne', sum2, sum_eq_zero_iff_of_nonneg h0]
    simp only [mem_univ, true_imp_iff, div_eq_zero_iff, hd.ne', or_false]
  unfold uSqCost
  by_cases hp : pyIn "parab" scheme = true
  · simp only [hp, if_true]
    by_cases hj : (pyIn "j" scheme && decide (scheme ≠ "hsj_parab_mod")) = true
    · simp only [hj, if_true]
      have := full (fun j => 25 * sum1 (sqArr (if scheme = "hsj_parab_mod" then a.u_j else a.u_c)) 0 N j + 3 * sum1 (sqArr a.u) 0 (N + 1 - 1) j
        + 8 * sum1 (sqArr a.u) 1 (N + 1) j) (36 * N) (by positivity) (fun j => by
          have := nn (if scheme = "hsj_parab_mod" then a.u_j else a.u_c) 0 N j
          have := nn a.u 0 (N + 1 - 1) j
          have := nn a.u 1 (N + 1) j
          positivity)
      refine ⟨this.1, this.2.trans ?_⟩
      constructor
      · intro h
        have hh : ∀ j, sum1 (sqArr (middle scheme a)) 0 N j = 0 ∧ sum1 (sqArr a.u) 0 (N + 1 - 1) j = 0 ∧ sum1 (sqArr a.u) 1 (N + 1) j = 0 := fun j => by
          have h1 := nn (middle scheme a) 0 N j
          have h2 := nn a.u 0 (N + 1 - 1) j
          have h3 := nn a.u 1 (N + 1) j
          have h4 := h j
          simp only [middle] at h1 ⊢
          exact ⟨by linarith, by linarith, by linarith⟩
        refine ⟨fun i hi j => ?_, fun _ i hi j => (z _ _ _ _).1 (hh j).1 i (by omega) hi⟩
        rcases Nat.eq_zero_or_pos i with rfl | h0
        · exact (z _ _ _ _).1 (hh j).2.1 0 le_rfl (by omega)
        · exact (z _ _ _ _).1 (hh j).2.2 i h0 (by omega)
      · rintro ⟨h1, h2⟩ j
        have e1 : sum1 (sqArr (if scheme = "hsj_parab_mod" then a.u_j else a.u_c)) 0 N j = 0 := (z _ _ _ _).2 fun i _ hi => h2 trivial i hi j
        rw [e1, (z a.u 0 (N + 1 - 1) j).2 fun i _ hi => h1 i (by omega) j, (z a.u 1 (N + 1) j).2 fun i _ hi => h1 i (by omega) j]
        ring
    · simp only [hj, Bool.false_eq_true, if_false]
      have := full (fun j => 4 * sum1 (sqArr (if scheme = "hsj_parab_mod" then a.u_j else a.u_c)) 0 N j + sum1 (sqArr a.u) 0 (N + 1) j
        + sum1 (sqArr a.u) 1 (N + 1 - 1) j) (6 * N) (by positivity) (fun j => by
          have := nn (if scheme = "hsj_parab_mod" then a.u_j else a.u_c) 0 N j
          have := nn a.u 0 (N + 1) j
          have := nn a.u 1 (N + 1 - 1) j
          positivity)
      refine ⟨this.1, this.2.trans ?_⟩
      constructor
      · intro h
        have hh : ∀ j, sum1 (sqArr (middle scheme a)) 0 N j = 0 ∧ sum1 (sqArr a.u) 0 (N + 1) j = 0 := fun j => by
          have h1 := nn (middle scheme a) 0 N j
          have h2 := nn a.u 0 (N + 1) j
          have h3 := nn a.u 1 (N + 1 - 1) j
          have h4 := h j
          simp only [middle] at h1 ⊢
          exact ⟨by linarith, by linarith⟩
        exact ⟨fun i hi j => (z _ _ _ _).1 (hh j).2 i (by omega) (by omega), fun _ i hi j => (z _ _ _ _).1 (hh j).1 i (by omega) hi⟩
      · rintro ⟨h1, h2⟩ j
        have e1 : sum1 (sqArr (if scheme = "hsj_parab_mod" then a.u_j else a.u_c)) 0 N j = 0 := (z _ _ _ _).2 fun i _ hi => h2 trivial i hi j
        rw [e1, (z a.u 0 (N + 1) j).2 fun i _ hi => h1 i (by omega) j, (z a.u 1 (N + 1 - 1) j).2 fun i _ hi => h1 i (by omega) j]
        ring
  · simp only [hp, Bool.false_eq_true, if_false, false_imp_iff, and_true]
    have := full (fun j => sum1 (sqArr a.u) 0 (N + 1) j + sum1 (sqArr a.u) 1 (N + 1 - 1) j) (2 * N) (by positivity) (fun j => by
      have := nn a.u 0 (N + 1) j
      have := nn a.u 1 (N + 1 - 1) j
      positivity)
    refine ⟨this.1, this.2.trans ?_⟩
    constructor
    · intro h i hi j
      have h2 := nn a.u 0 (N + 1) j
      have h3 := nn a.u 1 (N + 1 - 1) j
      have h4 := h j
      exact (z a.u 0 (N + 1) j).1 (by linarith) i (by omega) (by omega)
    · intro h1 j
      rw [(z a.u 0 (N + 1) j).2 fun i _ hi => h1 i (by omega) j, (z a.u 1 (N + 1 - 1) j).2 fun i _ hi => h1 i (by omega) j]
      ring

/-- Two intervals and one control that is 1 in the middle of the first: the cost of "hs_parab" is not zero, that of "hs" is. -/
example : uSqCost "hs_parab" 1 2 (m := 1) ⟨fun _ _ => 0, fun i _ => if i = 0 then 1 else 0, fun _ _ => 0⟩ ≠ 0 ∧
    uSqCost "hs" 1 2 (m := 1) ⟨fun _ _ => 0, fun i _ => if i = 0 then 1 else 0, fun _ _ => 0⟩ = 0 := by
  refine ⟨fun h => ?_, ?_⟩
  · have := ((C184_equispaced "hs_parab" one_pos (N := 2) (by norm_num) _).2.1 h).2 (by decide) 0 (by norm_num) 0
    simp [middle] at this
  · exact (C184_equispaced "hs" one_pos (N := 2) (by norm_num) _).2.2 ⟨fun _ _ _ => rfl, fun h => absurd h (by decide)⟩

end Chords.Costs
