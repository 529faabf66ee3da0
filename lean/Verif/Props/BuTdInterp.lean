import Verif.Model.BuTdInterp
import Verif.Props.PsLin
import Verif.Props.PsCost

/-! # Interpolation of bottom-up and top-down results: C64, C109-C112 -/

namespace Chords.Props
open Finset Polynomial Chords.Points Chords.Spec Chords.Bary Chords.Gauss Chords.TimeScale Chords.BuTd Chords.PsInterp
open Chords.BuTdInterp
open Chords.Ph (linspace searchsorted)

/-- The columns of an array are the values at the instants `ts` of the derivatives `d`, `d + 1`, ... of one polynomial for
each of `n_q` coordinates, in blocks of `n_q` columns. -/
def SamplesAt (Q : ℕ → ℝ[X]) (order n_q d : ℕ) (ts : List ℝ) (a : Arr2) : Prop :=
  a.width = n_q * order ∧ a.rows.length = ts.length ∧
    ∀ i < ts.length, ∀ k < order, ∀ j < n_q, rows a.rows i (n_q * k + j) = (derivative^[k + d] (Q j)).eval (arr ts i)

/-! ## Lemmas -/

theorem distinct_time {t0 t1 : ℝ} (ht : t0 ≠ t1) {taus : List ℝ} (hd : Distinct taus.length (arr taus)) :
    Distinct taus.length (arr (taus.map fun τ => tauToT τ t0 t1)) := by
  intro i hi j hj e
  rw [arr_map _ _ hi, arr_map _ _ hj] at e
  apply hd i hi j hj
  have := congrArg (fun x => tToTau x t0 t1) e
  simpa [tToTau_tauToT ht] using this

theorem polyAt_eq {t0 t1 : ℝ} (ht : t0 ≠ t1) {taus : List ℝ} (hn : 1 ≤ taus.length)
    (hd : Distinct taus.length (arr taus)) {p : ℝ[X]} {y : ℕ → ℕ → ℝ} {c : ℕ} (hp : p.degree < taus.length)
    (hy : ∀ i < taus.length, y i c = p.eval (tauToT (arr taus i) t0 t1)) (t : ℝ) :
    polyAt taus t0 t1 y t c = p.eval t := by
  unfold polyAt baryPoly2d
  simp only [List.length_map]
  rw [baryPoly_eq (distinct_time ht hd) hn, interpolate_self (distinct_time ht hd) hp]
  intro i hi
  rw [arr_map _ _ hi, hy i hi]

theorem dMat_vProd {n : ℕ} {t : ℕ → ℝ} (h : Distinct n t) (hn : 1 ≤ n) {i j : ℕ} (hi : i < n) (hj : j < n) :
    dMat n t (vProd n t) i j = dMat n t (vSum n t) i j := by
  obtain ⟨c, hc, hv⟩ := vSum_eq h hn
  have hw : ∀ i, vProd n t i = Lagrange.nodalWeight (range n) t i := by
    intro i; unfold vProd Lagrange.nodalWeight; rw [prod_inv_distrib, one_div]
  have e : ∀ j < n, vProd n t j / vProd n t i = vSum n t j / vSum n t i := by
    intro j hj
    rw [hv i hi, hv j hj, hw, hw, mul_div_mul_left _ _ hc]
  by_cases hij : i = j
  · subst hij
    simp only [dMat, if_true]
    congr 1
    apply sum_congr rfl
    intro k hk
    split_ifs
    · rfl
    · rw [e k (mem_range.1 hk)]
  · rw [dMat_off hij, dMat_off hij, e j hj]

theorem higher_eq {t_x : List ℝ} (h : Distinct t_x.length (arr t_x)) (hn : 1 ≤ t_x.length) {p : ℝ[X]}
    (hp : p.degree < t_x.length) {y : List Row} {c : ℕ} (hy : ∀ i < t_x.length, rows y i c = p.eval (arr t_x i)) (k : ℕ)
    (t : ℝ) : higher t_x y k t c = (derivative^[k] p).eval t := by
  have key : ∀ k, ∀ i < t_x.length, (matVec t_x.length
      (dMat t_x.length (arr t_x) (vProd t_x.length (arr t_x))))^[k] (fun j => rows y j c) i
        = (derivative^[k] p).eval (arr t_x i) := by
    intro k
    induction k with
    | zero => exact hy
    | succ k ih =>
      intro i hi
      rw [Function.iterate_succ_apply', Function.iterate_succ_apply', ← dMat_deriv h (iter_degree_lt k hp) ih hi]
      unfold matVec
      apply sum_congr rfl
      intro j hj
      rw [dMat_vProd h hn hi (mem_range.1 hj)]
  unfold higher baryPoly2d
  rw [baryPoly_eq h hn, interpolate_self h (iter_degree_lt k hp) (key k)]

/-- The functions made by repeated integration are the derivatives of the polynomial. -/
theorem buLevel_eq {t0 t1 : ℝ} (ht : t0 ≠ t1) {order n_q N : ℕ} (hq : 1 ≤ n_q) (hN : 1 ≤ N) {Q : ℕ → ℝ[X]}
    (hQ : ∀ j < n_q, (Q j).degree < (order + N : ℕ)) {top : VFun} (hdim : top.dim = some n_q)
    (htop : ∀ j < n_q, ∀ t, top.val t j = (derivative^[order] (Q j)).eval t) {x_0 : Row}
    (h0 : ∀ k < order, ∀ j < n_q, x_0 (n_q * k + j) = (derivative^[k] (Q j)).eval t0) :
    ∀ ii ≤ order, ∃ g, buLevel top N order n_q t0 t1 x_0 ii = .ok g ∧ (g.dim = some n_q ∨ (g.dim = none ∧ n_q = 1)) ∧
      ∀ j < n_q, ∀ t, g.val t j = (derivative^[order - ii] (Q j)).eval t := by
  intro ii
  induction ii with
  | zero => intro _; exact ⟨top, rfl, Or.inl hdim, htop⟩
  | succ ii ih =>
    intro hii
    obtain ⟨g, hg, hgd, hgv⟩ := ih (by omega)
    have hdeg : ∀ c < n_q, (derivative^[order - ii] (Q c)).degree < (N - 1 + ii + 1 : ℕ) := by
      intro c hc
      have := hQ c hc
      rw [degree_lt_iff_coeff_zero] at this ⊢
      intro m hm
      rw [coeff_iterate_derivative, this (m + (order - ii)) (by omega), smul_zero]
    obtain ⟨g', e1, e2, e3⟩ := polyIntegral2d_eq (n := N - 1 + ii) (f := g) (p := fun c => derivative^[order - ii] (Q c))
      hq hgd hdeg hgv ht (y0 := ⟨some n_q, fun c => x_0 (n_q * (order - ii - 1) + c)⟩) (Or.inr rfl)
    refine ⟨g', ?_, ?_, fun j hj t => ?_⟩
    · simp only [buLevel, hg, bind, Except.bind]; exact e1
    · rw [e2]; split_ifs with h
      · exact Or.inr ⟨rfl, h⟩
      · exact Or.inl rfl
    · rw [e3 j hj t]
      simp only [reduceCtorEq, if_false]
      rw [h0 _ (by omega) j hj]
      have : derivative^[order - (ii + 1)] (Q j)
          = C ((derivative^[order - ii - 1] (Q j)).eval t0) + anti t0 (derivative^[order - ii] (Q j)) := by
        apply eq_of_deriv (a := t0)
        · rw [derivative_add, derivative_C, zero_add, anti_deriv, ← Function.iterate_succ_apply' derivative]
          congr 2; omega
        · rw [eval_add, eval_C, anti_eval, add_zero]; rfl
      rw [this, eval_add, eval_C]

theorem lastCols_rows {a : Arr2} {n_q order : ℕ} (hw : a.width = n_q * order) (hq : 1 ≤ n_q) (ho : 1 ≤ order) {i : ℕ}
    (hi : i < a.rows.length) (c : ℕ) : rows (lastCols a n_q) i c = rows a.rows i (n_q * (order - 1) + c) := by
  have e : a.width - n_q = n_q * (order - 1) := by rw [hw, Nat.mul_sub, mul_one]
  simp [rows, lastCols, hi, show n_q ≠ 0 by omega, e]

/-- The rows picked by a slice. -/
theorem pySlice_rows {full coll : List ℝ} {s : Slice} (hs : pySlice s.1 s.2 full = coll) {l : List Row}
    (hl : l.length = full.length) : (pySlice s.1 s.2 l).length = coll.length ∧ ∀ i < coll.length,
      ∃ i' < full.length, arr full i' = arr coll i ∧ ∀ c, rows (pySlice s.1 s.2 l) i c = rows l i' c := by
  have e : l = (List.range full.length).map fun i => l.getD i 0 := by
    apply List.ext_getElem
    · simp [hl]
    · intro i h1 h2; simp [h1]
  have e2 : pySlice s.1 s.2 l = (dynRows full.length s).map fun i => l.getD i 0 := by
    conv_lhs => rw [e]
    rw [pySlice_map]; rfl
  have hlen := rows_length hs
  refine ⟨by rw [e2]; simpa using hlen, fun i hi => ?_⟩
  obtain ⟨h1, h2⟩ := rows_spec hs hi
  refine ⟨_, h1, h2, fun c => ?_⟩
  rw [e2]
  simp [rows, hlen, hi]

theorem col_lt {n_q order k j : ℕ} (hk : k < order) (hj : j < n_q) : n_q * k + j < n_q * order := by
  have : n_q * (k + 1) ≤ n_q * order := Nat.mul_le_mul_left _ hk
  rw [Nat.mul_add] at this; omega

theorem conc_eq (polys : List (ℝ → Row)) {n_q k j : ℕ} (hj : j < n_q) (t : ℝ) :
    conc polys n_q t (n_q * k + j) = polys.getD k (fun _ _ => 0) t j := by
  have h1 : (n_q * k + j) / n_q = k := by
    rw [Nat.mul_add_div (by omega), Nat.div_eq_of_lt hj, add_zero]
  have h2 : (n_q * k + j) % n_q = j := by rw [Nat.mul_add_mod, Nat.mod_eq_of_lt hj]
  rw [conc, h1, h2]

theorem rows_map (l : List ℝ) (f : ℝ → Row) {i : ℕ} (hi : i < l.length) (c : ℕ) : rows (l.map f) i c = f (arr l i) c := by
  simp [rows, arr, hi]

/-- `Polynomial_interpolations_BU` on any data: the polynomials that it evaluates have the given values at the start, and
their highest derivative goes through the rows picked, placed at the points of order 2. -/
theorem polysBu_gen {scheme : String} {order N : ℕ} (ho : 1 ≤ order) (hN : 1 ≤ N) {coll2 : List ℝ}
    (hc2 : buCollPoints N scheme = .ok coll2) (hlen : coll2.length = N) (hd : Distinct N (arr coll2)) {s : Slice}
    (hsl : collIndices scheme = .ok s) {t0 t1 : ℝ} (ht : t0 ≠ t1) {n_q : ℕ} (hq : 1 ≤ n_q) {R : ℕ → ℝ[X]}
    (hR : ∀ j < n_q, (R j).degree < (order + N : ℕ)) {xx_dot : Arr2} {x_0 : Row}
    (hx0 : ∀ k < order, ∀ j < n_q, x_0 (n_q * k + j) = (derivative^[k] (R j)).eval t0)
    (hn : (pySlice s.1 s.2 (lastCols xx_dot n_q)).length = N)
    (hx' : ∀ i < N, ∀ j < n_q, rows (pySlice s.1 s.2 (lastCols xx_dot n_q)) i j
      = (derivative^[order] (R j)).eval (tauToT (arr coll2 i) t0 t1)) :
    ∃ polys, polysBu xx_dot x_0 (n_q * order) scheme order t0 t1 = .ok polys ∧ polys.length = order + 1 ∧
      ∀ k ≤ order, ∀ j < n_q, ∀ t, polys.getD k (fun _ _ => 0) t j = (derivative^[k] (R j)).eval t := by
  have hnq : n_q * order / order = n_q := Nat.mul_div_cancel _ (by omega)
  have hdeg : ∀ j < n_q, (derivative^[order] (R j)).degree < coll2.length := by
    intro j hj
    have := hR j hj
    rw [degree_lt_iff_coeff_zero] at this ⊢
    intro m hm
    rw [coeff_iterate_derivative, this (m + order) (by omega), smul_zero]
  have htop : ∀ j < n_q, ∀ t, polyAt coll2 t0 t1 (rows (pySlice s.1 s.2 (lastCols xx_dot n_q))) t j
      = (derivative^[order] (R j)).eval t := by
    intro j hj t
    apply polyAt_eq ht (by omega) (hlen.symm ▸ hd) (hdeg j hj)
    intro i hi
    exact hx' i (by omega) j hj
  have hlev := buLevel_eq ht hq hN hR (top := ⟨some n_q, polyAt coll2 t0 t1
    (rows (pySlice s.1 s.2 (lastCols xx_dot n_q)))⟩) rfl htop (x_0 := x_0) hx0
  have hlev' : ∀ ii, ∃ g, ii ≤ order → buLevel ⟨some n_q, polyAt coll2 t0 t1
    (rows (pySlice s.1 s.2 (lastCols xx_dot n_q)))⟩ N order n_q t0 t1 x_0 ii = .ok g ∧
      ∀ j < n_q, ∀ t, g.val t j = (derivative^[order - ii] (R j)).eval t := by
    intro ii
    by_cases h : ii ≤ order
    · obtain ⟨g, g1, -, g2⟩ := hlev ii h
      exact ⟨g, fun _ => ⟨g1, g2⟩⟩
    · exact ⟨⟨none, fun _ _ => 0⟩, fun h' => absurd h' h⟩
  choose g hg using hlev'
  have hmap : (List.range (order + 1)).mapM (buLevel ⟨some n_q, polyAt coll2 t0 t1
    (rows (pySlice s.1 s.2 (lastCols xx_dot n_q)))⟩ N order n_q t0 t1 x_0) = .ok ((List.range (order + 1)).map g) :=
    Exc.mapM_eq fun ii hii => (hg ii (by have := List.mem_range.1 hii; omega)).1
  refine ⟨((((List.range (order + 1)).map g).map VFun.val).reverse), ?_, by simp, fun k hk j hj t => ?_⟩
  · simp only [polysBu, show order ≠ 0 by omega, if_false, hnq, hsl, PsInterp.lift, bind, Except.bind, hn, hc2,
      hmap, pure, Except.pure]
  · have e : ((((List.range (order + 1)).map g).map VFun.val).reverse).getD k (fun _ _ => 0) = (g (order - k)).val := by
      rw [List.getD_eq_getElem _ _ (by simp; omega), List.getElem_reverse]
      simp
    rw [e, (hg (order - k) (by omega)).2 j hj t, show order - (order - k) = k by omega]

/-- What bottom-up interpolation reads of a result: the state at the start, and the highest derivative at the collocation
points. In a result in segments the highest derivative at the end of a segment may be that of the next one. -/
structure Feasible (Q : ℕ → ℝ[X]) (order n_q : ℕ) (full coll : List ℝ) (t0 t1 : ℝ) (xx xx_dot : Arr2) : Prop where
  width : xx.width = n_q * order
  length : xx.rows.length = full.length
  start : ∀ k < order, ∀ j < n_q, rows xx.rows 0 (n_q * k + j) = (derivative^[k] (Q j)).eval t0
  width' : xx_dot.width = n_q * order
  length' : xx_dot.rows.length = full.length
  highest : ∀ i < full.length, arr full i ∈ coll → ∀ j < n_q,
    rows xx_dot.rows i (n_q * (order - 1) + j) = (derivative^[order] (Q j)).eval (tauToT (arr full i) t0 t1)

theorem arr_mem {l : List ℝ} {i : ℕ} (hi : i < l.length) : arr l i ∈ l := by
  rw [arr, List.getD_eq_getElem _ _ hi]; exact List.getElem_mem hi

theorem feasible_of_samples {Q : ℕ → ℝ[X]} {order n_q : ℕ} (ho : 1 ≤ order) {full coll : List ℝ} (h0 : arr full 0 = -1)
    (hl : 0 < full.length) {t0 t1 : ℝ} {xx xx_dot : Arr2}
    (hx : SamplesAt Q order n_q 0 (full.map fun τ => tauToT τ t0 t1) xx)
    (hx' : SamplesAt Q order n_q 1 (full.map fun τ => tauToT τ t0 t1) xx_dot) : Feasible Q order n_q full coll t0 t1 xx xx_dot := by
  obtain ⟨w1, w2, w3⟩ := hx
  obtain ⟨w1', w2', w3'⟩ := hx'
  rw [List.length_map] at w2 w2' w3 w3'
  refine ⟨w1, w2, fun k hk j hj => ?_, w1', w2', fun i hi _ j hj => ?_⟩
  · rw [w3 0 hl k hk j hj, arr_map _ _ hl, h0, tauToT_start, add_zero]
  · rw [w3' i hi _ (by omega) j hj, arr_map _ _ hi, Nat.sub_add_cancel ho]

/-- `Polynomial_interpolations_BU` on samples of polynomials. -/
theorem polysBu_eq {scheme : String} (hs : scheme ∈ buImplemented) {order N m : ℕ} (ho : 1 ≤ order)
    (hm : 1 ≤ m) (hj : m = 2 ∨ scheme ∉ jacobiSchemes) (hN : minPoints scheme ≤ N) {full : List ℝ}
    (hfull : buArrPoints N scheme m = .ok full) {t0 t1 : ℝ} (ht : t0 ≠ t1) {n_q : ℕ} (hq : 1 ≤ n_q) {Q : ℕ → ℝ[X]}
    (hQ : ∀ j < n_q, (Q j).degree < (order + N : ℕ)) {xx xx_dot : Arr2} {coll : List ℝ} (hcoll : buCollPoints N scheme m = .ok coll)
    (hx : Feasible Q order n_q full coll t0 t1 xx xx_dot) :
    ∃ x_0 polys, xx.rows[0]? = some x_0 ∧ polysBu xx_dot x_0 xx.width scheme order t0 t1 = .ok polys ∧
      polys.length = order + 1 ∧
      ∀ k ≤ order, ∀ j < n_q, ∀ t, polys.getD k (fun _ _ => 0) t j = (derivative^[k] (Q j)).eval t := by
  obtain ⟨coll', constr, full', s, k1, k2, k3, k4, hf, k5, k6, hsort, hlast, hlen, hd, hsl, -, hl⟩ :=
    constr_length hs hm hN
  rw [hfull] at k4; cases k4
  rw [hcoll] at k1; cases k1
  have hN1 : 1 ≤ N := le_trans (minPoints_pos scheme) hN
  have hpos : 0 < full.length := by rw [hf]; simp
  have hc2 : buCollPoints N scheme = .ok coll := by
    rw [(bu_coll_eq hs N 2).1, ← coll_order (order := m) (by tauto)]; exact k2
  obtain ⟨w1, w2, w3, w1', w2', w3'⟩ := hx
  obtain ⟨x_0, hx0⟩ : ∃ x_0, xx.rows[0]? = some x_0 := ⟨xx.rows[0], List.getElem?_eq_getElem (by omega)⟩
  have hx0' : ∀ c, x_0 c = rows xx.rows 0 c := by intro c; simp [rows, hx0]
  have hlc : (lastCols xx_dot n_q).length = full.length := by simp [lastCols, w2']
  obtain ⟨p1, p2⟩ := pySlice_rows hsl hlc
  obtain ⟨polys, e1, e2, e3⟩ := polysBu_gen ho hN1 hc2 hlen hd k6 ht hq hQ (xx_dot := xx_dot) (x_0 := x_0)
    (fun k hk j hj => by rw [hx0', w3 k hk j hj])
    (by rw [p1, hlen])
    (fun i hi j hj => by
      obtain ⟨i', q1, q2, q3⟩ := p2 i (by omega)
      rw [q3, lastCols_rows w1' hq ho (by omega), w3' i' q1 (by rw [q2]; exact arr_mem (by omega)) j hj, q2])
  exact ⟨x_0, polys, hx0, by rw [w1]; exact e1, e2, e3⟩

/-- The prefix of a bottom-up scheme is ignored. -/
theorem strip_bu {scheme : String} (hs : scheme ∈ buImplemented) {pre : String} (hp : pre = "" ∨ pre = "BU_") :
    strip "BU_" (pre ++ scheme) = scheme := by
  rw [buImplemented_eq] at hs
  simp only [List.mem_cons, List.not_mem_nil, or_false] at hs
  rcases hp with rfl | rfl <;>
  rcases hs with rfl | rfl | rfl | rfl | rfl | rfl | rfl | rfl | rfl | rfl | rfl | rfl <;> decide

theorem strip_td {scheme : String} (hs : scheme ∈ buImplemented) {pre : String} (hp : pre = "" ∨ pre = "TD_") :
    strip "TD_" (pre ++ scheme) = scheme := by
  rw [buImplemented_eq] at hs
  simp only [List.mem_cons, List.not_mem_nil, or_false] at hs
  rcases hp with rfl | rfl <;>
  rcases hs with rfl | rfl | rfl | rfl | rfl | rfl | rfl | rfl | rfl | rfl | rfl | rfl <;> decide

theorem slice_length_le {A : Type} (s : Slice) (l : List A) : (pySlice s.1 s.2 l).length ≤ l.length := by
  unfold pySlice
  simp only [List.length_drop, List.length_take]
  omega

/-- What is known about the points and the rows of a bottom-up result. -/
theorem bu_setup {scheme : String} (hs : scheme ∈ buImplemented) {m N : ℕ} (hm : 1 ≤ m) (hN : minPoints scheme ≤ N) :
    ∃ coll full constr s, buCollPoints N scheme m = .ok coll ∧ buArrPoints N scheme m = .ok full ∧
      buConstructionPoints N scheme m = .ok constr ∧ full = -1 :: constr ∧ collIndices scheme = .ok s ∧
      coll.length = N ∧ Distinct N (arr coll) ∧ full.Pairwise (· < ·) ∧ N ≤ full.length ∧ pySlice s.1 s.2 full = coll := by
  obtain ⟨coll, constr, full, s, k1, k2, k3, k4, hf, k5, k6, hsort, hlast, hlen, hd, hsl, -, hl⟩ :=
    constr_length hs hm hN
  refine ⟨coll, full, constr, s, k1, k4, k3, hf, k6, hlen, hd, hsort, ?_, hsl⟩
  rw [← hlen, ← hsl]
  exact slice_length_le s full

theorem timesOf_snd (t0 t1 : ℝ) (k : ℕ) (given : Option (List ℝ)) : (timesOf t0 t1 k given).2 = instants t0 t1 k given := by
  cases given <;> rfl

/-- Concatenating functions for consecutive derivatives. -/
theorem conc_samples {Q : ℕ → ℝ[X]} {n_q order d : ℕ} {polys : List (ℝ → Row)}
    (h : ∀ k < order, ∀ j < n_q, ∀ t, polys.getD (k + d) (fun _ _ => 0) t j = (derivative^[k + d] (Q j)).eval t)
    (ts : List ℝ) : SamplesAt Q order n_q d ts ⟨n_q * order, ts.map fun t c => conc polys n_q t (n_q * d + c)⟩ := by
  refine ⟨rfl, by simp, fun i hi k hk j hj => ?_⟩
  rw [rows_map _ _ hi, show n_q * d + (n_q * k + j) = n_q * (k + d) + j by ring, conc_eq _ hj, h k hk j hj]

/-! ## C109, C110 -/

/-- C109: for data that are samples of polynomials of degree below `order + n_coll` and their derivatives at the rows of a
bottom-up problem (as in every feasible point, `C30_feasible`) and for controls that are samples of polynomials of degree
below `n_coll`, the polynomial interpolation returns the values of these polynomials and their derivatives at every instant
asked for, with or without the prefix in the name of the scheme. Missing: Jacobi schemes of an order other than 2, see
`C109_refuted`. -/
theorem C109_partial {scheme : String} (hs : scheme ∈ buImplemented) {order m : ℕ} (ho : 1 ≤ order) (hm : 1 ≤ m)
    (hj : m = 2 ∨ scheme ∉ jacobiSchemes) {N : ℕ} (hN : minPoints scheme ≤ N) {n_q : ℕ} (hq : 1 ≤ n_q)
    {t0 t1 : ℝ} (ht : t0 ≠ t1) {pre : String} (hp : pre = "" ∨ pre = "BU_") (lib : Lib) (n : ℕ)
    (given : Option (List ℝ)) :
    ∃ coll full, buCollPoints N scheme m = .ok coll ∧ buArrPoints N scheme m = .ok full ∧
      ∀ (Q W : ℕ → ℝ[X]) (xx xx_dot : Arr2) (uu : List Row), (∀ j < n_q, (Q j).degree < (order + N : ℕ)) →
      SamplesAt Q order n_q 0 (full.map fun τ => tauToT τ t0 t1) xx →
      SamplesAt Q order n_q 1 (full.map fun τ => tauToT τ t0 t1) xx_dot →
      Through W N coll t0 t1 uu →
      ∃ o, interpolationsBu lib xx xx_dot uu (pre ++ scheme) order t0 t1 m "pol" "pol" n given = .ok o ∧
        SamplesAt Q order n_q 0 (instants t0 t1 n given) o.x ∧ SamplesAt Q order n_q 1 (instants t0 t1 n given) o.x_dot ∧
        o.u = (instants t0 t1 n given).map fun t c => (W c).eval t := by
  obtain ⟨coll, full, constr, s, k1, k2, k3, hf, k6, hlen, hd, hsort, hle, hsl⟩ := bu_setup hs hm hN
  refine ⟨coll, full, k1, k2, fun Q W xx xx_dot uu hQ hx hx' hu => ?_⟩
  obtain ⟨x_0, polys, e0, e1, e2, e3⟩ := polysBu_eq hs ho hm hj hN k2 ht hq hQ k1
    (feasible_of_samples ho (by rw [hf]; rfl) (by rw [hf]; simp) hx hx')
  have hN1 : 1 ≤ N := le_trans (minPoints_pos scheme) hN
  have hnq : n_q * order / order = n_q := Nat.mul_div_cancel _ (by omega)
  have hc2 : buCollPoints N scheme = .ok coll := by
    rw [(bu_coll_eq hs N 2).1, ← coll_order (order := m) (by tauto), ← (bu_coll_eq hs N m).1]; exact k1
  have w1 := hx.1
  have hlc : (lastCols xx_dot n_q).length = full.length := by
    have := hx'.2.1
    rw [List.length_map] at this
    simp [lastCols, this]
  have p1 := (pySlice_rows hsl hlc).1
  refine ⟨⟨⟨n_q * order, (instants t0 t1 n given).map fun t c => conc polys n_q t c⟩,
    ⟨n_q * order, (instants t0 t1 n given).map fun t c => conc polys n_q t (n_q + c)⟩,
    (instants t0 t1 n given).map (polyAt coll t0 t1 (rows uu))⟩, ?_, ?_, ?_, ?_⟩
  · rw [w1] at e1
    simp only [interpolationsBu, strip_bu hs hp, e0, show order ≠ 0 by omega, if_false, w1, hnq, k6, PsInterp.lift, bind,
      Except.bind, p1, hlen, k3, true_or, if_true, e1, polyU, hc2, pure, Except.pure, controls, states, timesOf_snd]
  · have := conc_samples (d := 0) (order := order) (n_q := n_q) (polys := polys) (Q := Q) (fun k hk j hj t => e3 k (by omega) j hj t)
      (instants t0 t1 n given)
    simpa using this
  · have := conc_samples (d := 1) (order := order) (n_q := n_q) (polys := polys) (Q := Q) (fun k hk j hj t => e3 (k + 1) (by omega) j hj t)
      (instants t0 t1 n given)
    simpa using this
  · apply List.map_congr_left
    intro t _
    funext c
    obtain ⟨u1, u2⟩ := hu c
    exact polyAt_eq ht (by omega) (hlen.symm ▸ hd) (by rw [hlen]; exact u1) (fun i hi => u2 i (by omega)) t

example : "CGR" ∈ buImplemented ∧ "CGR" ∉ jacobiSchemes ∧ minPoints "CGR" ≤ 2 ∧
    SamplesAt (fun _ => (X : ℝ[X]) ^ 2) 1 1 1 [0, 1] ⟨1, [fun _ => 0, fun _ => 2]⟩ ∧
    Through (fun _ => (X : ℝ[X])) 2 [-1, 1] 0 2 [fun _ => 0, fun _ => 2] := by
  refine ⟨by decide, by decide, by decide, ⟨rfl, rfl, fun i hi k hk j hj => ?_⟩, fun c => ⟨?_, fun i hi => ?_⟩⟩
  · have : i < 2 := hi
    interval_cases i <;> interval_cases k <;> interval_cases j <;> norm_num [rows, arr]
  · rw [degree_X]; norm_num
  · interval_cases i <;> norm_num [rows, arr, tauToT]

/-- C110: for the same data, the derivative of any order of the interpolation is that of the polynomials. Missing: Jacobi
schemes of an order other than 2. -/
theorem C110_partial {scheme : String} (hs : scheme ∈ buImplemented) {order m : ℕ} (ho : 1 ≤ order) (hm : 1 ≤ m)
    (hj : m = 2 ∨ scheme ∉ jacobiSchemes) {N : ℕ} (hN : minPoints scheme ≤ N) {n_q : ℕ} (hq : 1 ≤ n_q)
    {t0 t1 : ℝ} (ht : t0 ≠ t1) {pre : String} (hp : pre = "" ∨ pre = "BU_") (lib : Lib) (n : ℕ)
    (given : Option (List ℝ)) (d : ℕ) :
    ∃ full, buArrPoints N scheme m = .ok full ∧
      ∀ (Q : ℕ → ℝ[X]) (xx xx_dot : Arr2), (∀ j < n_q, (Q j).degree < (order + N : ℕ)) →
      SamplesAt Q order n_q 0 (full.map fun τ => tauToT τ t0 t1) xx →
      SamplesAt Q order n_q 1 (full.map fun τ => tauToT τ t0 t1) xx_dot →
      ∃ a, interpolationsDerivBu lib xx xx_dot (pre ++ scheme) order d t0 t1 m "pol" n given = .ok a ∧
        SamplesAt Q order n_q d (instants t0 t1 n given) a := by
  obtain ⟨coll, full, constr, s, k1, k2, k3, hf, k6, hlen, hd, hsort, hle, hsl⟩ := bu_setup hs hm hN
  refine ⟨full, k2, fun Q xx xx_dot hQ hx hx' => ?_⟩
  obtain ⟨x_0, polys, e0, e1, e2, e3⟩ := polysBu_eq hs ho hm hj hN k2 ht hq hQ k1
    (feasible_of_samples ho (by rw [hf]; rfl) (by rw [hf]; simp) hx hx')
  have hN1 : 1 ≤ N := le_trans (minPoints_pos scheme) hN
  have hnq : n_q * order / order = n_q := Nat.mul_div_cancel _ (by omega)
  have w1 := hx.1
  have w2' := hx'.2.1
  rw [List.length_map] at w2'
  have hlc : (lastCols xx_dot n_q).length = full.length := by simp [lastCols, w2']
  have p1 := (pySlice_rows hsl hlc).1
  obtain ⟨t_x, htx⟩ : ∃ t_x, t_x = ([-1] ++ constr).map fun τ => tauToT τ t0 t1 := ⟨_, rfl⟩
  have htx' : t_x = full.map fun τ => tauToT τ t0 t1 := by rw [htx, hf]; rfl
  have hlx : t_x.length = full.length := by rw [htx', List.length_map]
  have hdx : Distinct t_x.length (arr t_x) := by
    rw [hlx, htx']; exact distinct_time ht (distinct_arr hsort)
  obtain ⟨all, hall⟩ : ∃ all, all = polys ++ (List.range (d - 1)).map fun jj =>
    higher t_x (lastCols xx_dot n_q) (jj + 1) := ⟨_, rfl⟩
  have hget : ∀ k < order, ∀ j < n_q, ∀ t, all.getD (k + d) (fun _ _ => 0) t j = (derivative^[k + d] (Q j)).eval t := by
    intro k hk j hj t
    by_cases hkd : k + d ≤ order
    · rw [hall, List.getD_append _ _ _ _ (by omega), e3 _ hkd j hj t]
    · have hh : (derivative^[order] (Q j)).degree < t_x.length := by
        have := hQ j hj
        rw [degree_lt_iff_coeff_zero] at this ⊢
        intro m hm
        rw [coeff_iterate_derivative, this (m + order) (by omega), smul_zero]
      have : all.getD (k + d) (fun _ _ => 0) = higher t_x (lastCols xx_dot n_q) (k + d - order) := by
        rw [hall, List.getD_append_right _ _ _ _ (by omega), List.getD_eq_getElem _ _ (by simp; omega)]
        simp only [List.getElem_map, List.getElem_range]
        congr 1
        omega
      rw [this, higher_eq hdx (by omega) hh (c := j), ← Function.iterate_add_apply,
        show k + d - order + order = k + d by omega]
      · intro i hi
        rw [lastCols_rows hx'.1 hq ho (by omega), hx'.2.2 i (by rw [List.length_map]; omega) _ (by omega) j hj, htx',
          Nat.sub_add_cancel ho]
  refine ⟨⟨n_q * order, (instants t0 t1 n given).map (conc (all.drop d) n_q)⟩, ?_, ?_⟩
  · rw [w1] at e1
    simp only [interpolationsDerivBu, strip_bu hs hp, e0, show order ≠ 0 by omega, if_false, w1, hnq, k6, PsInterp.lift,
      bind, Except.bind, p1, hlen, k3, if_true, e1, pure, Except.pure, timesOf_snd, ← htx, hlc, hlx, ne_eq, not_true,
      and_false, ← hall]
  · refine ⟨rfl, by simp, fun i hi k hk j hj => ?_⟩
    rw [rows_map _ _ hi, conc_eq _ hj]
    rw [show (all.drop d).getD k (fun _ _ => 0) = all.getD (k + d) (fun _ _ => 0) by
      simp [List.getD_eq_getElem?_getD, List.getElem?_drop, add_comm]]
    exact hget k hk j hj _

/-- C109 and C110 from what the functions read only: the interpolations of the states, of the controls, and of the
derivatives up to the order of the problem do not depend on the highest derivative at the ends. `H d` are the functions that
are sampled for derivative `d`. -/
theorem C110_feasible {scheme : String} (hs : scheme ∈ buImplemented) {order m : ℕ} (ho : 1 ≤ order) (hm : 1 ≤ m)
    (hj : m = 2 ∨ scheme ∉ jacobiSchemes) {N : ℕ} (hN : minPoints scheme ≤ N) {n_q : ℕ} (hq : 1 ≤ n_q)
    {t0 t1 : ℝ} (ht : t0 ≠ t1) {pre : String} (hp : pre = "" ∨ pre = "BU_") (lib : Lib) :
    ∃ coll full, buCollPoints N scheme m = .ok coll ∧ buArrPoints N scheme m = .ok full ∧
      ∀ (Q W : ℕ → ℝ[X]) (xx xx_dot : Arr2) (uu : List Row), (∀ j < n_q, (Q j).degree < (order + N : ℕ)) →
      Feasible Q order n_q full coll t0 t1 xx xx_dot → Through W N coll t0 t1 uu →
      ∃ H : ℕ → ℝ → Row,
        (∀ d k, k < order → k + d ≤ order → ∀ j < n_q, ∀ t, H d t (n_q * k + j) = (derivative^[k + d] (Q j)).eval t) ∧
        ∀ n given, interpolationsBu lib xx xx_dot uu (pre ++ scheme) order t0 t1 m "pol" "pol" n given
            = .ok ⟨⟨n_q * order, (instants t0 t1 n given).map (H 0)⟩, ⟨n_q * order, (instants t0 t1 n given).map (H 1)⟩,
                (instants t0 t1 n given).map fun t c => (W c).eval t⟩ ∧
          ∀ d, interpolationsDerivBu lib xx xx_dot (pre ++ scheme) order d t0 t1 m "pol" n given
            = .ok ⟨n_q * order, (instants t0 t1 n given).map (H d)⟩ := by
  obtain ⟨coll, full, constr, s, k1, k2, k3, hf, k6, hlen, hd, hsort, hle, hsl⟩ := bu_setup hs hm hN
  refine ⟨coll, full, k1, k2, fun Q W xx xx_dot uu hQ hx hu => ?_⟩
  obtain ⟨x_0, polys, e0, e1, e2, e3⟩ := polysBu_eq hs ho hm hj hN k2 ht hq hQ k1 hx
  have hN1 : 1 ≤ N := le_trans (minPoints_pos scheme) hN
  have hnq : n_q * order / order = n_q := Nat.mul_div_cancel _ (by omega)
  have hc2 : buCollPoints N scheme = .ok coll := by
    rw [(bu_coll_eq hs N 2).1, ← coll_order (order := m) (by tauto), ← (bu_coll_eq hs N m).1]; exact k1
  have w1 := hx.width
  have hlc : (lastCols xx_dot n_q).length = full.length := by simp [lastCols, hx.length']
  have p1 := (pySlice_rows hsl hlc).1
  obtain ⟨t_x, htx⟩ : ∃ t_x, t_x = ([-1] ++ constr).map fun τ => tauToT τ t0 t1 := ⟨_, rfl⟩
  have hlx : t_x.length = full.length := by rw [htx, hf]; simp
  obtain ⟨all, hall⟩ : ∃ all : ℕ → List (ℝ → Row), all = fun d => polys ++ (List.range (d - 1)).map fun jj =>
    higher t_x (lastCols xx_dot n_q) (jj + 1) := ⟨_, rfl⟩
  have hget : ∀ d k, k + d ≤ order → ∀ j < n_q, ∀ t,
      (all d).getD (k + d) (fun _ _ => 0) t j = (derivative^[k + d] (Q j)).eval t := by
    intro d k hkd j hj t
    rw [hall, List.getD_append _ _ _ _ (by omega), e3 _ hkd j hj t]
  have hdrop : ∀ d k, ((all d).drop d).getD k (fun _ _ => 0) = (all d).getD (k + d) (fun _ _ => 0) := by
    intro d k
    simp [List.getD_eq_getElem?_getD, List.getElem?_drop, add_comm]
  rw [w1] at e1
  refine ⟨fun d => conc ((all d).drop d) n_q, fun d k hk hkd j hj t => ?_, fun n given => ⟨?_, fun d => ?_⟩⟩
  · dsimp only
    rw [conc_eq _ hj, hdrop, hget d k hkd j hj]
  · have hu' : (instants t0 t1 n given).map (polyAt coll t0 t1 (rows uu)) = (instants t0 t1 n given).map fun t c => (W c).eval t := by
      apply List.map_congr_left
      intro t _
      funext c
      obtain ⟨u1, u2⟩ := hu c
      exact polyAt_eq ht (by omega) (hlen.symm ▸ hd) (by rw [hlen]; exact u1) (fun i hi => u2 i (by omega)) t
    rw [← hu']
    simp only [interpolationsBu, strip_bu hs hp, e0, show order ≠ 0 by omega, if_false, w1, hnq, k6, PsInterp.lift, bind,
      Except.bind, p1, hlen, k3, true_or, if_true, e1, polyU, hc2, pure, Except.pure, controls, states, timesOf_snd]
    congr 4
    · rw [hall]; simp
    · funext t c
      rw [hall]
      simp only [conc, Nat.sub_self, List.range_zero, List.map_nil, List.append_nil, List.getD_eq_getElem?_getD,
        List.getElem?_drop, Nat.add_mod_left, Nat.add_div_left c (show 0 < n_q by omega), Nat.succ_eq_add_one, add_comm 1]
  · simp only [interpolationsDerivBu, strip_bu hs hp, e0, show order ≠ 0 by omega, if_false, w1, hnq, k6, PsInterp.lift,
      bind, Except.bind, p1, hlen, k3, if_true, e1, pure, Except.pure, timesOf_snd, ← htx, hlc, hlx, ne_eq, not_true,
      and_false]
    rw [hall]

/-- C109 fails for Jacobi schemes of an order other than 2: the motion `t ^ 2 / 2` of a problem of first order with two JG
points of order 1 has velocity 1 at the end, but the velocity returned there is `√2`. -/
theorem C109_refuted (lib : Lib) :
    ∃ coll full xx xx_dot uu o, buCollPoints 2 "JG" 1 = .ok coll ∧ buArrPoints 2 "JG" 1 = .ok full ∧
      SamplesAt (fun _ => C (1 / 2) * X ^ 2) 1 1 0 (full.map fun τ => tauToT τ (-1) 1) xx ∧
      SamplesAt (fun _ => C (1 / 2) * X ^ 2) 1 1 1 (full.map fun τ => tauToT τ (-1) 1) xx_dot ∧
      Through (fun _ => 0) 2 coll (-1) 1 uu ∧
      interpolationsBu lib xx xx_dot uu "JG" 1 (-1) 1 1 "pol" "pol" 0 (some [1]) = .ok o ∧
      rows o.x_dot.rows 0 0 = Real.sqrt 2 ∧ (derivative (C (1 / 2) * X ^ 2 : ℝ[X])).eval 1 = 1 := by
  have h6 : Real.sqrt 6 * Real.sqrt 6 = 6 := Real.mul_self_sqrt (by norm_num)
  have h3 : Real.sqrt 3 * Real.sqrt 3 = 3 := Real.mul_self_sqrt (by norm_num)
  have p6 : 0 < Real.sqrt 6 := Real.sqrt_pos.2 (by norm_num)
  have p3 : 0 < Real.sqrt 3 := Real.sqrt_pos.2 (by norm_num)
  obtain ⟨coll, full, constr, s, k1, k2, k3, hf, k6, hlen, hd, hsort, hle, hsl⟩ :=
    bu_setup (scheme := "JG") (by decide) (m := 1) (N := 2) le_rfl (by decide)
  have hcoll : coll = [-Real.sqrt 3 / 3, Real.sqrt 3 / 3] := by
    rw [(bu_coll_eq (by decide) 2 1).1] at k1
    rw [← JG21]
    simpa [collPoints] using k1.symm
  obtain ⟨coll2, k1', hl2, hd2⟩ : ∃ coll2, buCollPoints 2 "JG" = .ok coll2 ∧ coll2.length = 2 ∧
      Distinct 2 (arr coll2) := by
    obtain ⟨coll2, -, -, -, q1, -, -, -, -, q2, q3, -⟩ :=
      bu_setup (scheme := "JG") (by decide) (m := 2) (N := 2) (by norm_num) (by decide)
    exact ⟨coll2, q1, q2, q3⟩
  have hcoll2 : coll2 = [(-1 - Real.sqrt 6) / 5, (-1 + Real.sqrt 6) / 5] := by
    rw [(bu_coll_eq (by decide) 2 2).1] at k1'
    rw [← JG22]
    simpa [collPoints] using k1'.symm
  have hid : (fun τ => tauToT τ (-1) 1) = id := by funext τ; simp only [tauToT, id]; ring
  have hpos : 0 < full.length := by omega
  obtain ⟨xx, hxx⟩ : ∃ xx : Arr2, xx = ⟨1, full.map fun τ _ => τ ^ 2 / 2⟩ := ⟨_, rfl⟩
  obtain ⟨xd, hxd⟩ : ∃ xd : Arr2, xd = ⟨1, full.map fun τ _ => τ⟩ := ⟨_, rfl⟩
  have hcol : ∀ k < 1, ∀ j < 1, 1 * k + j = 0 ∧ k = 0 := by intro k hk j hj; omega
  have hs0 : SamplesAt (fun _ => C (1 / 2) * X ^ 2) 1 1 0 (full.map fun τ => tauToT τ (-1) 1) xx := by
    rw [hid, List.map_id, hxx]
    refine ⟨rfl, by simp, fun i hi k hk j hj => ?_⟩
    obtain ⟨-, rfl⟩ := hcol k hk j hj
    rw [rows_map _ _ hi]; simp; ring
  have hs1 : SamplesAt (fun _ => C (1 / 2) * X ^ 2) 1 1 1 (full.map fun τ => tauToT τ (-1) 1) xd := by
    rw [hid, List.map_id, hxd]
    refine ⟨rfl, by simp, fun i hi k hk j hj => ?_⟩
    obtain ⟨-, rfl⟩ := hcol k hk j hj
    rw [rows_map _ _ hi]; simp; ring
  have hlc : (lastCols xd 1).length = full.length := by simp [lastCols, hxd]
  obtain ⟨p1, p2⟩ := pySlice_rows hsl hlc
  obtain ⟨R, hR⟩ : ∃ R : ℝ[X], R = C (5 * Real.sqrt 3 / (3 * Real.sqrt 6)) * (C (1 / 2) * X ^ 2 + C (1 / 5) * X)
    + C (1 / 2 - 5 * Real.sqrt 3 / (3 * Real.sqrt 6) * (1 / 2 - 1 / 5)) := ⟨_, rfl⟩
  have hRd : ∀ x, (derivative R).eval x = 5 * Real.sqrt 3 / (3 * Real.sqrt 6) * (x + 1 / 5) := by
    intro x; rw [hR]; simp; ring
  have hRdeg : R.degree < (1 + 2 : ℕ) := by
    have : R.natDegree ≤ 2 := by rw [hR]; compute_degree
    refine lt_of_le_of_lt degree_le_natDegree ?_
    exact_mod_cast (by omega : R.natDegree < 3)
  have hx0 : xx.rows[0]? = some fun _ => 1 / 2 := by
    rw [hxx]
    simp only [List.getElem?_map, hf, List.getElem?_cons_zero, Option.map_some]
    norm_num
  have hxw : xx.width = 1 := by rw [hxx]
  obtain ⟨polys, e1, e2, e3⟩ := polysBu_gen (order := 1) (N := 2) le_rfl (by norm_num) k1' hl2 hd2 k6
    (t0 := -1) (t1 := 1) (by norm_num) (n_q := 1) le_rfl (R := fun _ => R) (fun _ _ => hRdeg) (xx_dot := xd)
    (x_0 := fun _ => 1 / 2) (fun k hk j hj => by
      obtain ⟨-, rfl⟩ := hcol k hk j hj
      rw [hR]; simp; ring)
    (by rw [p1, hlen])
    (fun i hi j hj => by
      obtain ⟨i', q1, q2, q3⟩ := p2 i (by omega)
      have hw : xd.width = 1 * 1 := by rw [hxd]
      have hr : rows xd.rows i' 0 = arr full i' := by rw [hxd]; exact rows_map _ _ q1 0
      obtain rfl : j = 0 := by omega
      rw [q3, lastCols_rows hw le_rfl le_rfl (by rw [hxd]; simpa using q1)]
      simp only [Nat.sub_self, mul_zero, zero_add, Function.iterate_one]
      rw [hr, q2, hRd, congrFun hid]
      have : i = 0 ∨ i = 1 := by omega
      rcases this with rfl | rfl
      · simp [hcoll, hcoll2, arr]; field_simp; ring
      · simp [hcoll, hcoll2, arr]; field_simp; ring)
  refine ⟨coll, full, xx, xd, [fun _ => 0, fun _ => 0], ⟨⟨1 * 1, [conc polys 1 1]⟩,
    ⟨1 * 1, [fun c => conc polys 1 1 (1 + c)]⟩, [polyAt coll2 (-1) 1 (rows [fun _ => 0, fun _ => 0]) 1]⟩, k1, k2,
    hs0, hs1, ?_, ?_, ?_, by norm_num⟩
  · intro c
    refine ⟨by rw [degree_zero]; exact WithBot.bot_lt_coe _, fun i hi => ?_⟩
    have : i = 0 ∨ i = 1 := by omega
    rcases this with rfl | rfl <;> simp [rows]
  · have hstr : strip "BU_" "JG" = "JG" := by decide
    simp only [mul_one] at e1
    simp only [interpolationsBu, hstr, hx0, show (1 : ℕ) ≠ 0 by omega, if_false, hxw, k6, PsInterp.lift, bind,
      Except.bind, Nat.div_one, p1, hlen, k3, true_or, if_true, e1, polyU, k1', pure, Except.pure, controls, states,
      timesOf_snd, instants, List.map_cons, List.map_nil]
  · have := e3 1 le_rfl 0 (by norm_num) 1
    simp only [rows, List.getD_cons_zero]
    have e : conc polys 1 1 (1 + 0) = polys.getD 1 (fun _ _ => 0) 1 0 := conc_eq polys (n_q := 1) (k := 1) (j := 0) (by norm_num) 1
    rw [e, this]
    simp only [Function.iterate_one]
    rw [hRd]
    have h2 : Real.sqrt 6 = Real.sqrt 2 * Real.sqrt 3 := by
      rw [← Real.sqrt_mul (by norm_num)]; norm_num
    have p2 : 0 < Real.sqrt 2 := Real.sqrt_pos.2 (by norm_num)
    have h22 : Real.sqrt 2 * Real.sqrt 2 = 2 := Real.mul_self_sqrt (by norm_num)
    rw [h2]
    field_simp
    nlinarith

/-! ## C111 -/

/-- The polynomials of `Polynomial_interpolations_TD`. -/
theorem tdPoly_eq {N : ℕ} (hN : 2 ≤ N) {t0 t1 : ℝ} (ht : t0 ≠ t1) {nu : List ℝ} (hnu : collPoints N "LGL" = .ok nu)
    {D : ℕ → ℕ → ℝ} (hD : matrixDNu N = .ok D) {p : ℝ[X]} (hp : p.degree < N) {q : List Row} {j : ℕ}
    (hq : ∀ i < N, rows q i j = p.eval (tauToT (arr nu i) t0 t1)) (ii : ℕ) (t : ℝ) :
    tdPoly N nu D t0 t1 q ii t j = (derivative^[ii] p).eval t := by
  obtain ⟨nu', n1, n2, n3, n4⟩ := lgl_points hN
  rw [hnu] at n1; cases n1
  have hD' : matrixDNu N = .ok (dMat N (arr nu) (vSum N (arr nu))) := by
    simp [matrixDNu, matrixDBary, n2, n3, bind, Except.bind, pure, Except.pure]
  rw [hD] at hD'; cases hD'
  apply polyAt_eq ht (by omega) (n3.symm ▸ n4) (by rw [n3]; exact iter_degree_lt ii hp)
  intro i hi
  exact diffPow_time ht n4 hp hq ii (by omega)

/-- What the interpolations of a top-down result start from. -/
theorem td_setup {scheme : String} (hs : scheme ∈ buImplemented) {order m N : ℕ} (ho : 1 ≤ order) (hm : 1 ≤ m)
    (hN : minPoints scheme ≤ N) {t0 t1 : ℝ} (ht : t0 ≠ t1) :
    ∃ coll full nu D, buCollPoints N scheme m = .ok coll ∧ tdConstructionPoints N scheme m = .ok full ∧
      collPoints (order + N) "LGL" = .ok nu ∧ matrixDNu (order + N) = .ok D ∧ coll.length = N ∧ Distinct N (arr coll) ∧
      full.Pairwise (· < ·) ∧ nu.length = order + N ∧
      ∀ (n_q : ℕ) (Q : ℕ → ℝ[X]) (q : List Row), (∀ j < n_q, (Q j).degree < (order + N : ℕ)) → q.length = order + N →
        (∀ i < order + N, ∀ j < n_q, rows q i j = (Q j).eval (tauToT (arr nu i) t0 t1)) →
        polysTd q t0 t1 N scheme m = .ok ((List.range (order + 1)).map (tdPoly (order + N) nu D t0 t1 q)) ∧
        ∀ k, ∀ j < n_q, ∀ t, tdPoly (order + N) nu D t0 t1 q k t j = (derivative^[k] (Q j)).eval t := by
  obtain ⟨coll, constr, full, s, k1, k2, k3, k4, hf, k5, k6, hsort, hlast, hlen, hd, hsl, -, hl⟩ :=
    constr_length hs hm hN
  have hN1 : 1 ≤ N := le_trans (minPoints_pos scheme) hN
  obtain ⟨nu, n1, n2, n3, n4⟩ := lgl_points (n := order + N) (by omega)
  have hD : matrixDNu (order + N) = .ok (dMat (order + N) (arr nu) (vSum (order + N) (arr nu))) := by
    simp [matrixDNu, matrixDBary, n2, n3, bind, Except.bind, pure, Except.pure]
  refine ⟨coll, full, nu, _, k1, k5, n1, hD, hlen, hd, hsort, n3, fun n_q Q q hQ hql hq => ⟨?_, fun k j hj t => ?_⟩⟩
  · simp only [polysTd, hql, k1, n1, hD, PsInterp.lift, bind, Except.bind, pure, Except.pure]
    rw [show order + N + 1 - N = order + 1 by omega]
  · exact tdPoly_eq (by omega) ht n1 hD (hQ j hj) (fun i hi => hq i hi j hj) k t

theorem getD_map_range {A : Type} (n : ℕ) (f : ℕ → A) (d : A) {i : ℕ} (hi : i < n) : ((List.range n).map f).getD i d = f i := by
  rw [List.getD_eq_getElem _ _ (by simpa using hi)]; simp

/-- C111: for construction values that are those of polynomials of degree below `order + n_coll` at the LGL points (as in
every feasible point of a top-down problem, `C31_feasible`), the polynomial interpolation returns the values of these
polynomials and their derivatives at every instant asked for, for every scheme and order of the scheme. -/
theorem C111_interp {scheme : String} (hs : scheme ∈ buImplemented) {order m : ℕ} (ho : 1 ≤ order) (hm : 1 ≤ m)
    {N : ℕ} (hN : minPoints scheme ≤ N) {n_q : ℕ} (hq : 1 ≤ n_q)
    {t0 t1 : ℝ} (ht : t0 ≠ t1) {pre : String} (hp : pre = "" ∨ pre = "TD_") (lib : Lib) (n : ℕ)
    (given : Option (List ℝ)) :
    ∃ coll nu, buCollPoints N scheme m = .ok coll ∧ collPoints (order + N) "LGL" = .ok nu ∧
      ∀ (Q W : ℕ → ℝ[X]) (q_constr xx xx_dot : Arr2) (uu : List Row), (∀ j < n_q, (Q j).degree < (order + N : ℕ)) →
      SamplesAt Q 1 n_q 0 (nu.map fun τ => tauToT τ t0 t1) q_constr → xx.width = n_q * order → uu.length = N →
      Through W N coll t0 t1 uu →
      ∃ o, interpolationsTd lib q_constr xx xx_dot uu (pre ++ scheme) t0 t1 m "pol" "pol" n given = .ok o ∧
        SamplesAt Q order n_q 0 (instants t0 t1 n given) o.x ∧ SamplesAt Q order n_q 1 (instants t0 t1 n given) o.x_dot ∧
        o.u = (instants t0 t1 n given).map fun t c => (W c).eval t := by
  obtain ⟨coll, full, nu, D, k1, k2, n1, hD, hlen, hd, hsort, n3, hpol⟩ := td_setup hs ho hm hN ht
  refine ⟨coll, nu, k1, n1, fun Q W q_constr xx xx_dot uu hQ hqc hxw hul hu => ?_⟩
  have hN1 : 1 ≤ N := le_trans (minPoints_pos scheme) hN
  obtain ⟨c1, c2, c3⟩ := hqc
  rw [mul_one] at c1
  rw [List.length_map, n3] at c2
  obtain ⟨e1, e3⟩ := hpol n_q Q q_constr.rows hQ c2 (fun i hi j hj => by
    have := c3 i (by simpa [n3] using hi) 0 (by norm_num) j hj
    rw [arr_map _ _ (by omega)] at this
    simpa using this)
  obtain ⟨polys, hpolys⟩ : ∃ polys, polys = (List.range (order + 1)).map (tdPoly (order + N) nu D t0 t1 q_constr.rows) :=
    ⟨_, rfl⟩
  rw [← hpolys] at e1
  have hget : ∀ k ≤ order, ∀ j < n_q, ∀ t, polys.getD k (fun _ _ => 0) t j = (derivative^[k] (Q j)).eval t := by
    intro k hk j hj t
    rw [hpolys, getD_map_range _ _ _ (by omega), e3 k j hj t]
  have hnq : n_q * order / n_q = order := Nat.mul_div_cancel_left _ (by omega)
  refine ⟨⟨⟨n_q * order, (instants t0 t1 n given).map fun t c => conc polys n_q t c⟩,
    ⟨n_q * order, (instants t0 t1 n given).map fun t c => conc polys n_q t (n_q + c)⟩,
    (instants t0 t1 n given).map (polyAt coll t0 t1 (rows uu))⟩, ?_, ?_, ?_, ?_⟩
  · simp only [interpolationsTd, strip_td hs hp, c1, c2, hxw, hul, hnq, show n_q ≠ 0 by omega, if_false, k2,
      PsInterp.lift, bind, Except.bind, true_or, if_true, e1, polyU, k1, pure, Except.pure, controls, states, timesOf_snd,
      ne_eq, not_true]
  · have := conc_samples (d := 0) (order := order) (n_q := n_q) (polys := polys) (Q := Q)
      (fun k hk j hj t => hget k (by omega) j hj t) (instants t0 t1 n given)
    simpa using this
  · have := conc_samples (d := 1) (order := order) (n_q := n_q) (polys := polys) (Q := Q)
      (fun k hk j hj t => hget (k + 1) (by omega) j hj t) (instants t0 t1 n given)
    simpa using this
  · apply List.map_congr_left
    intro t _
    funext c
    obtain ⟨u1, u2⟩ := hu c
    exact polyAt_eq ht (by omega) (hlen.symm ▸ hd) (by rw [hlen]; exact u1) (fun i hi => u2 i (by omega)) t

/-- C111: and so are the derivatives of any order. -/
theorem C111_deriv {scheme : String} (hs : scheme ∈ buImplemented) {order m : ℕ} (ho : 1 ≤ order) (hm : 1 ≤ m)
    {N : ℕ} (hN : minPoints scheme ≤ N) {n_q : ℕ} (hq : 1 ≤ n_q)
    {t0 t1 : ℝ} (ht : t0 ≠ t1) {pre : String} (hp : pre = "" ∨ pre = "TD_") (lib : Lib) (n : ℕ)
    (given : Option (List ℝ)) (d : ℕ) :
    ∃ nu, collPoints (order + N) "LGL" = .ok nu ∧
      ∀ (Q : ℕ → ℝ[X]) (q_constr xx xx_dot : Arr2), (∀ j < n_q, (Q j).degree < (order + N : ℕ)) →
      SamplesAt Q 1 n_q 0 (nu.map fun τ => tauToT τ t0 t1) q_constr → xx.width = n_q * order →
      ∃ a, interpolationsDerivTd lib q_constr xx xx_dot (pre ++ scheme) d t0 t1 N m "pol" n given = .ok a ∧
        SamplesAt Q order n_q d (instants t0 t1 n given) a := by
  obtain ⟨coll, full, nu, D, k1, k2, n1, hD, hlen, hd, hsort, n3, hpol⟩ := td_setup hs ho hm hN ht
  refine ⟨nu, n1, fun Q q_constr xx xx_dot hQ hqc hxw => ?_⟩
  have hN1 : 1 ≤ N := le_trans (minPoints_pos scheme) hN
  obtain ⟨c1, c2, c3⟩ := hqc
  rw [mul_one] at c1
  rw [List.length_map, n3] at c2
  obtain ⟨e1, e3⟩ := hpol n_q Q q_constr.rows hQ c2 (fun i hi j hj => by
    have := c3 i (by simpa [n3] using hi) 0 (by norm_num) j hj
    rw [arr_map _ _ (by omega)] at this
    simpa using this)
  obtain ⟨all, hall⟩ : ∃ all, all = (List.range (order + 1)).map (tdPoly (order + N) nu D t0 t1 q_constr.rows) ++
    (List.range (d - 1)).map fun jj => tdPoly (order + N) nu D t0 t1 q_constr.rows (jj + order + 1) := ⟨_, rfl⟩
  have hget : ∀ k < order, ∀ j < n_q, ∀ t, all.getD (k + d) (fun _ _ => 0) t j = (derivative^[k + d] (Q j)).eval t := by
    intro k hk j hj t
    rw [← e3 _ j hj t, hall]
    by_cases hkd : k + d ≤ order
    · rw [List.getD_append _ _ _ _ (by simp; omega), getD_map_range _ _ _ (by omega)]
    · rw [List.getD_append_right _ _ _ _ (by simp; omega), List.length_map, List.length_range,
        getD_map_range _ _ _ (by omega), show k + d - (order + 1) + order + 1 = k + d by omega]
  have hnq : n_q * order / n_q = order := Nat.mul_div_cancel_left _ (by omega)
  refine ⟨⟨n_q * order, (instants t0 t1 n given).map (conc (all.drop d) n_q)⟩, ?_, ?_⟩
  · simp only [interpolationsDerivTd, strip_td hs hp, c1, c2, hxw, hnq, show n_q ≠ 0 by omega, if_false, k2,
      PsInterp.lift, bind, Except.bind, if_true, e1, n1, hD, pure, Except.pure, timesOf_snd, ne_eq, not_true, ← hall,
      show order ≠ 0 by omega]
  · refine ⟨rfl, by simp, fun i hi k hk j hj => ?_⟩
    rw [rows_map _ _ hi, conc_eq _ hj]
    rw [show (all.drop d).getD k (fun _ _ => 0) = all.getD (k + d) (fun _ _ => 0) by
      simp [List.getD_eq_getElem?_getD, List.getElem?_drop, add_comm]]
    exact hget k hk j hj _

end Chords.Props
