import Verif.Model.HermiteSpline
import Verif.Props.PsInterp
import Verif.Props.BuTdErr
import Verif.Props.PsLin
import Mathlib.Analysis.Calculus.Deriv.Polynomial
import Mathlib.Tactic.FieldSimp
import Mathlib.Tactic.LinearCombination

/-! # Hermite interpolation of results: C149 and C150 -/

namespace Chords.Props
open Finset Polynomial Chords.Points Chords.Spec Chords.Bary Chords.Gauss Chords.TimeScale Chords.BuTd Chords.PsInterp Chords.HermiteSpline
open Chords.BuTdInterp

/-! ### Specification -/

/-- A curve, given with its derivatives `S k`, is the smooth piecewise cubic through samples with given slopes: between consecutive times it is a cubic with the values and
slopes of the samples at both ends, the first and last ones go on outside, and the curve and its slope have no jumps. -/
structure SmoothCubic (T : List ℝ) (Y D : List Row) (S : ℕ → ℝ → Row) : Prop where
  cubic : ∀ i, i + 1 < T.length → ∀ c, ∃ p : ℝ[X], p.degree < 4 ∧ p.eval (arr T i) = rows Y i c ∧ p.eval (arr T (i + 1)) = rows Y (i + 1) c ∧
    p.derivative.eval (arr T i) = rows D i c ∧ p.derivative.eval (arr T (i + 1)) = rows D (i + 1) c ∧
    ∀ t, (i = 0 ∨ arr T i ≤ t) → (i + 2 = T.length ∨ t < arr T (i + 1)) → ∀ k, S k t c = (derivative^[k] p).eval t
  value : ∀ i < T.length, ∀ c, S 0 (arr T i) c = rows Y i c
  slope : ∀ i < T.length, ∀ c, S 1 (arr T i) c = rows D i c
  smooth : ∀ t c, HasDerivAt (fun t => S 0 t c) (S 1 t c) t

/-! ### The cubic of a piece -/

theorem piece_degree (x0 x1 y0 y1 d0 d1 : ℝ) : (piece x0 x1 y0 y1 d0 d1).degree < 4 := by
  unfold piece
  have h : ∀ (a : ℝ) (n : ℕ), n < 4 → (C a * (X - C x0) ^ n).degree < 4 := by
    intro a n hn
    refine lt_of_le_of_lt ((degree_mul_le _ _).trans (add_le_add degree_C_le le_rfl)) ?_
    rw [zero_add, degree_pow, degree_X_sub_C]
    simp only [nsmul_eq_mul, mul_one]
    exact_mod_cast hn
  refine lt_of_le_of_lt (degree_add_le _ _) (max_lt (lt_of_le_of_lt (degree_add_le _ _) (max_lt (lt_of_le_of_lt (degree_add_le _ _) (max_lt (h _ 3 (by norm_num)) (h _ 2 (by norm_num)))) ?_)) ?_)
  · have := h d0 1 (by norm_num)
    rwa [pow_one] at this
  · exact lt_of_le_of_lt degree_C_le (by norm_num)

theorem piece_left (x0 x1 y0 y1 d0 d1 : ℝ) : (piece x0 x1 y0 y1 d0 d1).eval x0 = y0 ∧ (piece x0 x1 y0 y1 d0 d1).derivative.eval x0 = d0 := by
  constructor <;> simp [piece, derivative_pow]

theorem piece_right {x0 x1 : ℝ} (h : x0 < x1) (y0 y1 d0 d1 : ℝ) : (piece x0 x1 y0 y1 d0 d1).eval x1 = y1 ∧ (piece x0 x1 y0 y1 d0 d1).derivative.eval x1 = d1 := by
  have : x1 - x0 ≠ 0 := by linarith
  constructor
  · simp [piece]
    field_simp
    ring
  · simp [piece, derivative_pow]
    field_simp
    ring

/-- Samples of a cubic give the cubic back. -/
theorem piece_exact {x0 x1 : ℝ} (h : x0 < x1) {p : ℝ[X]} (hp : p.degree < 4) :
    piece x0 x1 (p.eval x0) (p.eval x1) (p.derivative.eval x0) (p.derivative.eval x1) = p := by
  have h0 : x1 - x0 ≠ 0 := by linarith
  have hn : p.natDegree < 4 := by
    by_cases h0 : p = 0
    · simp [h0]
    · exact (natDegree_lt_iff_degree_lt h0).2 hp
  have e : p = C (p.coeff 0) + C (p.coeff 1) * X + C (p.coeff 2) * X ^ 2 + C (p.coeff 3) * X ^ 3 := by
    conv_lhs => rw [as_sum_range_C_mul_X_pow' p hn]
    simp [Finset.sum_range_succ]
  generalize p.coeff 0 = a at e
  generalize p.coeff 1 = b at e
  generalize p.coeff 2 = c at e
  generalize p.coeff 3 = d at e
  subst e
  refine Polynomial.funext fun t => ?_
  simp [piece]
  field_simp
  ring

/-! ### The piece at a time -/

theorem arr_le {T : List ℝ} (hT : T.Pairwise (· < ·)) {i j : ℕ} (hij : i ≤ j) (hj : j < T.length) : arr T i ≤ arr T j := by
  rcases hij.eq_or_lt with rfl | h
  · exact le_rfl
  · exact (arr_lt hT h hj).le

theorem pieceAt_eq {T : List ℝ} (hT : T.Pairwise (· < ·)) {i : ℕ} (hi : i + 1 < T.length) {t : ℝ} (h1 : i = 0 ∨ arr T i ≤ t) (h2 : i + 2 = T.length ∨ t < arr T (i + 1)) :
    pieceAt T t = i := by
  unfold pieceAt
  have hlen : T.tail.dropLast.length = T.length - 2 := by simp; omega
  have hget : ∀ m, m < T.length - 2 → T.tail.dropLast[m]? = some (arr T (m + 1)) := by
    intro m hm
    rw [List.getElem?_dropLast, if_pos (by simp; omega), List.getElem?_tail]
    simp [arr, List.getD_eq_getElem?_getD, show m + 1 < T.length by omega]
  rw [← List.take_append_drop i T.tail.dropLast, List.filter_append, List.length_append]
  have e1 : (T.tail.dropLast.take i).filter (fun b => decide (b ≤ t)) = T.tail.dropLast.take i := by
    rw [List.filter_eq_self]
    intro b hb
    obtain ⟨m, hm⟩ := List.mem_iff_getElem?.1 hb
    have hmi : m < i := by
      by_contra hc
      rw [List.getElem?_take, if_neg hc] at hm
      cases hm
    rw [List.getElem?_take_of_lt hmi, hget m (by omega)] at hm
    cases hm
    rcases h1 with h1 | h1
    · omega
    · simpa using (arr_le hT (show m + 1 ≤ i by omega) (by omega)).trans h1
  have e2 : (T.tail.dropLast.drop i).filter (fun b => decide (b ≤ t)) = [] := by
    rw [List.filter_eq_nil_iff]
    intro b hb
    obtain ⟨m, hm⟩ := List.mem_iff_getElem?.1 hb
    rw [List.getElem?_drop] at hm
    have hmn : i + m < T.length - 2 := by
      by_contra hc
      rw [List.getElem?_eq_none (by omega)] at hm
      cases hm
    rw [hget _ hmn] at hm
    cases hm
    rcases h2 with h2 | h2
    · omega
    · simpa using h2.trans_le (arr_le hT (show i + 1 ≤ i + m + 1 by omega) (by omega))
  rw [e1, e2, List.length_take, hlen]
  simp
  omega

theorem pieceAt_spec {T : List ℝ} (hT : T.Pairwise (· < ·)) (hn : 2 ≤ T.length) (t : ℝ) :
    ∃ i, i + 1 < T.length ∧ (i = 0 ∨ arr T i ≤ t) ∧ (i + 2 = T.length ∨ t < arr T (i + 1)) := by
  classical
  have hex : ∃ j, j + 2 = T.length ∨ t < arr T (j + 1) := ⟨T.length - 2, .inl (by omega)⟩
  refine ⟨Nat.find hex, ?_, ?_, Nat.find_spec hex⟩
  · have := Nat.find_min' hex (show T.length - 2 + 2 = T.length ∨ _ from .inl (by omega))
    omega
  · rcases Nat.eq_zero_or_pos (Nat.find hex) with h | h
    · exact .inl h
    · right
      have := Nat.find_min hex (show Nat.find hex - 1 < Nat.find hex by omega)
      rw [not_or, not_lt, show Nat.find hex - 1 + 1 = Nat.find hex by omega] at this
      exact this.2

/-! ### The spline -/

/-- The cubic of piece `i` for column `c`. -/
noncomputable def cubicOf (T : List ℝ) (Y D : List Row) (i c : ℕ) : ℝ[X] :=
  piece (arr T i) (arr T (i + 1)) (rows Y i c) (rows Y (i + 1) c) (rows D i c) (rows D (i + 1) c)

theorem splineAt_eq {T : List ℝ} (hT : T.Pairwise (· < ·)) (Y D : List Row) {i : ℕ} (hi : i + 1 < T.length) {t : ℝ}
    (h1 : i = 0 ∨ arr T i ≤ t) (h2 : i + 2 = T.length ∨ t < arr T (i + 1)) (k c : ℕ) :
    splineAt T Y D k t c = (derivative^[k] (cubicOf T Y D i c)).eval t := by
  simp only [splineAt, pieceAt_eq hT hi h1 h2, cubicOf]

/-- Two pieces meet with the same value and slope. -/
theorem cubicOf_ends {T : List ℝ} (hT : T.Pairwise (· < ·)) (Y D : List Row) {i : ℕ} (hi : i + 1 < T.length) (c : ℕ) :
    (cubicOf T Y D i c).eval (arr T i) = rows Y i c ∧ (cubicOf T Y D i c).eval (arr T (i + 1)) = rows Y (i + 1) c ∧
    (cubicOf T Y D i c).derivative.eval (arr T i) = rows D i c ∧ (cubicOf T Y D i c).derivative.eval (arr T (i + 1)) = rows D (i + 1) c := by
  have hl := piece_left (arr T i) (arr T (i + 1)) (rows Y i c) (rows Y (i + 1) c) (rows D i c) (rows D (i + 1) c)
  have hr := piece_right (arr_lt hT (Nat.lt_succ_self i) hi) (rows Y i c) (rows Y (i + 1) c) (rows D i c) (rows D (i + 1) c)
  exact ⟨hl.1, hr.1, hl.2, hr.2⟩

theorem spline_knot {T : List ℝ} (hT : T.Pairwise (· < ·)) (hn : 2 ≤ T.length) (Y D : List Row) {i : ℕ} (hi : i < T.length) (c : ℕ) :
    splineAt T Y D 0 (arr T i) c = rows Y i c ∧ splineAt T Y D 1 (arr T i) c = rows D i c := by
  by_cases h : i + 1 < T.length
  · obtain ⟨e1, -, e3, -⟩ := cubicOf_ends hT Y D h c
    have hw := fun k => splineAt_eq hT Y D h (t := arr T i) (.inr le_rfl) (.inr (arr_lt hT (Nat.lt_succ_self i) h)) k c
    exact ⟨(hw 0).trans e1, (hw 1).trans e3⟩
  · obtain ⟨j, rfl⟩ : ∃ j, i = j + 1 := ⟨i - 1, by omega⟩
    obtain ⟨-, e2, -, e4⟩ := cubicOf_ends hT Y D hi c
    have hw := fun k => splineAt_eq hT Y D hi (t := arr T (j + 1)) (.inr (arr_lt hT (Nat.lt_succ_self j) hi).le) (.inl (by omega)) k c
    exact ⟨(hw 0).trans e2, (hw 1).trans e4⟩

theorem spline_smooth {T : List ℝ} (hT : T.Pairwise (· < ·)) (hn : 2 ≤ T.length) (Y D : List Row) (t : ℝ) (c : ℕ) :
    HasDerivAt (fun t => splineAt T Y D 0 t c) (splineAt T Y D 1 t c) t := by
  obtain ⟨i, hi, h1, h2⟩ := pieceAt_spec hT hn t
  have hv := splineAt_eq hT Y D hi h1 h2 0 c
  have hs := splineAt_eq hT Y D hi h1 h2 1 c
  have hright : HasDerivWithinAt (fun t => splineAt T Y D 0 t c) (splineAt T Y D 1 t c) (Set.Ici t) t := by
    rw [hs]
    refine ((cubicOf T Y D i c).hasDerivAt t).hasDerivWithinAt.congr_of_eventuallyEq ?_ hv
    have : ∀ᶠ s in nhdsWithin t (Set.Ici t), (i + 2 = T.length ∨ s < arr T (i + 1)) ∧ t ≤ s := by
      refine Filter.Eventually.and ?_ self_mem_nhdsWithin
      rcases h2 with h2 | h2
      · exact Filter.Eventually.of_forall fun _ => .inl h2
      · filter_upwards [mem_nhdsWithin_of_mem_nhds (Iio_mem_nhds h2)] with s hs using .inr hs
    filter_upwards [this] with s hs
    exact splineAt_eq hT Y D hi (h1.imp_right fun h => h.trans hs.2) hs.1 0 c
  have hleft : HasDerivWithinAt (fun t => splineAt T Y D 0 t c) (splineAt T Y D 1 t c) (Set.Iic t) t := by
    by_cases hlt : i = 0 ∨ arr T i < t
    · rw [hs]
      refine ((cubicOf T Y D i c).hasDerivAt t).hasDerivWithinAt.congr_of_eventuallyEq ?_ hv
      have : ∀ᶠ s in nhdsWithin t (Set.Iic t), (i = 0 ∨ arr T i ≤ s) ∧ s ≤ t := by
        refine Filter.Eventually.and ?_ self_mem_nhdsWithin
        rcases hlt with h | h
        · exact Filter.Eventually.of_forall fun _ => .inl h
        · filter_upwards [mem_nhdsWithin_of_mem_nhds (Ioi_mem_nhds h)] with s hs using .inr (le_of_lt hs)
      filter_upwards [this] with s hs
      exact splineAt_eq hT Y D hi hs.1 (h2.imp_right fun h => lt_of_le_of_lt hs.2 h) 0 c
    · rw [not_or, not_lt] at hlt
      obtain ⟨j, rfl⟩ : ∃ j, i = j + 1 := ⟨i - 1, by omega⟩
      have hti : t = arr T (j + 1) := le_antisymm hlt.2 (h1.resolve_left hlt.1)
      have hj : j + 1 < T.length := by omega
      obtain ⟨e1, -, e3, -⟩ := cubicOf_ends hT Y D hi c
      obtain ⟨-, e2, -, e4⟩ := cubicOf_ends hT Y D hj c
      have hs' : splineAt T Y D 1 t c = (cubicOf T Y D j c).derivative.eval t := by
        rw [hs, hti, e4]; exact e3
      have hv' : splineAt T Y D 0 t c = (cubicOf T Y D j c).eval t := by
        rw [hv, hti, e2]; exact e1
      rw [hs']
      refine ((cubicOf T Y D j c).hasDerivAt t).hasDerivWithinAt.congr_of_eventuallyEq ?_ hv'
      have hlt' := arr_lt hT (Nat.lt_succ_self j) hj
      have : ∀ᶠ s in nhdsWithin t (Set.Iic t), arr T j < s ∧ s ≤ t := by
        refine Filter.Eventually.and ?_ self_mem_nhdsWithin
        filter_upwards [mem_nhdsWithin_of_mem_nhds (Ioi_mem_nhds (hti ▸ hlt'))] with s hs using hs
      filter_upwards [this] with s hs
      rcases hs.2.eq_or_lt with h | h
      · rw [h]; exact hv'
      · exact splineAt_eq hT Y D hj (.inr hs.1.le) (.inr (hti ▸ h)) 0 c
  have := hleft.union hright
  rwa [Set.Iic_union_Ici, hasDerivWithinAt_univ] at this

/-- The spline of SciPy is the smooth piecewise cubic with the given values and slopes. -/
theorem spline_cubic {T : List ℝ} (hT : T.Pairwise (· < ·)) (hn : 2 ≤ T.length) (Y D : List Row) : SmoothCubic T Y D (splineAt T Y D) where
  cubic i hi c := by
    obtain ⟨e1, e2, e3, e4⟩ := cubicOf_ends hT Y D hi c
    exact ⟨cubicOf T Y D i c, piece_degree _ _ _ _ _ _, e1, e2, e3, e4, fun t h1 h2 k => splineAt_eq hT Y D hi h1 h2 k c⟩
  value i hi c := (spline_knot hT hn Y D hi c).1
  slope i hi c := (spline_knot hT hn Y D hi c).2
  smooth t c := spline_smooth hT hn Y D t c

/-- Samples of cubics give the cubics and their derivatives. -/
theorem SmoothCubic.exact {T : List ℝ} (hT : T.Pairwise (· < ·)) (hn : 2 ≤ T.length) {Y D : List Row} {S : ℕ → ℝ → Row} (h : SmoothCubic T Y D S) {c : ℕ} {p : ℝ[X]}
    (hp : p.degree < 4) (hY : ∀ i < T.length, rows Y i c = p.eval (arr T i)) (hD : ∀ i < T.length, rows D i c = p.derivative.eval (arr T i)) (k : ℕ) (t : ℝ) :
    S k t c = (derivative^[k] p).eval t := by
  obtain ⟨i, hi, h1, h2⟩ := pieceAt_spec hT hn t
  obtain ⟨r, r1, r2, r3, r4, r5, r6⟩ := h.cubic i hi c
  have hlt := arr_lt hT (Nat.lt_succ_self i) hi
  have e1 := piece_exact hlt r1
  have e2 := piece_exact hlt hp
  rw [Nat.succ_eq_add_one, r2, r3, r4, r5, hY i (by omega), hY (i + 1) hi, hD i (by omega), hD (i + 1) hi] at e1
  rw [Nat.succ_eq_add_one, e1] at e2
  rw [r6 t h1 h2 k, e2]

theorem hermite_ok {T : List ℝ} (hT : T.Pairwise (· < ·)) (hn : 2 ≤ T.length) {Y D : List Row} (hY : Y.length = T.length) (hD : D.length = T.length) (k : ℕ) (ts : List ℝ) :
    cubicHermite T Y D k ts = .ok (ts.map (splineAt T Y D k)) := by
  unfold cubicHermite
  rw [if_pos ⟨hT, hn, hY, hD⟩]

/-! ## C149 -/

theorem full_two {constr full : List ℝ} (hf : full = -1 :: constr) (hlast : full.getLast? = some 1) : 2 ≤ full.length := by
  rcases Nat.lt_or_ge full.length 2 with h | h
  · have : constr = [] := by
      cases constr with
      | nil => rfl
      | cons a l => rw [hf] at h; simp at h
    rw [hf, this] at hlast
    simp at hlast
    norm_num at hlast
  · exact h

/-- C149 for bottom-up results: with "Hermite" interpolation, the states are a smooth piecewise cubic with the values and slopes of the rows of the result, the derivatives
are those of that curve, and motions that are cubics come back as they are. Jacobi schemes of an order other than 2 are asked only for derivatives. -/
theorem C149_bu {scheme : String} (hs : scheme ∈ buImplemented) {order m : ℕ} (ho : 1 ≤ order) (hm : 1 ≤ m)
    {N : ℕ} (hN : minPoints scheme ≤ N) {t0 t1 : ℝ} (ht : t0 < t1) (g : List Row → List ℝ → Except PsErr (List Row)) (n : ℕ) (given : Option (List ℝ)) :
    ∃ coll full, buCollPoints N scheme m = .ok coll ∧ buArrPoints N scheme m = .ok full ∧
      ∀ (xx xx_dot : Arr2) (uu : List Row), xx.rows.length = full.length → xx_dot.rows.length = full.length →
      ∃ S, SmoothCubic (full.map fun τ => tauToT τ t0 t1) xx.rows xx_dot.rows S ∧
      (∀ (c : ℕ) (p : ℝ[X]), p.degree < 4 → (∀ i < full.length, rows xx.rows i c = p.eval (tauToT (arr full i) t0 t1) ∧
        rows xx_dot.rows i c = p.derivative.eval (tauToT (arr full i) t0 t1)) → ∀ k t, S k t c = (derivative^[k] p).eval t) ∧
      (∀ d, interpolationsDerivBu (scipy g) xx xx_dot scheme order d t0 t1 m "Hermite" n given = .ok ⟨xx.width, (instants t0 t1 n given).map (S d)⟩) ∧
      ∀ (_ : m = 2 ∨ scheme ∉ jacobiSchemes) (n_q : ℕ) (_ : xx.width = n_q * order) (_ : 1 ≤ n_q) (W : ℕ → ℝ[X]) (_ : Through W N coll t0 t1 uu),
      interpolationsBu (scipy g) xx xx_dot uu scheme order t0 t1 m "pol" "Hermite" n given = .ok
        ⟨⟨xx.width, (instants t0 t1 n given).map (S 0)⟩, ⟨xx.width, (instants t0 t1 n given).map (S 1)⟩,
          (instants t0 t1 n given).map fun t c => (W c).eval t⟩ := by
  obtain ⟨coll, constr, full, s, k1, k2, k3, k4, hf, k5, k6, hsort, hlast, hlen, hd, hsl, -, -⟩ :=
    constr_length hs hm hN
  have hN1 : 1 ≤ N := le_trans (minPoints_pos scheme) hN
  have hl2 := full_two hf hlast
  refine ⟨coll, full, k1, k4, fun xx xx_dot uu hx hx' => ?_⟩
  have hts := tauToT_sorted ht hsort
  obtain ⟨t_x, htx⟩ : ∃ t_x, t_x = full.map fun τ => tauToT τ t0 t1 := ⟨_, rfl⟩
  have htx' : (([-1] ++ constr).map fun τ => tauToT τ t0 t1) = t_x := by rw [htx, hf]; rfl
  have hlx : t_x.length = full.length := by rw [htx, List.length_map]
  have hstr : strip "BU_" scheme = scheme := by simpa using strip_bu hs (pre := "") (Or.inl rfl)
  have hlc : ∀ n_q, (pySlice s.1 s.2 (lastCols xx_dot n_q)).length = N := by
    intro n_q
    rw [(pySlice_rows hsl (l := lastCols xx_dot n_q) (by simp [lastCols, hx'])).1, hlen]
  obtain ⟨x_0, hx0⟩ : ∃ x_0, xx.rows[0]? = some x_0 := ⟨xx.rows[0], List.getElem?_eq_getElem (by omega)⟩
  rw [← htx] at hts ⊢
  have hsp := spline_cubic hts (by omega) xx.rows xx_dot.rows
  have hher := fun k => hermite_ok hts (by omega) (hx.trans hlx.symm) (hx'.trans hlx.symm) k (instants t0 t1 n given)
  refine ⟨_, hsp, fun c p hp hs => ?_, fun d => ?_, fun hj n_q hxw hq W hu => ?_⟩
  · have ha : ∀ i < full.length, arr t_x i = tauToT (arr full i) t0 t1 := fun i hi => by rw [htx, arr_map _ _ hi]
    exact hsp.exact hts (by omega) hp (fun i hi => by rw [ha i (by omega)]; exact (hs i (by omega)).1)
      (fun i hi => by rw [ha i (by omega)]; exact (hs i (by omega)).2)
  · simp only [interpolationsDerivBu, hstr, hx0, show order ≠ 0 by omega, if_false, k6, PsInterp.lift, bind, Except.bind,
      hlc, k3, timesOf_snd, htx', show ("Hermite" : String) ≠ "pol" by decide, show ("Hermite" : String) ≠ "lin" by decide, if_true, scipy, hher, pure, Except.pure]
  · have hc2 : buCollPoints N scheme = .ok coll := by
      rw [(bu_coll_eq hs N 2).1, ← coll_order (order := m) (by tauto)]; exact k2
    obtain ⟨polys, hp⟩ := polysBu_ok hs ho hm hN k4 ht.ne hq hx' x_0
    have hu' : (instants t0 t1 n given).map (polyAt coll t0 t1 (rows uu)) = (instants t0 t1 n given).map fun t c => (W c).eval t := by
      apply List.map_congr_left
      intro t _
      funext c
      obtain ⟨u1, u2⟩ := hu c
      exact polyAt_eq ht.ne (by omega) (hlen.symm ▸ hd) (by rw [hlen]; exact u1) (fun i hi => u2 i (by omega)) t
    rw [← hu']
    rw [← hxw] at hp
    simp only [interpolationsBu, hstr, hx0, show order ≠ 0 by omega, if_false, k6, PsInterp.lift, bind, Except.bind,
      hlc, k3, timesOf_snd, htx', show ("Hermite" : String) ≠ "pol" by decide, show ("Hermite" : String) ≠ "lin" by decide, or_true, if_true, hp, polyU, hc2, pure,
      Except.pure, controls, states, scipy, hher]

/-- The hypotheses can be met: the motion `t ^ 3`, with a control of one degree less, at three LGL points. -/
example : "LGL" ∈ buImplemented ∧ minPoints "LGL" ≤ 3 ∧ (X ^ 3 : ℝ[X]).degree < 4 ∧ (0 : ℝ) < 1 := by
  refine ⟨by decide, by decide, ?_, by norm_num⟩
  rw [degree_X_pow]; norm_num

/-- C149 for top-down results. -/
theorem C149_td {scheme : String} (hs : scheme ∈ buImplemented) {order m : ℕ} (hm : 1 ≤ m)
    {N : ℕ} (hN : minPoints scheme ≤ N) {t0 t1 : ℝ} (ht : t0 < t1) (g : List Row → List ℝ → Except PsErr (List Row)) (n : ℕ) (given : Option (List ℝ)) :
    ∃ coll full, buCollPoints N scheme m = .ok coll ∧ tdConstructionPoints N scheme m = .ok full ∧
      ∀ (n_q : ℕ) (q_constr xx xx_dot : Arr2) (uu : List Row), 1 ≤ n_q → q_constr.width = n_q →
      q_constr.rows.length = order + N → xx.width = n_q * order →
      xx.rows.length = full.length → xx_dot.rows.length = full.length → uu.length = N → 1 ≤ order →
      ∃ S, SmoothCubic (full.map fun τ => tauToT τ t0 t1) xx.rows xx_dot.rows S ∧
      (∀ (c : ℕ) (p : ℝ[X]), p.degree < 4 → (∀ i < full.length, rows xx.rows i c = p.eval (tauToT (arr full i) t0 t1) ∧
        rows xx_dot.rows i c = p.derivative.eval (tauToT (arr full i) t0 t1)) → ∀ k t, S k t c = (derivative^[k] p).eval t) ∧
      (∀ d, interpolationsDerivTd (scipy g) q_constr xx xx_dot scheme d t0 t1 N m "Hermite" n given = .ok ⟨xx.width, (instants t0 t1 n given).map (S d)⟩) ∧
      ∀ (W : ℕ → ℝ[X]) (_ : Through W N coll t0 t1 uu),
      interpolationsTd (scipy g) q_constr xx xx_dot uu scheme t0 t1 m "pol" "Hermite" n given = .ok
        ⟨⟨xx.width, (instants t0 t1 n given).map (S 0)⟩, ⟨xx.width, (instants t0 t1 n given).map (S 1)⟩,
          (instants t0 t1 n given).map fun t c => (W c).eval t⟩ := by
  obtain ⟨coll, constr, full, s, k1, k2, k3, k4, hf, k5, k6, hsort, hlast, hlen, hd, hsl, -, -⟩ :=
    constr_length hs hm hN
  have hN1 : 1 ≤ N := le_trans (minPoints_pos scheme) hN
  have hl2 := full_two hf hlast
  refine ⟨coll, full, k1, k5, fun n_q q_constr xx xx_dot uu hq c1 c2 hxw hx hx' hul ho => ?_⟩
  obtain ⟨nu, n1, n2, n3, n4⟩ := lgl_points (n := order + N) (by omega)
  have hD : matrixDNu (order + N) = .ok (dMat (order + N) (arr nu) (vSum (order + N) (arr nu))) := by
    simp [matrixDNu, matrixDBary, n2, n3, bind, Except.bind, pure, Except.pure]
  have hts := tauToT_sorted ht hsort
  obtain ⟨t_x, htx⟩ : ∃ t_x, t_x = full.map fun τ => tauToT τ t0 t1 := ⟨_, rfl⟩
  have hlx : t_x.length = full.length := by rw [htx, List.length_map]
  have hstr : strip "TD_" scheme = scheme := by simpa using strip_td hs (pre := "") (Or.inl rfl)
  have hnq : n_q * order / n_q = order := Nat.mul_div_cancel_left _ (by omega)
  rw [← htx] at hts ⊢
  have hsp := spline_cubic hts (by omega) xx.rows xx_dot.rows
  have hher := fun k => hermite_ok hts (by omega) (hx.trans hlx.symm) (hx'.trans hlx.symm) k (instants t0 t1 n given)
  refine ⟨_, hsp, fun c p hp hs => ?_, fun d => ?_, fun W hu => ?_⟩
  · have ha : ∀ i < full.length, arr t_x i = tauToT (arr full i) t0 t1 := fun i hi => by rw [htx, arr_map _ _ hi]
    exact hsp.exact hts (by omega) hp (fun i hi => by rw [ha i (by omega)]; exact (hs i (by omega)).1)
      (fun i hi => by rw [ha i (by omega)]; exact (hs i (by omega)).2)
  · simp only [interpolationsDerivTd, hstr, c1, c2, hxw, hnq, show n_q ≠ 0 by omega, if_false, k5, n1, PsInterp.lift, bind,
      Except.bind, timesOf_snd, ← htx, show ("Hermite" : String) ≠ "pol" by decide, show ("Hermite" : String) ≠ "lin" by decide, if_true, ne_eq, not_true, scipy, hher,
      pure, Except.pure]
  · have hu' : (instants t0 t1 n given).map (polyAt coll t0 t1 (rows uu)) = (instants t0 t1 n given).map fun t c => (W c).eval t := by
      apply List.map_congr_left
      intro t _
      funext c
      obtain ⟨u1, u2⟩ := hu c
      exact polyAt_eq ht.ne (by omega) (hlen.symm ▸ hd) (by rw [hlen]; exact u1) (fun i hi => u2 i (by omega)) t
    rw [← hu']
    simp only [interpolationsTd, hstr, c1, c2, hxw, hul, hnq, show n_q ≠ 0 by omega, if_false, k5, PsInterp.lift, bind,
      Except.bind, timesOf_snd, ← htx, show ("Hermite" : String) ≠ "pol" by decide, show ("Hermite" : String) ≠ "lin" by decide, or_true, if_true, ne_eq, not_true,
      polysTd, polyU, k1, n1, hD, pure, Except.pure, controls, states, scipy, hher]

/-- The hypotheses can be met: one coordinate of a problem of order 2 with three collocation points, and as many rows as the points ask for. -/
example : ∃ full, tdConstructionPoints 3 "LG" 2 = .ok full ∧ ∃ q xx : Arr2, q.width = 1 ∧ q.rows.length = 2 + 3 ∧ xx.width = 1 * 2 ∧ xx.rows.length = full.length := by
  obtain ⟨coll, full, -, k5, -⟩ := C149_td (scheme := "LG") (by decide) (order := 2) (m := 2) (N := 3) (by norm_num) (by decide) (t0 := 0) (t1 := 1) (by norm_num)
    (fun _ _ => .error .type) 0 none
  exact ⟨full, k5, ⟨1, List.replicate 5 0⟩, ⟨2, List.replicate full.length 0⟩, rfl, by simp, rfl, by simp⟩

end Chords.Props
