import Verif.Lemmas.Bary
import Verif.Props.Points

/-! # Properties of barycentric interpolation: C23, C24, C25 -/

namespace Chords.Props
open Chords.Points Chords.Spec Chords.Bary Polynomial Finset

/-! ## C23 -/

/-- C23: on distinct nodes `bary_poly` is the one polynomial of degree below the number of nodes through the data. -/
theorem C23_interp {n : ℕ} (hn : 1 ≤ n) {t : ℕ → ℝ} (ht : ∀ i < n, ∀ j < n, t i = t j → i = j) (y : ℕ → ℝ) :
    ∃! p : ℝ[X], p.degree < n ∧ (∀ i < n, p.eval (t i) = y i) ∧ ∀ x, baryPoly n t y x = p.eval x := by
  have h : Distinct n t := ht
  refine ⟨Lagrange.interpolate (range n) t y, ⟨?_, ?_, fun x => baryPoly_eq h hn x⟩, ?_⟩
  · simpa using Lagrange.degree_interpolate_lt y h.injOn
  · intro i hi; exact Lagrange.eval_interpolate_at_node _ h.injOn (mem_range.2 hi)
  · rintro p ⟨h1, h2, -⟩
    exact (interpolate_self h h1 (fun i hi => (h2 i hi).symm)).symm

/-- C23: the data are returned at the nodes. -/
theorem C23_nodes {n : ℕ} {t : ℕ → ℝ} (ht : ∀ i < n, ∀ j < n, t i = t j → i = j) (y : ℕ → ℝ) {i : ℕ} (hi : i < n) :
    baryPoly n t y (t i) = y i := baryPoly_node ht hi

/-- C23: every polynomial of degree below the number of nodes is reproduced everywhere. -/
theorem C23_exact {n : ℕ} (hn : 1 ≤ n) {t : ℕ → ℝ} (ht : ∀ i < n, ∀ j < n, t i = t j → i = j) {p : ℝ[X]}
    (hp : p.degree < n) (x : ℝ) : baryPoly n t (fun i => p.eval (t i)) x = p.eval x := by
  rw [baryPoly_eq ht hn, interpolate_self (p := p) ht hp (fun i _ => rfl)]

/-- C23 for several columns: each column is interpolated on its own. -/
theorem C23_exact_2d {n : ℕ} (hn : 1 ≤ n) {t : ℕ → ℝ} (ht : ∀ i < n, ∀ j < n, t i = t j → i = j) {p : ℕ → ℝ[X]}
    (hp : ∀ c, (p c).degree < n) (x : ℝ) (c : ℕ) :
    baryPoly2d n t (fun i c => (p c).eval (t i)) x c = (p c).eval x := C23_exact hn ht (hp c) x

/-- Three distinct nodes and a parabola. -/
example : ∃ t : ℕ → ℝ, (∀ i < 3, ∀ j < 3, t i = t j → i = j) ∧ ((X ^ 2 : ℝ[X])).degree < (3 : ℕ) := by
  refine ⟨fun i => i, ?_, ?_⟩
  · intro i _ j _ h; simpa using h
  · rw [degree_X_pow]; norm_num

theorem list_prod_filter (labels : List ℝ) (h : labels.Nodup) (cur : ℝ) (g : ℝ → ℝ[X]) :
    ((labels.filter fun m => decide (m ≠ cur)).map g).prod = ∏ m ∈ labels.toFinset.erase cur, g m := by
  have : labels.toFinset.erase cur = (labels.filter fun m => decide (m ≠ cur)).toFinset := by
    ext x; simp [and_comm]
  rw [this, List.prod_toFinset _ (h.filter _)]

/-- C23 for the symbolic version `lagrangePolynomial`: the same polynomial. -/
theorem C23_symbolic {xs ys : List ℝ} (hx : xs.Nodup) (hlen : ys.length = xs.length) :
    (∀ i < xs.length, (lagrangePolynomial xs ys).eval (arr xs i) = arr ys i) ∧
      (1 ≤ xs.length → (lagrangePolynomial xs ys).degree < xs.length ∧
        ∀ x, (lagrangePolynomial xs ys).eval x = baryPoly xs.length (arr xs) (arr ys) x) := by
  have ht : Distinct xs.length (arr xs) := by
    intro i hi j hj e
    simp only [arr, List.getD_eq_getElem?_getD, List.getElem?_eq_getElem hi, List.getElem?_eq_getElem hj,
      Option.getD_some] at e
    exact (List.Nodup.getElem_inj_iff hx).1 e
  have hmem : ∀ i < xs.length, arr xs i ∈ xs := by
    intro i hi
    simp only [arr, List.getD_eq_getElem?_getD, List.getElem?_eq_getElem hi, Option.getD_some]
    exact List.getElem_mem hi
  have hset : xs.toFinset = (range xs.length).image (arr xs) := by
    ext x
    simp only [List.mem_toFinset, mem_image, mem_range]
    constructor
    · intro h
      obtain ⟨i, hi, e⟩ := List.mem_iff_getElem.1 h
      exact ⟨i, hi, by simp [arr, hi, e]⟩
    · rintro ⟨i, hi, rfl⟩; exact hmem i hi
  have hb : ∀ j < xs.length, lagPol xs j = Lagrange.basis (range xs.length) (arr xs) j := by
    intro j hj
    unfold lagPol Lagrange.basis
    simp only
    rw [list_prod_filter xs hx, hset]
    have e : ((range xs.length).image (arr xs)).erase (arr xs j) = ((range xs.length).erase j).image (arr xs) := by
      ext x
      simp only [mem_erase, mem_image, mem_range]
      constructor
      · rintro ⟨h1, i, hi, rfl⟩
        exact ⟨i, ⟨fun e => h1 (by rw [e]), hi⟩, rfl⟩
      · rintro ⟨i, ⟨h1, hi⟩, rfl⟩
        exact ⟨fun e => h1 (ht i hi j hj e), i, hi, rfl⟩
    rw [e, prod_image]
    · apply prod_congr rfl
      intro k _
      unfold Lagrange.basisDivisor; rw [mul_comm]
    · intro a ha b hb' e
      simp at ha hb'
      exact ht a ha.1 b hb'.1 e
  have hL : lagrangePolynomial xs ys = Lagrange.interpolate (range xs.length) (arr xs) (arr ys) := by
    unfold lagrangePolynomial
    rw [Lagrange.interpolate_apply, hlen]
    exact sum_congr rfl (fun j hj => by rw [hb j (mem_range.1 hj)])
  rw [hL]
  refine ⟨fun i hi => Lagrange.eval_interpolate_at_node _ ht.injOn (mem_range.2 hi), fun h1 => ⟨?_, fun x => ?_⟩⟩
  · simpa using Lagrange.degree_interpolate_lt (arr ys) ht.injOn
  · exact (baryPoly_eq ht h1 x).symm

example : ([0, 1, 3] : List ℝ).Nodup := by norm_num

/-! ## C24 -/

/-- C24: for every implemented scheme and number of collocation points, the differentiation matrix maps the samples at
the nodes of any polynomial of degree below the number of nodes to the samples of its derivative, its powers give the
higher derivatives, and each row sums to zero. -/
theorem C24_matrix {scheme : String} (hs : scheme ∈ implemented) {N : ℕ} (hN : minPoints scheme ≤ N) :
    ∃ n nodes M, nColToNNodes scheme N = .ok n ∧ nodePoints n scheme = .ok nodes ∧ matrixDBary n scheme = .ok M ∧
      (∀ i < n, ∑ j ∈ range n, M i j = 0) ∧
      ∀ p : ℝ[X], p.degree < n → ∀ i < n,
        matVec n M (fun j => p.eval (arr nodes j)) i = (derivative p).eval (arr nodes i) ∧
        ∀ k, matVec n (matPow n M k) (fun j => p.eval (arr nodes j)) i = (derivative^[k] p).eval (arr nodes i) := by
  obtain ⟨coll, n, nodes, full, s, s', h1, h2, h3, h4, h5, h6, h7, h8, -⟩ := C21_aligned hs hN
  refine ⟨n, nodes, dMat n (arr nodes) (vSum n (arr nodes)), h2, h3, ?_, fun i hi => dMat_row_sum hi, ?_⟩
  · subst h7
    simp [matrixDBary, h3, bind, Except.bind, pure, Except.pure]
  · intro p hp i hi
    have hd : Distinct n (arr nodes) := by rw [← h7]; exact distinct_arr h8
    exact ⟨dMat_deriv hd hp (fun _ _ => rfl) hi, fun k => dMat_pow hd hp (fun _ _ => rfl) k hi⟩

example : "JGR_inv" ∈ implemented ∧ minPoints "JGR_inv" ≤ 4 := by decide

/-- C24 in time units: on nodes mapped to `[t0, tf]`, `2/(tf-t0)` times the matrix differentiates with respect to time
(this is how the constraints use it). -/
theorem C24_time {n : ℕ} {τ : ℕ → ℝ} (ht : ∀ i < n, ∀ j < n, τ i = τ j → i = j) {t0 tf : ℝ} (h : t0 ≠ tf) {p : ℝ[X]}
    (hp : p.degree < n) {i : ℕ} (hi : i < n) :
    2 / (tf - t0) * matVec n (dMat n τ (vSum n τ)) (fun j => p.eval (t0 + (tf - t0) * (τ j + 1) / 2)) i
      = (derivative p).eval (t0 + (tf - t0) * (τ i + 1) / 2) := by
  have hc : tf - t0 ≠ 0 := sub_ne_zero.2 h.symm
  obtain ⟨q, hq⟩ : ∃ q : ℝ[X], q = C ((tf - t0) / 2) * X + C (t0 + (tf - t0) / 2) := ⟨_, rfl⟩
  have hq1 : ∀ x, q.eval x = t0 + (tf - t0) * (x + 1) / 2 := by intro x; rw [hq]; simp; ring
  have hqd : q.natDegree = 1 := by rw [hq]; exact natDegree_linear (div_ne_zero hc (by norm_num))
  have hdeg : (p.comp q).degree < n := by
    by_cases hp0 : p = 0
    · subst hp0; simpa using hp
    · have hnz : p.natDegree < n := (natDegree_lt_iff_degree_lt hp0).2 hp
      apply lt_of_le_of_lt degree_le_natDegree
      rw [natDegree_comp, hqd, mul_one]
      exact_mod_cast hnz
  have := dMat_deriv (t := τ) ht hdeg (y := fun j => p.eval (t0 + (tf - t0) * (τ j + 1) / 2))
    (fun j _ => by rw [eval_comp, hq1]) hi
  rw [this, derivative_comp, eval_mul, eval_comp, hq1, hq]
  simp
  field_simp

example : (0 : ℝ) ≠ 3 := by norm_num

/-! ## C25 -/

theorem mapM_ok {α β ε : Type} (f : α → Except ε β) (g : α → β) (l : List α) (h : ∀ a ∈ l, f a = .ok (g a)) :
    l.mapM f = .ok (l.map g) := by
  induction l with
  | nil => rfl
  | cons a l ih =>
    rw [List.mapM_cons, h a (by simp), ih (fun b hb => h b (by simp [hb]))]
    rfl

theorem arr_map_range (N : ℕ) (g : ℕ → ℝ) {i : ℕ} (hi : i < N) : arr ((List.range N).map g) i = g i := by
  simp [arr, hi]

/-- The formula used when the end point is not among the points. -/
noncomputable def genF (t : List ℝ) (e : ℝ) : (ℕ → ℝ) → ℝ := fun coefs =>
  (∑ i ∈ range t.length, coefs i * (arr ((List.range t.length).map (vSum t.length (arr t))) i / (e - arr t i))) /
    ∑ i ∈ range t.length, arr ((List.range t.length).map (vSum t.length (arr t))) i / (e - arr t i)

theorem extreme_general {t : List ℝ} (hs : t.Pairwise (· < ·)) (hl : 1 ≤ t.length) {e : ℝ} (he : e ∉ t) {p : ℝ[X]}
    (hp : p.degree < t.length) {y : ℕ → ℝ} (hy : ∀ i < t.length, y i = p.eval (arr t i)) : genF t e y = p.eval e := by
  have hd := distinct_arr hs
  have hx : ∀ i < t.length, arr t i ≠ e := by
    rintro i hi rfl
    apply he
    simp [arr, hi]
  have h1 := interpolate_self hd hp hy
  rw [← h1, ← formula_eq hd hl hx]
  unfold genF
  congr 1
  · apply sum_congr rfl
    intro i hi
    rw [arr_map_range _ _ (mem_range.1 hi)]
    ring
  · apply sum_congr rfl
    intro i hi
    rw [arr_map_range _ _ (mem_range.1 hi)]

/-- C25 for values at the collocation points ("u"): for every scheme, number of points and problem order, the returned
function gives the value at the end of the interval of the polynomial through the data. -/
theorem C25_u {scheme : String} (hs : scheme ∈ implemented) {order : ℕ} (ho : 1 ≤ order) {N : ℕ}
    (hN : minPoints scheme ≤ N) :
    ∃ coll f g, collPoints N scheme order = .ok coll ∧ baryExtreme scheme N "u" "start" order = .ok f ∧
      baryExtreme scheme N "u" "end" order = .ok g ∧
      ∀ p : ℝ[X], p.degree < N → ∀ y : ℕ → ℝ, (∀ i < N, y i = p.eval (arr coll i)) →
        f y = p.eval (-1) ∧ g y = p.eval 1 := by
  obtain ⟨coll, hc, hsh⟩ := coll_shape hs ho hN
  have hN1 : 1 ≤ N := by unfold minPoints at hN; split_ifs at hN <;> omega
  have hv : (List.range N).mapM (fun ii => vCoefColl N ii scheme order)
      = .ok ((List.range N).map (vSum coll.length (arr coll))) :=
    mapM_ok _ _ _ (fun a _ => by simp [vCoefColl, hc, bind, Except.bind, pure, Except.pure])
  have hlen := hsh.length
  have hsort := hsh.sorted
  have hL : (scheme ∈ lobatoLike ++ radauLike ++ ["D2"]) ↔ scheme ∈ withStart := by
    simp [lobatoLike, radauLike, withStart]; tauto
  have hR : (scheme ∈ lobatoLike ++ radauInv ++ ["D2"]) ↔ scheme ∈ withEnd := by
    simp [lobatoLike, radauInv_eq, withEnd]; tauto
  have hleft := hsh.left_mem
  have hright := hsh.right_mem
  simp only [decide_eq_true_eq] at hleft hright
  have hfirst : scheme ∈ withStart → arr coll 0 = -1 := by
    intro h
    obtain ⟨n, inner, _, _, e⟩ := hsh
    rw [e]; simp [arr, h]
  have hlast : scheme ∈ withEnd → arr coll (N - 1) = 1 := by
    intro h
    rw [← hlen]
    obtain ⟨n, inner, _, _, e⟩ := hsh
    have : coll.getLast? = some 1 := by rw [e]; simp only [h, decide_true, if_true, List.getLast?_append]; rfl
    rw [List.getLast?_eq_getElem?] at this
    simp [arr, this]
  have hstart : ∃ f, baryExtreme scheme N "u" "start" order = .ok f ∧ ∀ p : ℝ[X], p.degree < N → ∀ y : ℕ → ℝ,
      (∀ i < N, y i = p.eval (arr coll i)) → f y = p.eval (-1) := by
    by_cases h : scheme ∈ withStart
    · refine ⟨fun coefs => coefs 0, ?_, fun p hp y hy => ?_⟩
      · simp only [baryExtreme, hL, h, if_true]
      · simp only [hy 0 (by omega), hfirst h]
    · refine ⟨genF coll (-1), ?_, fun p hp y hy =>
        extreme_general hsort (by omega) (fun hh => h (hleft.1 hh)) (by rw [hlen]; exact hp) (by rw [hlen]; exact hy)⟩
      simp only [baryExtreme, hL, h, if_true, if_false, hv, hc, bind, Except.bind, pure, Except.pure]
      simp only [show ("start" : String) ≠ "end" by decide, if_false]
      unfold genF; rw [hlen]
  have hend : ∃ f, baryExtreme scheme N "u" "end" order = .ok f ∧ ∀ p : ℝ[X], p.degree < N → ∀ y : ℕ → ℝ,
      (∀ i < N, y i = p.eval (arr coll i)) → f y = p.eval 1 := by
    by_cases h : scheme ∈ withEnd
    · refine ⟨fun coefs => coefs (N - 1), ?_, fun p hp y hy => ?_⟩
      · simp only [baryExtreme, hR, h, if_true, show ("end" : String) ≠ "start" by decide, if_false]
      · simp only [hy (N - 1) (by omega), hlast h]
    · refine ⟨genF coll 1, ?_, fun p hp y hy =>
        extreme_general hsort (by omega) (fun hh => h (hright.1 hh)) (by rw [hlen]; exact hp) (by rw [hlen]; exact hy)⟩
      simp only [baryExtreme, hR, h, if_true, if_false, show ("end" : String) ≠ "start" by decide, hv, hc, bind,
        Except.bind, pure, Except.pure]
      unfold genF; rw [hlen]
  obtain ⟨f, hf, hf'⟩ := hstart
  obtain ⟨g, hg, hg'⟩ := hend
  exact ⟨coll, f, g, hc, hf, hg, fun p hp y hy => ⟨hf' p hp y hy, hg' p hp y hy⟩⟩

example : "LG2" ∈ implemented ∧ minPoints "LG2" ≤ 3 := by decide

/-- C25 for values at the node points ("x"), with problem order at most 2: the value at the end of the interval of the
polynomial through the data. -/
theorem C25_x {scheme : String} (hs : scheme ∈ implemented) {order : ℕ} (ho : order ≤ 2) {N : ℕ}
    (hN : minPoints scheme ≤ N) :
    ∃ n nodes f g, nColToNNodes scheme N = .ok n ∧ nodePoints n scheme = .ok nodes ∧
      baryExtreme scheme n "x" "start" order = .ok f ∧ baryExtreme scheme n "x" "end" order = .ok g ∧
      ∀ p : ℝ[X], p.degree < n → ∀ y : ℕ → ℝ, (∀ i < n, y i = p.eval (arr nodes i)) →
        f y = p.eval (-1) ∧ g y = p.eval 1 := by
  obtain ⟨coll, n, nodes, full, s, s', h1, h2, h3, h4, h5, h6, hlen, hsort, hmem, h10, h11, h12, h13, h14, h15⟩ :=
    C21_aligned hs hN
  have hv : (List.range n).mapM (fun ii => vCoef n ii scheme order)
      = .ok ((List.range n).map (vSum nodes.length (arr nodes))) :=
    mapM_ok _ _ _ (fun a _ => by
      simp [vCoef, h3, show ¬ 2 < order by omega, bind, Except.bind, pure, Except.pure])
  have hN1 : 1 ≤ N := by unfold minPoints at hN; split_ifs at hN <;> omega
  have hn1 : 1 ≤ n := by
    unfold nColToNNodes at h2
    split_ifs at h2 <;> simp at h2 <;> omega
  -- where the ends are
  have hends : (scheme ∉ gaussInv → nodes.head? = some (-1)) ∧ (scheme ∉ gaussLike → nodes.getLast? = some 1) ∧
      (scheme ∈ gaussInv → -1 ∉ nodes) ∧ (scheme ∈ gaussLike → 1 ∉ nodes) := by
    have e := h4
    unfold arrPoints at e
    simp only [h2, h3, bind, Except.bind, pure, Except.pure] at e
    refine ⟨fun h => ?_, fun h => ?_, fun h => ?_, fun h => ?_⟩
    · by_cases hg : scheme ∈ gaussLike
      · simp only [hg, if_true, Except.ok.injEq] at e
        rw [← e, List.head?_append] at h12
        have : nodes ≠ [] := by intro e; subst e; simp at hlen; omega
        cases hh : nodes.head? with
        | none => simp at hh; exact absurd hh this
        | some a => rw [hh] at h12; simpa using h12
      · simp only [hg, h, if_false, Except.ok.injEq] at e
        rw [e]; exact h12
    · by_cases hg : scheme ∈ gaussInv
      · simp only [hg, h, if_true, if_false, Except.ok.injEq] at e
        rw [← e, List.getLast?_append] at h13
        have : nodes ≠ [] := by intro e; subst e; simp at hlen; omega
        cases hh : nodes.getLast? with
        | none => simp at hh; exact absurd hh this
        | some a => rw [hh] at h13; simpa using h13
      · simp only [hg, h, if_false, Except.ok.injEq] at e
        rw [e]; exact h13
    · have hg : scheme ∉ gaussLike := by
        rw [gaussInv_eq] at h
        simp only [List.mem_cons, List.not_mem_nil, or_false] at h
        rcases h with rfl | rfl | rfl <;> decide
      simp only [hg, h, if_true, if_false, Except.ok.injEq] at e
      rw [← e] at h11
      simp only [List.singleton_append, List.pairwise_cons] at h11
      exact fun hm => lt_irrefl _ (h11.1 _ hm)
    · simp only [h, if_true, Except.ok.injEq] at e
      rw [← e, List.pairwise_append] at h11
      exact fun hm => lt_irrefl _ (h11.2.2 _ hm 1 (by simp))
  obtain ⟨e1, e2, e3, e4⟩ := hends
  refine ⟨n, nodes, if scheme ∈ gaussInv then genF nodes (-1) else fun c => c 0,
    if scheme ∈ gaussLike then genF nodes 1 else fun c => c (n - 1), h2, h3, ?_, ?_, fun p hp y hy => ⟨?_, ?_⟩⟩
  · by_cases h : scheme ∈ gaussInv
    · simp only [baryExtreme, h, if_true, show ("x" : String) ≠ "u" by decide, if_false, hv, h3, bind, Except.bind,
        pure, Except.pure, show ("start" : String) ≠ "end" by decide]
      unfold genF; rw [hlen]
    · simp only [baryExtreme, h, if_true, show ("x" : String) ≠ "u" by decide, if_false]
  · by_cases h : scheme ∈ gaussLike
    · simp only [baryExtreme, h, if_true, show ("x" : String) ≠ "u" by decide, if_false, hv, h3, bind, Except.bind,
        pure, Except.pure, show ("end" : String) ≠ "start" by decide]
      unfold genF; rw [hlen]
    · simp only [baryExtreme, h, if_true, show ("x" : String) ≠ "u" by decide, if_false,
        show ("end" : String) ≠ "start" by decide]
  · split_ifs with h
    · exact extreme_general hsort (by omega) (e3 h) (by rw [hlen]; exact hp) (by rw [hlen]; exact hy)
    · have := e1 h
      simp only [hy 0 (by omega)]
      rw [List.head?_eq_getElem?] at this
      simp [arr, this]
  · split_ifs with h
    · exact extreme_general hsort (by omega) (e4 h) (by rw [hlen]; exact hp) (by rw [hlen]; exact hy)
    · have := e2 h
      simp only [hy (n - 1) (by omega)]
      rw [List.getLast?_eq_getElem?, hlen] at this
      simp [arr, this]

example : "CG_inv" ∈ implemented ∧ minPoints "CG_inv" ≤ 3 := by decide

/-- C25, error side: node points are refused for orders above 2 where extrapolation is needed, and unknown modes and
points are refused. -/
theorem C25_errors (scheme : String) (n order : ℕ) :
    (2 < order → 1 ≤ n → scheme ∈ gaussInv → baryExtreme scheme n "x" "start" order = .error .valueError) ∧
    (2 < order → 1 ≤ n → scheme ∈ gaussLike → baryExtreme scheme n "x" "end" order = .error .valueError) ∧
    (∀ mode point, mode ≠ "u" → mode ≠ "x" → baryExtreme scheme n mode point order = .error .valueError) ∧
    (∀ mode point, point ≠ "start" → point ≠ "end" → baryExtreme scheme n mode point order = .error .valueError) := by
  have hm : 2 < order → 1 ≤ n → (List.range n).mapM (fun ii => vCoef n ii scheme order) = .error .valueError := by
    intro h h1
    obtain ⟨m, rfl⟩ : ∃ m, n = m + 1 := ⟨n - 1, by omega⟩
    rw [List.range_succ_eq_map, List.mapM_cons]
    simp [vCoef, h, bind, Except.bind]
  refine ⟨fun h h1 h2 => ?_, fun h h1 h2 => ?_, fun mode point h1 h2 => ?_, fun mode point h1 h2 => ?_⟩
  · simp only [baryExtreme, h2, if_true, show ("x" : String) ≠ "u" by decide, if_false, hm h h1, bind, Except.bind]
  · simp only [baryExtreme, h2, if_true, show ("x" : String) ≠ "u" by decide, if_false, hm h h1, bind, Except.bind,
      show ("end" : String) ≠ "start" by decide]
  · simp only [baryExtreme, h1, h2, if_false]
    split_ifs <;> rfl
  · simp only [baryExtreme, h1, h2, if_false]

/-! ## C70: the end controls of a problem -/

/-- The schemes built on Jacobi points. -/
def jacobiSchemes : List String := ["JG", "JG_inv", "JG2", "JGR", "JGR_inv", "JGL"]

/-- C70 for problems of order 2, and for problems of every order with schemes that are not Jacobi ones: the controls
offered at the ends are the values there of the polynomial through the controls. -/
theorem C70_ends_partial {scheme : String} (hs : scheme ∈ implemented) {order : ℕ} (ho : 1 ≤ order)
    (hj : order = 2 ∨ scheme ∉ jacobiSchemes) {N : ℕ} (hN : minPoints scheme ≤ N) :
    ∃ coll f g, collPoints N scheme = .ok coll ∧ startControl scheme N order = .ok f ∧
      endControl scheme N order = .ok g ∧
      ∀ p : ℝ[X], p.degree < N → ∀ u : ℕ → ℝ, (∀ i < N, u i = p.eval (arr coll i)) →
        f u = p.eval (-1) ∧ g u = p.eval 1 := by
  obtain ⟨coll, f, g, h1, h2, h3, h4⟩ := C25_u hs ho hN
  refine ⟨coll, f, g, ?_, ?_, ?_, h4⟩
  · rcases hj with rfl | hj
    · exact h1
    · rw [← h1]
      simp only [jacobiSchemes, List.mem_cons, List.not_mem_nil, or_false, not_or] at hj
      simp [collPoints, hj]
  · unfold startControl
    split_ifs with h
    · rw [← h2]
      have : scheme ∈ lobatoLike ++ radauLike ++ ["D2"] := by simp at h ⊢; tauto
      simp only [baryExtreme, this, if_true]
    · exact h2
  · unfold endControl
    split_ifs with h
    · rw [← h3]
      have : scheme ∈ lobatoLike ++ radauInv ++ ["D2"] := by simp at h ⊢; tauto
      simp only [baryExtreme, this, if_true, show ("end" : String) ≠ "start" by decide, if_false]
    · exact h3

example : "LG" ∈ implemented ∧ "LG" ∉ jacobiSchemes := by decide

theorem JG22 : JG 2 2 = [(-1 - Real.sqrt 6) / 5, (-1 + Real.sqrt 6) / 5] := by
  have h6 : Real.sqrt 6 * Real.sqrt 6 = 6 := Real.mul_self_sqrt (by norm_num)
  have h3 : Real.sqrt 3 * Real.sqrt 3 = 3 := Real.mul_self_sqrt (by norm_num)
  have p6 : 0 < Real.sqrt 6 := Real.sqrt_pos.2 (by norm_num)
  have p3 : 0 < Real.sqrt 3 := Real.sqrt_pos.2 (by norm_num)
  unfold JG
  rw [realRoots_eq (m := 2) (s := fun i => if i = 0 then (-1 - Real.sqrt 6) / 5 else (-1 + Real.sqrt 6) / 5)
    ((jacobi_threeTerm (by norm_num) (by norm_num)).deg 2) ((jacobi_threeTerm (by norm_num) (by norm_num)).ne_zero 2)]
  · rfl
  · intro i j hij hj
    have : i = 0 := by omega
    have : j = 1 := by omega
    subst_vars; simp; linarith
  · intro i hi
    have : i = 0 ∨ i = 1 := by omega
    rcases this with rfl | rfl <;> simp [jacobi] <;> norm_num <;> nlinarith

theorem JG21 : JG 2 1 = [-Real.sqrt 3 / 3, Real.sqrt 3 / 3] := by
  have h6 : Real.sqrt 6 * Real.sqrt 6 = 6 := Real.mul_self_sqrt (by norm_num)
  have h3 : Real.sqrt 3 * Real.sqrt 3 = 3 := Real.mul_self_sqrt (by norm_num)
  have p6 : 0 < Real.sqrt 6 := Real.sqrt_pos.2 (by norm_num)
  have p3 : 0 < Real.sqrt 3 := Real.sqrt_pos.2 (by norm_num)
  unfold JG
  rw [realRoots_eq (m := 2) (s := fun i => if i = 0 then -Real.sqrt 3 / 3 else Real.sqrt 3 / 3)
    ((jacobi_threeTerm (by norm_num) (by norm_num)).deg 2) ((jacobi_threeTerm (by norm_num) (by norm_num)).ne_zero 2)]
  · rfl
  · intro i j hij hj
    have : i = 0 := by omega
    have : j = 1 := by omega
    subst_vars; simp; linarith
  · intro i hi
    have : i = 0 ∨ i = 1 := by omega
    rcases this with rfl | rfl <;> simp [jacobi] <;> norm_num <;> nlinarith

/-- C70 fails for a Jacobi scheme on a first order problem: with scheme "JG" and two collocation points the control
`u = τ` is reported as something else than -1 at the start. -/
theorem C70_refuted :
    ∃ coll f, collPoints 2 "JG" = .ok coll ∧ startControl "JG" 2 1 = .ok f ∧
      f (fun i => (X : ℝ[X]).eval (arr coll i)) ≠ (X : ℝ[X]).eval (-1) := by
  have h6 : Real.sqrt 6 * Real.sqrt 6 = 6 := Real.mul_self_sqrt (by norm_num)
  have h3 : Real.sqrt 3 * Real.sqrt 3 = 3 := Real.mul_self_sqrt (by norm_num)
  have p6 : 0 < Real.sqrt 6 := Real.sqrt_pos.2 (by norm_num)
  have p3 : 0 < Real.sqrt 3 := Real.sqrt_pos.2 (by norm_num)
  have hr2 := JG22
  have hr1 := JG21
  obtain ⟨coll, f, g, h1, h2, -, h4⟩ := C25_u (scheme := "JG") (by decide) (order := 1) le_rfl (N := 2) (by decide)
  have h1' : coll = JG 2 1 := by
    rw [show collPoints 2 "JG" 1 = .ok (JG 2 1) by simp [collPoints]] at h1
    simpa using h1.symm
  subst h1'
  refine ⟨JG 2 2, f, by simp [collPoints], ?_, ?_⟩
  · rw [← h2]; simp [startControl, radauLike, lobatoLike]
  · have := (h4 (C (Real.sqrt 6 * Real.sqrt 3 / 5) * X + C (-1 / 5)) (by
      apply lt_of_le_of_lt degree_linear_le; norm_num) (fun i => (X : ℝ[X]).eval (arr (JG 2 2) i)) (by
      intro i hi
      have : i = 0 ∨ i = 1 := by omega
      rcases this with rfl | rfl <;> simp [hr1, hr2, arr]
      · linear_combination (Real.sqrt 6 / 15) * h3
      · linear_combination (-Real.sqrt 6 / 15) * h3)).1
    rw [this]
    simp
    intro e
    have e2 : Real.sqrt 6 * Real.sqrt 3 = 4 := by linarith
    have : (Real.sqrt 6 * Real.sqrt 3) * (Real.sqrt 6 * Real.sqrt 3) = 18 := by
      calc _ = (Real.sqrt 6 * Real.sqrt 6) * (Real.sqrt 3 * Real.sqrt 3) := by ring
        _ = 18 := by rw [h6, h3]; norm_num
    rw [e2] at this; norm_num at this

end Chords.Props
