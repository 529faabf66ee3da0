import Verif.Props.PhNodeSolve

/-! # C174: where the start and the controls of a node based segmented problem belong to no feasible point -/

namespace Chords.Conv
open Set Polynomial Chords.Points Chords.Spec Chords.Bary Chords.Gauss Chords.TimeScale Chords.BuTd Chords.PhScheme Chords.Props

/-- The highest derivative of every coordinate is a control. -/
def chainDyn (order n_q : ℕ) : Dyn := fun x xd u _ =>
  (List.range (order * n_q)).map fun i => xd i - if i < (order - 1) * n_q then x (n_q + i) else u (i - (order - 1) * n_q)

private theorem mem_getD {points : List ℕ} {s : ℕ} (h : s < points.length) : points.getD s 0 ∈ points := by
  rw [List.getD_eq_getElem?_getD, List.getElem?_eq_getElem h]
  exact List.getElem_mem _

private theorem col_lt {order n_q p j : ℕ} (hp : p < order) (hj : j < n_q) : n_q * p + j < order * n_q := by
  have : n_q * p + n_q ≤ n_q * order := by rw [← Nat.mul_succ]; exact Nat.mul_le_mul_left _ hp
  rw [mul_comm order]
  omega

theorem chain_solved {order n_q : ℕ} (ho : 1 ≤ order) : Solved (chainDyn order n_q) order n_q fun _ u j => u j := by
  intro x xd u lam
  have hz : zero (chainDyn order n_q x xd u lam) ↔
      ∀ i < order * n_q, xd i = if i < (order - 1) * n_q then x (n_q + i) else u (i - (order - 1) * n_q) := by
    simp only [chainDyn, zero, List.mem_map, List.mem_range, forall_exists_index, and_imp, forall_apply_eq_imp_iff₂, sub_eq_zero]
  rw [hz]
  constructor
  · intro h
    refine ⟨fun p hp j hj => ?_, fun j hj => ?_⟩
    · rw [h _ (col_lt (by omega) hj), if_pos (col_lt (by omega) hj), Nat.mul_succ]
      congr 1
      omega
    · rw [h _ (col_lt (by omega) hj), if_neg (by rw [mul_comm]; omega), mul_comm, Nat.add_sub_cancel_left]
  · rintro ⟨h1, h2⟩ i hi
    have hq : 0 < n_q := by
      rcases Nat.eq_zero_or_pos n_q with h | h
      · rw [h, mul_zero] at hi; omega
      · exact h
    have k1 : i / n_q < order := (Nat.div_lt_iff_lt_mul hq).2 hi
    have k2 := Nat.mod_lt i hq
    have k3 := Nat.div_add_mod i n_q
    split_ifs with hl
    · have k4 : i / n_q < order - 1 := (Nat.div_lt_iff_lt_mul hq).2 hl
      have := h1 (i / n_q) (by omega) _ k2
      rw [Nat.mul_succ] at this
      rw [← k3, this]
      congr 1
      omega
    · have k4 : i / n_q = order - 1 := by
        have : ¬ i / n_q < order - 1 := fun h => hl ((Nat.div_lt_iff_lt_mul hq).1 h)
        omega
      have := h2 (i % n_q) k2
      rw [← k4, k3] at this
      have e : i - (order - 1) * n_q = i % n_q := by rw [← k4, mul_comm]; omega
      rw [this, e]

private theorem iter_degree {n : ℕ} (k : ℕ) {P : ℝ[X]} (h : P.degree < n) (hk : k ≤ n) : (derivative^[k] P).degree < (n - k : ℕ) := by
  by_cases h0 : derivative^[k] P = 0
  · rw [h0, degree_zero]; exact WithBot.bot_lt_coe _
  have hP : P ≠ 0 := by rintro rfl; simp at h0
  rw [degree_eq_natDegree h0, Nat.cast_lt]
  rw [degree_eq_natDegree hP, Nat.cast_lt] at h
  have h1 := natDegree_iterate_derivative P k
  by_contra hc
  have : P.natDegree < k := by omega
  exact h0 (iterate_derivative_eq_zero this)

private theorem tau_inj {N : ℕ} {t : ℕ → ℝ} (hd : Distinct N t) {a b : ℝ} (hab : a < b) : Set.InjOn (fun m => tauToT (t m) a b) (Finset.range N : Set ℕ) := by
  intro m hm k hk h
  have hm := Finset.mem_range.1 (Finset.mem_coe.1 hm)
  have hk := Finset.mem_range.1 (Finset.mem_coe.1 hk)
  refine hd.injOn (by simpa using hm) (by simpa using hk) ?_
  have : (b - a) * (t m - t k) = 0 := by
    simp only [tauToT] at h
    linarith
  rcases mul_eq_zero.1 this with h | h
  · linarith
  · linarith

/-- Two polynomials with the same values at the collocation points. -/
private theorem eq_of_points {N : ℕ} {t : ℕ → ℝ} (hd : Distinct N t) {a b : ℝ} (hab : a < b) {P Q : ℝ[X]} (hP : P.degree < N) (hQ : Q.degree < N)
    (h : ∀ m < N, P.eval (tauToT (t m) a b) = Q.eval (tauToT (t m) a b)) : P = Q :=
  eq_of_degrees_lt_of_eval_index_eq (Finset.range N) (tau_inj hd hab) (by simpa using hP) (by simpa using hQ) fun m hm => h m (Finset.mem_range.1 hm)

/-- A polynomial of too low a degree cannot pass by the powers of the instants. -/
private theorem no_power {N : ℕ} (hN : 1 ≤ N) {t : ℕ → ℝ} (hd : Distinct N t) {a b : ℝ} (hab : a < b) {P : ℝ[X]} (hP : P.degree < (N - 1 : ℕ))
    (h : ∀ m < N, P.eval (tauToT (t m) a b) = tauToT (t m) a b ^ (N - 1)) : False := by
  have hX : (X ^ (N - 1) : ℝ[X]).degree = (N - 1 : ℕ) := degree_X_pow _
  have := eq_of_points hd hab (hP.trans (by exact_mod_cast (by omega : N - 1 < N))) (Q := X ^ (N - 1)) (by rw [hX]; exact_mod_cast (by omega : N - 1 < N)) fun m hm => by
    rw [h m hm, eval_pow, eval_X]
  rw [this, hX] at hP
  exact lt_irrefl _ hP

private theorem top_degree {n : ℕ} (k : ℕ) {P : ℝ[X]} (h : P.degree < n) : (derivative^[k] P).degree < (n - k : ℕ) := by
  rcases Nat.lt_or_ge n k with hk' | hk'
  · by_cases hz : P = 0
    · rw [hz]; simp [WithBot.bot_lt_coe]
    · rw [iterate_derivative_eq_zero (by rw [degree_eq_natDegree hz, Nat.cast_lt] at h; omega), degree_zero]
      exact WithBot.bot_lt_coe _
  · exact iter_degree k h hk'

private theorem two_kind {scheme : String} (hs : scheme ∈ gauss2) :
    (∀ p, nColToNNodes scheme p = .ok (p + 2)) ∧ scheme ∉ gaussLike ++ gaussInv ∧ minPoints scheme = 1 := by
  rw [gauss2_eq] at hs
  simp only [List.mem_cons, List.not_mem_nil, or_false] at hs
  rcases hs with rfl | rfl | rfl | rfl <;> simp [minPoints, nColToNNodes, gaussLike, gaussInv_eq, gauss2_eq, radauLike, radauInv_eq]

/-- C174 fails with Lobatto points, whatever the order, the segments and the numbers of points: there are controls without any feasible point, from any start. The highest
derivatives are the controls. -/
theorem C174_lobatto_all_refuted {scheme : String} (hs : scheme ∈ lobatoLike) {order n_q n_u : ℕ} (ho : 1 ≤ order) (hq : 1 ≤ n_q) (hu : 1 ≤ n_u) {points : List ℕ}
    (h0 : points ≠ []) (hN : ∀ p ∈ points, minPoints scheme ≤ p) {ext : List ℝ} (hl : ext.length = points.length + 1)
    (ht : ∀ s < points.length, ext.getD s 0 < ext.getD (s + 1) 0) :
    ∃ C, phConstraints (chainDyn order n_q) .node scheme order n_q n_u points ext = .ok C ∧ ∃ c, ∀ x0, ¬ ∃ v q, C v q ∧ Given order n_q n_u points x0 c v := by
  have himp : scheme ∈ implemented := by rw [implemented]; simp [hs]
  have hn : (∀ p, nColToNNodes scheme p = .ok p) ∧ scheme ∉ gaussLike ++ gaussInv ∧ minPoints scheme = 2 := by
    simp only [lobatoLike, List.mem_cons, List.not_mem_nil, or_false] at hs
    rcases hs with rfl | rfl | rfl <;> simp [minPoints, nColToNNodes, gaussLike, gaussInv_eq, gauss2_eq, radauLike, radauInv_eq, lobatoLike, otherSchemes]
  obtain ⟨hn, hng, hmin⟩ := hn
  obtain ⟨coll, hcoll, hdis⟩ := coll_choice himp (order := 2) (by omega) hN
  obtain ⟨cu, hcu, -⟩ := coll_choice himp ho hN
  obtain ⟨C, hC, hCv⟩ := C101_feasible himp ho (.inr hng) (chainDyn order n_q) n_q n_u h0 hN hcu hcoll (fun p _ => hn p) hl fun s h => (ht s h).ne
  have hpos := List.length_pos_of_ne_nil h0
  obtain ⟨N, hNN⟩ : ∃ N, N = points.getD 0 0 := ⟨_, rfl⟩
  have hNm : N ∈ points := hNN ▸ mem_getD hpos
  have hN2 : 2 ≤ N := hmin ▸ hN N hNm
  refine ⟨C, hC, fun _ m _ => tauToT (arr (coll N) m) (ext.getD 0 0) (ext.getD (0 + 1) 0) ^ (N - 1), fun x0 => ?_⟩
  rintro ⟨v, q, hv, hg⟩
  obtain ⟨⟨Q, hQ⟩, -, hc, -⟩ := (hCv v q).1 hv
  have hQ0 := hQ 0 hpos
  have hF := chain_solved (n_q := n_q) ho
  have chain : ∀ p, p + 1 < order → ∀ j < n_q, derivative (Q 0 (n_q * p + j)) = Q 0 (n_q * (p + 1) + j) := by
    intro p hp j hj
    have a := hQ0 _ (col_lt (show p < order by omega) hj)
    have b := hQ0 _ (col_lt hp hj)
    rw [← hNN] at a b
    refine eq_of_points (hdis N hNm) (ht 0 hpos) (degree_derivative_le.trans_lt a.1) b.1 fun m hm => ?_
    rw [← (a.2.1 m hm).2, ← (b.2.1 m hm).1]
    exact ((hF _ _ _ _).1 (hc 0 hpos m (hNN ▸ hm))).1 p hp j hj
  have htop := iterate_chain chain hq (order - 1) (by omega)
  have d0 := (hQ0 0 (by have := col_lt (n_q := n_q) (show 0 < order by omega) hq; simpa using this)).1
  rw [← hNN] at d0
  have hcol := hQ0 _ (col_lt (show order - 1 < order by omega) hq)
  rw [← hNN] at hcol
  refine no_power (by omega) (hdis N hNm) (ht 0 hpos) (P := derivative (Q 0 (n_q * (order - 1) + 0))) ?_ fun m hm => ?_
  · rw [← htop, ← Function.iterate_succ_apply' (f := derivative)]
    exact (top_degree _ d0).trans_le (by exact_mod_cast (by omega : N - (order - 1).succ ≤ N - 1))
  · rw [← (hcol.2.1 m hm).2, ((hF _ _ _ _).1 (hc 0 hpos m (hNN ▸ hm))).2 0 hq]
    exact hg.controls 0 hpos m (hNN ▸ hm) 0 hu

/-- C174 fails for the schemes with nodes at both ends besides the collocation points from the order 3 on, whatever the segments and the numbers of points. -/
theorem C174_two_order_refuted {scheme : String} (hs : scheme ∈ gauss2) {order n_q n_u : ℕ} (ho : 3 ≤ order) (hq : 1 ≤ n_q) (hu : 1 ≤ n_u) {points : List ℕ}
    (h0 : points ≠ []) (hN : ∀ p ∈ points, minPoints scheme ≤ p) {ext : List ℝ} (hl : ext.length = points.length + 1)
    (ht : ∀ s < points.length, ext.getD s 0 < ext.getD (s + 1) 0) :
    ∃ C, phConstraints (chainDyn order n_q) .node scheme order n_q n_u points ext = .ok C ∧ ∃ c, ∀ x0, ¬ ∃ v q, C v q ∧ Given order n_q n_u points x0 c v := by
  have himp : scheme ∈ implemented := by rw [implemented]; simp [hs]
  obtain ⟨hn, hng, hmin⟩ := two_kind hs
  obtain ⟨coll, hcoll, hdis⟩ := coll_choice himp (order := 2) (by omega) hN
  obtain ⟨cu, hcu, -⟩ := coll_choice himp (order := order) (by omega) hN
  obtain ⟨C, hC, hCv⟩ := C101_feasible himp (by omega) (.inr hng) (chainDyn order n_q) n_q n_u h0 hN hcu hcoll (fun p _ => hn p) hl fun s h => (ht s h).ne
  have hpos := List.length_pos_of_ne_nil h0
  obtain ⟨N, hNN⟩ : ∃ N, N = points.getD 0 0 := ⟨_, rfl⟩
  have hNm : N ∈ points := hNN ▸ mem_getD hpos
  have hN1 : 1 ≤ N := hmin ▸ hN N hNm
  refine ⟨C, hC, fun _ m _ => tauToT (arr (coll N) m) (ext.getD 0 0) (ext.getD (0 + 1) 0) ^ (N - 1), fun x0 => ?_⟩
  rintro ⟨v, q, hv, hg⟩
  obtain ⟨⟨Q, hQ⟩, hsh, hc, -⟩ := (hCv v q).1 hv
  have hQ0 := hQ 0 hpos
  have hF := chain_solved (order := order) (n_q := n_q) (by omega)
  have chain := node_chain (T := fun s => ext.getD s 0) hs (hN _ (mem_getD hpos)) rfl (hn _) (hcoll _ (mem_getD hpos)) (ht 0 hpos) hF hQ0 hpos hsh hc
  have htop := iterate_chain chain hq (order - 1) (by omega)
  have d0 := (hQ0 0 (by have := col_lt (n_q := n_q) (show 0 < order by omega) hq; simpa using this)).1
  rw [← hNN] at d0
  have hcol := hQ0 _ (col_lt (show order - 1 < order by omega) hq)
  rw [← hNN] at hcol
  refine no_power hN1 (hdis N hNm) (ht 0 hpos) (P := derivative (Q 0 (n_q * (order - 1) + 0))) ?_ fun m hm => ?_
  · rw [← htop, ← Function.iterate_succ_apply' (f := derivative)]
    exact (top_degree _ d0).trans_le (by exact_mod_cast (by omega : N + 2 - (order - 1).succ ≤ N - 1))
  · rw [← (hcol.2.1 m hm).2, ((hF _ _ _ _).1 (hc 0 hpos m (hNN ▸ hm))).2 0 hq]
    exact hg.controls 0 hpos m (hNN ▸ hm) 0 hu

/-- C174 fails for the schemes without points at the ends with two segments or more, whatever the numbers of points: the Gauss schemes in problems of orders 1 and 2, and those
with nodes at both ends besides the collocation points from the order 2 on. The highest derivatives are the controls, zero in the first segment and one in the others. -/
theorem C174_knots_refuted {scheme : String} {order n_q n_u : ℕ} (hs : (scheme ∈ gaussLike ++ gaussInv ∧ 1 ≤ order ∧ order ≤ 2) ∨ (scheme ∈ gauss2 ∧ 2 ≤ order)) (hq : 1 ≤ n_q)
    (hu : 1 ≤ n_u) {points : List ℕ} (h2 : 2 ≤ points.length) (hN : ∀ p ∈ points, 1 ≤ p) {ext : List ℝ} (hl : ext.length = points.length + 1)
    (ht : ∀ s < points.length, ext.getD s 0 < ext.getD (s + 1) 0) :
    ∃ C, phConstraints (chainDyn order n_q) .node scheme order n_q n_u points ext = .ok C ∧
      ∀ x0, ¬ ∃ v q, C v q ∧ Given order n_q n_u points x0 (fun s _ _ => if s = 0 then 0 else 1) v := by
  have ho : 1 ≤ order := by omega
  obtain ⟨himp, n, hn, hmin, hord⟩ : scheme ∈ implemented ∧ ∃ n, (∀ p, nColToNNodes scheme p = .ok (p + n)) ∧ minPoints scheme = 1 ∧
      (order ≤ 2 ∨ scheme ∉ gaussLike ++ gaussInv) := by
    rcases hs with ⟨hs, h1, h2⟩ | ⟨hs, -⟩
    · refine ⟨?_, 1, ?_⟩
      · rw [implemented]
        simp only [List.mem_append] at hs ⊢
        rcases hs with h | h <;> simp [h]
      · simp only [List.mem_append, gaussLike, gaussInv_eq, List.mem_cons, List.not_mem_nil, or_false] at hs
        rcases hs with (rfl | rfl | rfl) | (rfl | rfl | rfl) <;> simp [minPoints, nColToNNodes, gaussLike, gaussInv_eq, gauss2_eq, radauLike, radauInv_eq, lobatoLike, h2]
    · obtain ⟨k1, k2, k3⟩ := two_kind hs
      exact ⟨by rw [implemented]; simp [hs], 2, k1, k3, .inr k2⟩
  have hN' : ∀ p ∈ points, minPoints scheme ≤ p := by rw [hmin]; exact hN
  have h0 : points ≠ [] := List.ne_nil_of_length_pos (by omega)
  obtain ⟨coll, hcoll, hdis⟩ := coll_choice himp (order := 2) (by omega) hN'
  obtain ⟨cu, hcu, -⟩ := coll_choice himp ho hN'
  obtain ⟨C, hC, hCv⟩ := C101_feasible himp ho hord (chainDyn order n_q) n_q n_u h0 hN' hcu hcoll (fun p _ => hn p) hl fun s h => (ht s h).ne
  refine ⟨C, hC, fun x0 => ?_⟩
  rintro ⟨v, q, hv, hg⟩
  obtain ⟨⟨Q, hQ⟩, hsh, hc, -⟩ := (hCv v q).1 hv
  have hF := chain_solved (n_q := n_q) ho
  have slope : ∀ s < points.length, derivative (Q s (n_q * (order - 1) + 0)) = Polynomial.C (if s = 0 then 0 else 1) := by
    intro s h
    have hcol := hQ s h _ (col_lt (show order - 1 < order by omega) hq)
    have hp1 := hN _ (mem_getD h)
    refine eq_of_points (hdis _ (mem_getD h)) (ht s h) ?_ (degree_C_le.trans_lt (by exact_mod_cast hp1)) fun m hm => ?_
    · rcases hs with ⟨hs, -⟩ | ⟨hs, ho2⟩
      · have := hn (points.getD s 0)
        have e : n = 1 := by
          simp only [List.mem_append, gaussLike, gaussInv_eq, List.mem_cons, List.not_mem_nil, or_false] at hs
          rcases hs with (rfl | rfl | rfl) | (rfl | rfl | rfl) <;> simp [nColToNNodes, gaussLike, gaussInv_eq] at this <;> omega
        subst e
        simpa using top_degree 1 hcol.1
      · have e : n = 2 := by
          have h1 := hn 0
          rw [(two_kind hs).1 0] at h1
          simp only [Except.ok.injEq] at h1
          omega
        subst e
        have chain := node_chain (T := fun s => ext.getD s 0) hs (hN' _ (mem_getD h)) rfl (hn _) (hcoll _ (mem_getD h)) (ht s h) hF (hQ s h) h hsh hc
        have htop := iterate_chain chain hq (order - 1) (by omega)
        have d0 := (hQ s h 0 (by have := col_lt (n_q := n_q) (show 0 < order by omega) hq; simpa using this)).1
        rw [← htop, ← Function.iterate_succ_apply' (f := derivative)]
        exact (top_degree _ d0).trans_le (by exact_mod_cast (by omega : points.getD s 0 + 2 - (order - 1).succ ≤ points.getD s 0))
    · rw [← (hcol.2.1 m hm).2, ((hF _ _ _ _).1 (hc s h m hm)).2 0 hq, eval_C]
      exact hg.controls s h m hm 0 hu
  have := C101_highest (by
    simp only [List.mem_append] at hs ⊢
    rcases hs with ⟨h, -⟩ | ⟨h, -⟩
    · exact .inl h
    · exact .inr h) (hQ 0 (by omega)) (hQ 1 (by omega)) _ (col_lt (show order - 1 < order by omega) hq) (by omega)
  rw [slope 0 (by omega), slope 1 (by omega)] at this
  simp at this

/-- C174 fails for the Gauss schemes beyond order 2: the problem cannot be set up. -/
theorem C174_order_refuted {scheme : String} (hs : scheme ∈ gaussLike ++ gaussInv) {order : ℕ} (ho : 3 ≤ order) (F : Dyn) (n_q n_u : ℕ) {points : List ℕ} (h0 : points ≠ [])
    (hN : ∀ p ∈ points, 1 ≤ p) (ext : List ℝ) : phConstraints F .node scheme order n_q n_u points ext = .error (.points .valueError) := by
  have hf : scheme ∈ implemented ∧ minPoints scheme = 1 ∧ (scheme ∈ gaussInv ∨ (scheme ∉ gaussInv ∧ scheme ∈ gaussLike)) ∧ ∃ sl, collIndices scheme = .ok sl := by
    refine ⟨?_, ?_, ?_, ?_⟩
    · rw [implemented]
      simp only [List.mem_append] at hs ⊢
      rcases hs with h | h <;> simp [h]
    · simp only [List.mem_append, gaussLike, gaussInv_eq, List.mem_cons, List.not_mem_nil, or_false] at hs
      rcases hs with (rfl | rfl | rfl) | (rfl | rfl | rfl) <;> simp [minPoints]
    · by_cases h : scheme ∈ gaussInv
      · exact .inl h
      · exact .inr ⟨h, by simpa [h] using hs⟩
    · simp only [List.mem_append, gaussLike, gaussInv_eq, List.mem_cons, List.not_mem_nil, or_false] at hs
      rcases hs with (rfl | rfl | rfl) | (rfl | rfl | rfl) <;> exact ⟨_, by simp [collIndices, gaussLike, gaussInv_eq]; rfl⟩
  obtain ⟨himp, hmin, hkind, sl, hsl⟩ := hf
  have seg : ∀ g : Seg, 1 ≤ g.n → phSeg .node scheme sl order n_q g = .error (.points .valueError) := by
    intro g hg
    obtain ⟨coll, n, nodes, full, s, s', k1, k2, k3, -, -, -, hlen, -⟩ := C21_aligned himp (hmin.symm ▸ hg)
    have hn1 : 1 ≤ n := by
      unfold nColToNNodes at k2
      split_ifs at k2 <;> simp at k2 <;> omega
    obtain ⟨e1, e2, -⟩ := C25_errors scheme n order
    have hD : ∃ D, matrixDBary n scheme = .ok D := ⟨_, by simp only [matrixDBary, k3, bind, Except.bind, pure, Except.pure]; rfl⟩
    obtain ⟨D, hD⟩ := hD
    rcases hkind with h | ⟨h, h'⟩
    · simp only [phSeg, phNode, k2, hD, fStart, if_pos h, e1 (by omega) hn1 h, lift, bind, Except.bind, Except.map]
    · simp only [phSeg, phNode, k2, hD, fStart, if_neg h, fEnd, if_pos h', e2 (by omega) hn1 h', lift, bind, Except.bind, Except.map]
  obtain ⟨p, ps, rfl⟩ := List.exists_cons_of_ne_nil h0
  obtain ⟨g, gs, hg, hgn⟩ : ∃ g gs, segs (p :: ps) ext = g :: gs ∧ g.n = p := by
    unfold segs
    rw [List.length_cons, List.range_succ_eq_map, List.map_cons]
    exact ⟨_, _, rfl, rfl⟩
  unfold phConstraints
  simp only [hsl, hg, List.mapM_cons, seg g (hgn ▸ hN p (by simp)), lift, bind, Except.bind]

/-- The hypotheses hold of two segments of a second, with three points each. -/
example : "LGL" ∈ lobatoLike ∧ "LG2" ∈ gauss2 ∧ "JG_inv" ∈ gaussLike ++ gaussInv ∧ ([3, 3] : List ℕ) ≠ [] ∧ (∀ p ∈ [3, 3], minPoints "LGL" ≤ p) ∧
    (∀ p ∈ [3, 3], minPoints "LG2" ≤ p) ∧ (∀ p ∈ [3, 3], 1 ≤ p) ∧ ([0, 1, 2] : List ℝ).length = [3, 3].length + 1 ∧
    ∀ s < [3, 3].length, ([0, 1, 2] : List ℝ).getD s 0 < ([0, 1, 2] : List ℝ).getD (s + 1) 0 := by
  refine ⟨by decide, by decide, by decide, by decide, by decide, by decide, by decide, rfl, fun s hs => ?_⟩
  have : s < 2 := hs
  interval_cases s <;> simp <;> norm_num

end Chords.Conv
