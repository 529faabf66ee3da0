import Verif.Props.PhNodeConv

/-! # C174: what the start and the controls determine in node based segmented problems -/

namespace Chords.Conv
open Set Polynomial Chords.Points Chords.Spec Chords.Bary Chords.Gauss Chords.TimeScale Chords.BuTd Chords.PhScheme Chords.Props

/-- All the states, their derivatives and the controls are the same, in all rows and columns. -/
def SameStates (order n_q n_u : ℕ) (points : List ℕ) (v v' : Vars) : Prop :=
  ∀ r < points.sum + points.length + 1, (∀ c < order * n_q, v.x r c = v'.x r c ∧ v.xd r c = v'.xd r c) ∧ ∀ k < n_u, v.u r k = v'.u r k

/-- The columns of the states as a system of first order. -/
def firstOrder (order n_q : ℕ) (A : (ℕ → ℕ → ℝ) → (ℕ → ℝ) → ℕ → ℝ) : (ℕ → ℕ → ℝ) → (ℕ → ℝ) → ℕ → ℝ :=
  fun ξ u c => if c / n_q + 1 < order then ξ 0 (n_q + c) else A (fun p j => ξ 0 (n_q * p + j)) u (c % n_q)

private theorem col_lt {order n_q p j : ℕ} (hp : p < order) (hj : j < n_q) : n_q * p + j < order * n_q := by
  have : n_q * p + n_q ≤ n_q * order := by rw [← Nat.mul_succ]; exact Nat.mul_le_mul_left _ hp
  rw [mul_comm order]
  omega

private theorem col_split {order n_q c : ℕ} (hc : c < order * n_q) : c / n_q < order ∧ c % n_q < n_q ∧ n_q * (c / n_q) + c % n_q = c := by
  have hq : 0 < n_q := by
    rcases Nat.eq_zero_or_pos n_q with h | h
    · rw [h, mul_zero] at hc; omega
    · exact h
  exact ⟨(Nat.div_lt_iff_lt_mul hq).2 hc, Nat.mod_lt _ hq, Nat.div_add_mod c n_q⟩

private theorem col_div {n_q p j : ℕ} (hj : j < n_q) : (n_q * p + j) / n_q = p ∧ (n_q * p + j) % n_q = j := by
  constructor
  · rw [Nat.mul_add_div (by omega), Nat.div_eq_of_lt hj, add_zero]
  · rw [Nat.mul_add_mod, Nat.mod_eq_of_lt hj]

private theorem mem_getD {points : List ℕ} {s : ℕ} (h : s < points.length) : points.getD s 0 ∈ points := by
  rw [List.getD_eq_getElem?_getD, List.getElem?_eq_getElem h]
  exact List.getElem_mem _

theorem first_solved {F : Dyn} {order n_q : ℕ} {A : (ℕ → ℕ → ℝ) → (ℕ → ℝ) → ℕ → ℝ} (ho : 1 ≤ order) (hF : Solved F order n_q A) :
    Solved F 1 (order * n_q) (firstOrder order n_q A) := by
  intro x xd u lam
  rw [hF]
  simp only [Nat.sub_self, mul_zero, zero_add, firstOrder]
  constructor
  · rintro ⟨h1, h2⟩
    refine ⟨fun p hp => by omega, fun c hc => ?_⟩
    obtain ⟨k1, k2, k3⟩ := col_split hc
    split_ifs with hp
    · have := h1 _ hp _ k2
      rw [k3] at this
      rw [this, Nat.mul_succ]
      congr 1
      omega
    · have := h2 _ k2
      rwa [show order - 1 = c / n_q by omega, k3] at this
  · rintro ⟨-, h⟩
    refine ⟨fun p hp j hj => ?_, fun j hj => ?_⟩
    · rw [h _ (col_lt (by omega) hj), (col_div hj).1, if_pos hp]
      congr 1
      rw [Nat.mul_succ]
      omega
    · rw [h _ (col_lt (by omega) hj), (col_div hj).1, if_neg (by omega), (col_div hj).2]

theorem first_lip {order n_q n_u : ℕ} {A : (ℕ → ℕ → ℝ) → (ℕ → ℝ) → ℕ → ℝ} {L : ℝ} (hL1 : 1 ≤ L) (hL : LipA A (fun _ => True) order n_q n_u L) :
    LipA (firstOrder order n_q A) (fun _ => True) 1 (order * n_q) n_u L := by
  intro ξ η u w d _ _ h hu c hc
  obtain ⟨k1, k2, k3⟩ := col_split hc
  have hd : 0 ≤ d := (abs_nonneg _).trans (h 0 one_pos c hc)
  unfold firstOrder
  split_ifs with hp
  · refine (h 0 one_pos _ ?_).trans (le_mul_of_one_le_left hd hL1)
    have := col_lt hp k2
    rw [Nat.mul_succ] at this
    omega
  · exact hL _ _ _ _ d trivial trivial (fun p hp j hj => h 0 one_pos _ (col_lt hp hj)) hu _ k2

theorem segPoly_first {v : Vars} {scheme : String} {order n_q : ℕ} {points : List ℕ} {coll : ℕ → List ℝ} {T : ℕ → ℝ} {s k : ℕ} {P : ℕ → ℝ[X]}
    (hD2 : scheme ≠ "D2") (hk : k ≤ points.getD s 0 + 1) (hP : NodeSegPoly v scheme order n_q points coll T s k P) :
    SegPoly v 1 (order * n_q) points coll T s P := by
  intro c hc
  obtain ⟨h1, h2, h3, -⟩ := hP c hc
  refine ⟨lt_of_lt_of_le h1 (by rw [add_comm]; exact_mod_cast hk), fun p hp => ?_, fun p hp m hm => ?_⟩
  · obtain rfl : p = 0 := by omega
    simpa [Vars.lev] using h3 hD2
  · rcases Nat.lt_or_eq_of_le hp with hp | rfl
    · obtain rfl : p = 0 := by omega
      simpa [Vars.lev] using (h2 m hm).1
    · simpa [Vars.lev] using (h2 m hm).2

theorem first_given {order n_q n_u : ℕ} {points : List ℕ} {x0 : ℕ → ℕ → ℝ} {c : ℕ → ℕ → ℕ → ℝ} {v : Vars} :
    Given order n_q n_u points x0 c v ↔ Given 1 (order * n_q) n_u points (fun _ i => x0 (i / n_q) (i % n_q)) c v := by
  constructor
  · rintro ⟨h1, h2⟩
    refine ⟨fun p hp i hi => ?_, h2⟩
    obtain rfl : p = 0 := by omega
    obtain ⟨k1, k2, k3⟩ := col_split hi
    have := h1 _ k1 _ k2
    rw [Vars.lev, if_pos k1, k3] at this
    simpa [Vars.lev] using this
  · rintro ⟨h1, h2⟩
    refine ⟨fun p hp j hj => ?_, h2⟩
    have := h1 0 one_pos _ (col_lt hp hj)
    rw [(col_div hj).1, (col_div hj).2] at this
    rw [Vars.lev, if_pos hp]
    simpa [Vars.lev] using this

/-- Equal polynomials and equal states at the knots leave equal derivatives there. -/
theorem knot_derivatives {scheme : String} (hs : scheme ∈ implemented) (hD2 : scheme ≠ "D2") {order n_q : ℕ} (ho : 1 ≤ order) {points : List ℕ} {coll : ℕ → List ℝ} {T : ℕ → ℝ}
    {nodes : ℕ → ℕ} {v v' : Vars} {Q Q' : ℕ → ℕ → ℝ[X]} (hpos : 0 < points.length)
    (hQ : ∀ s < points.length, NodeSegPoly v scheme order n_q points coll T s (nodes (points.getD s 0)) (Q s))
    (hQ' : ∀ s < points.length, NodeSegPoly v' scheme order n_q points coll T s (nodes (points.getD s 0)) (Q' s)) (hsh : NodeShift v scheme order n_q points)
    (hsh' : NodeShift v' scheme order n_q points) (he : ∀ s < points.length, ∀ c < order * n_q, Q s c = Q' s c)
    (hx : ∀ s ≤ points.length, ∀ c < order * n_q, v.x (knotRow points s) c = v'.x (knotRow points s) c) :
    ∀ s ≤ points.length, ∀ c < order * n_q, v.xd (knotRow points s) c = v'.xd (knotRow points s) c := by
  intro s hsl c hc
  have left : s < points.length → (scheme ∈ gaussLike ++ radauInv ++ gauss2 ∨ (scheme ∈ lobatoLike ++ radauLike ∧ s = 0) ∨
        (scheme ∈ gaussInv ∧ n_q * (order - 1) ≤ c)) → v.xd (knotRow points s) c = v'.xd (knotRow points s) c := by
    intro h hh
    rw [((hQ s h) c hc).2.2.2.1 hh, ((hQ' s h) c hc).2.2.2.1 hh, he s h c hc]
  have right : 0 < s → (scheme ∈ gaussInv ++ radauLike ++ gauss2 ++ lobatoLike ∨ (scheme ∈ radauInv ∧ s = points.length) ∨
        (scheme ∈ gaussLike ∧ n_q * (order - 1) ≤ c)) → v.xd (knotRow points s) c = v'.xd (knotRow points s) c := by
    intro h hh
    obtain ⟨i, rfl⟩ : ∃ i, s = i + 1 := ⟨s - 1, by omega⟩
    rw [((hQ i (by omega)) c hc).2.2.2.2 hh, ((hQ' i (by omega)) c hc).2.2.2.2 hh, he i (by omega) c hc]
  have shift : KnotShift v order n_q points s → KnotShift v' order n_q points s → ¬ n_q * (order - 1) ≤ c → v.xd (knotRow points s) c = v'.xd (knotRow points s) c := by
    intro h h' hlt
    have hlt : c < (order - 1) * n_q := by rw [mul_comm]; omega
    rw [← h c hlt, ← h' c hlt]
    refine hx s hsl _ ?_
    have : order * n_q = (order - 1) * n_q + n_q := by rw [← Nat.succ_mul, Nat.succ_eq_add_one, Nat.sub_add_cancel ho]
    omega
  rw [implemented] at hs
  simp only [List.mem_append, otherSchemes, List.mem_singleton] at hs
  rcases hs with (((((h | h) | h) | h) | h) | h) | h
  · rcases Nat.lt_or_eq_of_le hsl with hlt | rfl
    · exact left hlt (.inl (by simp [h]))
    · by_cases hb : n_q * (order - 1) ≤ c
      · exact right hpos (.inr (.inr ⟨h, hb⟩))
      · exact shift (hsh.2.2 h) (hsh'.2.2 h) hb
  · rcases Nat.eq_zero_or_pos s with rfl | h0
    · by_cases hb : n_q * (order - 1) ≤ c
      · exact left hpos (.inr (.inr ⟨h, hb⟩))
      · exact shift (hsh.2.1 h) (hsh'.2.1 h) hb
    · exact right h0 (.inl (by simp [h]))
  · rcases Nat.eq_zero_or_pos s with rfl | h0
    · exact left hpos (.inl (by simp [h]))
    · exact right h0 (.inl (by simp [h]))
  · rcases Nat.eq_zero_or_pos s with rfl | h0
    · exact left hpos (.inr (.inl ⟨by simp [h], rfl⟩))
    · exact right h0 (.inl (by simp [h]))
  · rcases Nat.lt_or_eq_of_le hsl with hlt | rfl
    · exact left hlt (.inl (by simp [h]))
    · exact right hpos (.inr (.inl ⟨h, rfl⟩))
  · rcases Nat.eq_zero_or_pos s with rfl | h0
    · exact left hpos (.inr (.inl ⟨by simp [h], rfl⟩))
    · exact right h0 (.inl (by simp [h]))
  · exact absurd h hD2

theorem coll_choice {scheme : String} (hs : scheme ∈ implemented) {order : ℕ} (ho : 1 ≤ order) {points : List ℕ} (hp : ∀ p ∈ points, minPoints scheme ≤ p) :
    ∃ cu : ℕ → List ℝ, (∀ p ∈ points, collPoints p scheme order = .ok (cu p)) ∧ ∀ p ∈ points, Distinct p (arr (cu p)) := by
  have : ∀ p, ∃ l, p ∈ points → collPoints p scheme order = .ok l ∧ Distinct p (arr l) := by
    intro p
    by_cases h : p ∈ points
    · obtain ⟨l, k1, -, k2⟩ := coll_distinct hs ho (hp p h)
      exact ⟨l, fun _ => ⟨k1, k2⟩⟩
    · exact ⟨[], fun h' => absurd h' h⟩
  choose cu hcu using this
  exact ⟨cu, fun p h => (hcu p h).1, fun p h => (hcu p h).2⟩

/-- C174, uniqueness, the schemes with at most one node besides the collocation points: with segments short enough, there is at most one feasible point for any start and any
controls at the collocation points. -/
theorem C174_unique {scheme : String} (hs : scheme ∈ implemented) (h2 : scheme ∉ gauss2) (hD2 : scheme ≠ "D2") {order : ℕ} (ho : 1 ≤ order)
    (hord : order ≤ 2 ∨ scheme ∉ gaussLike ++ gaussInv) (B : ℕ) :
    ∃ Λ, 0 ≤ Λ ∧ ∀ (F : Dyn) (n_q n_u : ℕ) (points : List ℕ), Admissible scheme 0 B points → ∀ ext : List ℝ, ext.length = points.length + 1 →
      ∀ A L h, Solved F order n_q A → 1 ≤ L → LipA A (fun _ => True) order n_q n_u L → ShortSegs Λ L h (fun s => ext.getD s 0) points.length →
      ∃ C, phConstraints F .node scheme order n_q n_u points ext = .ok C ∧ ∀ x0 c v v' q q', C v q → C v' q' → Given order n_q n_u points x0 c v →
        Given order n_q n_u points x0 c v' → SameStates order n_q n_u points v v' := by
  obtain ⟨Λ, hΛ0, hΛ⟩ := leb_scheme hs (order := 2) (by omega) B
  refine ⟨Λ, hΛ0, fun F n_q n_u points hp ext hl A L h hF hL1 hL hm => ?_⟩
  obtain ⟨coll, hcoll, hdis⟩ := coll_choice hs (order := 2) (by omega) (fun p h => (hp.2 p h).1)
  obtain ⟨cu, hcu, hdu⟩ := coll_choice hs ho (fun p h => (hp.2 p h).1)
  have hn : ∀ p, ∃ n, p ∈ points → nColToNNodes scheme p = .ok n := by
    intro p
    by_cases h : p ∈ points
    · obtain ⟨k, nodes, k1, -⟩ := nodes_shape hs (hp.2 p h).1 (hcoll p h)
      exact ⟨k, fun _ => k1⟩
    · exact ⟨0, fun h' => absurd h' h⟩
  choose nodes hn using hn
  obtain ⟨C, hC, hCv⟩ := C101_feasible hs ho hord F n_q n_u hp.1 (fun p hpp => (hp.2 p hpp).1) hcu hcoll hn hl (fun s h => (hm.inc s h).ne)
  refine ⟨C, hC, fun x0 c v v' q q' hv hv' hg hg' => ?_⟩
  obtain ⟨⟨Q, hQ⟩, hsh, hc, hu⟩ := (hCv v q).1 hv
  obtain ⟨⟨Q', hQ'⟩, hsh', hc', hu'⟩ := (hCv v' q').1 hv'
  have hpts := fun s h => And.intro (points_distinct hs (by omega) hp hcoll s h) (points_ok hs (by omega) hΛ hp hcoll s h).2
  have hle : ∀ s < points.length, nodes (points.getD s 0) ≤ points.getD s 0 + 1 := fun s h => nodes_le hs h2 (hn _ (mem_getD h))
  have key := seg_same_of (order := 1) (n_q := order * n_q) le_rfl (first_solved ho hF) (by linarith) (first_lip hL1 hL) hΛ0 hpts hp.1 hm
    (fun s h => segPoly_first hD2 (hle s h) (hQ s h)) (fun s h => segPoly_first hD2 (hle s h) (hQ' s h)) (fun he hx s hs' i hi => by
      have := knot_derivatives hs hD2 ho (List.length_pos_of_ne_nil hp.1) hQ hQ' hsh hsh' he (fun s hs c hc => by simpa [Vars.lev] using hx s hs 0 one_pos c hc) s hs' i hi
      simpa [Vars.lev] using this) (collu := cu) (fun s h => by
      obtain ⟨Λ', -, h'⟩ := leb_exists (hdu _ (mem_getD h))
      exact ⟨Λ', h'⟩) hc hc' hu hu' (first_given.1 hg) (first_given.1 hg')
  intro r hr
  obtain ⟨e1, e2⟩ := key r hr
  refine ⟨fun i hi => ⟨?_, ?_⟩, e2⟩
  · simpa [Vars.lev] using e1 0 (by omega) i hi
  · simpa [Vars.lev] using e1 1 le_rfl i hi

/-- C174, uniqueness, the schemes with nodes at both ends besides the collocation points, from the order 2 on. -/
theorem C174_two_unique {scheme : String} (hs : scheme ∈ gauss2) {order : ℕ} (ho : 2 ≤ order) (B : ℕ) :
    ∃ Λ, 0 ≤ Λ ∧ ∀ (F : Dyn) (n_q n_u : ℕ) (points : List ℕ), Admissible scheme 0 B points → ∀ ext : List ℝ, ext.length = points.length + 1 →
      ∀ A L h, Solved F order n_q A → 0 ≤ L → LipA A (fun _ => True) order n_q n_u L → ShortSegs Λ L h (fun s => ext.getD s 0) points.length →
      ∃ C, phConstraints F .node scheme order n_q n_u points ext = .ok C ∧ ∀ x0 c v v' q q', C v q → C v' q' → Given order n_q n_u points x0 c v →
        Given order n_q n_u points x0 c v' → SameStates order n_q n_u points v v' := by
  have himp : scheme ∈ implemented := by rw [implemented]; simp [hs]
  have hD2 : scheme ≠ "D2" := by rintro rfl; revert hs; decide
  have hng : scheme ∉ gaussLike ++ gaussInv := by
    rw [gauss2_eq] at hs
    simp only [List.mem_cons, List.not_mem_nil, or_false] at hs
    rcases hs with rfl | rfl | rfl | rfl <;> simp [gaussLike, gaussInv_eq]
  obtain ⟨Λ, hΛ0, hΛ⟩ := leb_scheme himp (order := 2) (by omega) B
  refine ⟨Λ, hΛ0, fun F n_q n_u points hp ext hl A L h hF hL0 hL hm => ?_⟩
  obtain ⟨coll, hcoll, hdis⟩ := coll_choice himp (order := 2) (by omega) (fun p h => (hp.2 p h).1)
  obtain ⟨cu, hcu, hdu⟩ := coll_choice himp (order := order) (by omega) (fun p h => (hp.2 p h).1)
  have hn : ∀ p, nColToNNodes scheme p = .ok (p + 2) := by
    intro p
    rw [gauss2_eq] at hs
    simp only [List.mem_cons, List.not_mem_nil, or_false] at hs
    rcases hs with rfl | rfl | rfl | rfl <;> simp [nColToNNodes, gaussLike, gaussInv_eq, gauss2_eq, radauLike, radauInv_eq]
  obtain ⟨C, hC, hCv⟩ := C101_feasible himp (by omega) (.inr hng) F n_q n_u hp.1 (fun p hpp => (hp.2 p hpp).1) hcu hcoll (fun p _ => hn p) hl (fun s h => (hm.inc s h).ne)
  refine ⟨C, hC, fun x0 c v v' q q' hv hv' hg hg' => ?_⟩
  obtain ⟨⟨Q, hQ⟩, hsh, hc, hu⟩ := (hCv v q).1 hv
  obtain ⟨⟨Q', hQ'⟩, hsh', hc', hu'⟩ := (hCv v' q').1 hv'
  have hpts := fun s h => And.intro (points_distinct himp (by omega) hp hcoll s h) (points_ok himp (by omega) hΛ hp hcoll s h).2
  have ch : ∀ s < points.length, ∀ p, p + 1 < order → ∀ j < n_q, derivative (Q s (n_q * p + j)) = Q s (n_q * (p + 1) + j) := fun s h =>
    node_chain (T := fun s => ext.getD s 0) hs (hp.2 _ (mem_getD h)).1 rfl (hn _) (hcoll _ (mem_getD h)) (hm.inc s h) hF (hQ s h) h hsh hc
  have ch' : ∀ s < points.length, ∀ p, p + 1 < order → ∀ j < n_q, derivative (Q' s (n_q * p + j)) = Q' s (n_q * (p + 1) + j) := fun s h =>
    node_chain (T := fun s => ext.getD s 0) hs (hp.2 _ (mem_getD h)).1 rfl (hn _) (hcoll _ (mem_getD h)) (hm.inc s h) hF (hQ' s h) h hsh' hc'
  have hall : (∀ s < points.length, ∀ j < n_q, Q s j = Q' s j) → ∀ s < points.length, ∀ i < order * n_q, Q s i = Q' s i := by
    intro he s h i hi
    obtain ⟨k1, k2, k3⟩ := col_split hi
    rw [← k3, ← iterate_chain (ch s h) k2 _ k1, ← iterate_chain (ch' s h) k2 _ k1, he s h _ k2]
  have hcols : ∀ r, (∀ p < order, ∀ j < n_q, v.lev order n_q p r j = v'.lev order n_q p r j) → ∀ i < order * n_q, v.x r i = v'.x r i := by
    intro r h i hi
    obtain ⟨k1, k2, k3⟩ := col_split hi
    have := h _ k1 _ k2
    rwa [Vars.lev, if_pos k1, Vars.lev, if_pos k1, k3] at this
  have hkd := fun he (hx : ∀ s ≤ points.length, ∀ p < order, ∀ j < n_q, v.lev order n_q p (knotRow points s) j = v'.lev order n_q p (knotRow points s) j) =>
    knot_derivatives (nodes := fun p => p + 2) himp hD2 (by omega) (List.length_pos_of_ne_nil hp.1) hQ hQ' hsh hsh' (hall he) (fun s hs => hcols _ (hx s hs))
  have hseg : ∀ s < points.length, SegPoly v order n_q points coll (fun s => ext.getD s 0) s (Q s) := fun s h =>
    segPoly_of_chain (by omega) hD2 (by omega) (hQ s h) (ch s h)
  have hseg' : ∀ s < points.length, SegPoly v' order n_q points coll (fun s => ext.getD s 0) s (Q' s) := fun s h =>
    segPoly_of_chain (by omega) hD2 (by omega) (hQ' s h) (ch' s h)
  have key := seg_same_of (by omega) hF hL0 hL hΛ0 hpts hp.1 hm hseg hseg' (fun he hx s hs' j hj => by
      have := hkd he hx s hs' _ (col_lt (show order - 1 < order by omega) hj)
      simpa [Vars.lev] using this) (collu := cu) (fun s h => by
      obtain ⟨Λ', -, h'⟩ := leb_exists (hdu _ (mem_getD h))
      exact ⟨Λ', h'⟩) hc hc' hu hu' hg hg'
  intro r hr
  obtain ⟨e1, e2⟩ := key r hr
  have hx := hcols r fun p hp => e1 p hp.le
  refine ⟨fun i hi => ⟨hx i hi, ?_⟩, e2⟩
  obtain ⟨k1, k2, k3⟩ := col_split hi
  by_cases htop : i / n_q + 1 < order
  · have lower : ∀ v : Vars, NodeShift v scheme order n_q points → PhCollocated F v points → v.xd r i = v.x r (n_q + i) := by
      intro v hsh hc
      rcases rows_cover points hr with ⟨s, hsl, rfl⟩ | ⟨s, hsl, m, hmm, rfl⟩
      · refine (hsh.1 hs s hsl i ?_).symm
        have := col_lt (show i / n_q < order - 1 by omega) k2
        rwa [k3] at this
      · have := ((hF _ _ _ _).1 (hc s hsl m hmm)).1 _ htop _ k2
        rw [k3, Nat.mul_succ] at this
        rw [this]
        congr 1
        omega
    rw [lower v hsh hc, lower v' hsh' hc']
    refine hx _ ?_
    have := col_lt htop k2
    rw [Nat.mul_succ] at this
    omega
  · have := e1 order le_rfl _ k2
    rw [Vars.lev, if_neg (lt_irrefl _), Vars.lev, if_neg (lt_irrefl _), show order - 1 = i / n_q by omega, k3] at this
    exact this

/-- Any derivatives at the knots, and the controls at the knots from polynomials through other points. -/
theorem rows_change {F : Dyn} {n_u : ℕ} {points : List ℕ} {T : ℕ → ℝ} {cu : ℕ → List ℝ} {v : Vars} (hT : ∀ s < points.length, T s ≠ T (s + 1))
    (hdu : ∀ s < points.length, Distinct (points.getD s 0) (arr (cu (points.getD s 0)))) (D : ℕ → ℕ → ℝ) (hc : PhCollocated F v points) :
    ∃ v' : Vars, v'.x = v.x ∧ (∀ s, v'.xd (knotRow points s) = D s) ∧ (∀ s, ∀ m < points.getD s 0, v'.xd (colRow points s m) = v.xd (colRow points s m) ∧
      v'.u (colRow points s m) = v.u (colRow points s m)) ∧ PhCollocated F v' points ∧ PhControls v' n_u points cu T := by
  have hu : ∀ s k, ∃ p : ℝ[X], s < points.length → p.degree < points.getD s 0 ∧
      ∀ m < points.getD s 0, p.eval (tauToT (arr (cu (points.getD s 0)) m) (T s) (T (s + 1))) = v.u (colRow points s m) k := by
    intro s k
    by_cases hs : s < points.length
    · obtain ⟨p, h1, h2⟩ := interp_time (hT s hs) (hdu s hs) fun m => v.u (colRow points s m) k
      exact ⟨p, fun _ => ⟨h1, h2⟩⟩
    · exact ⟨0, fun h => absurd h hs⟩
  choose P hP using hu
  obtain ⟨u, hu1, hu2⟩ := rows_decode points (fun s k => if s < points.length then (P s k).eval (T s) else (P (s - 1) k).eval (T s)) (fun s m => v.u (colRow points s m))
  obtain ⟨xd, hd1, hd2⟩ := rows_decode points D (fun s m => v.xd (colRow points s m))
  refine ⟨⟨v.x, xd, u, v.lam⟩, rfl, hd1, fun s m hm => ⟨hd2 s m hm, hu2 s m hm⟩, fun s hs m hm => ?_, fun s hs k hk => ⟨P s k, (hP s k hs).1, fun m hm => ?_, ?_, fun hl => ?_⟩⟩
  · have := hc s hs m hm
    simp only [hd2 s m hm, hu2 s m hm]
    exact this
  · simp only [hu2 s m hm]
    exact ((hP s k hs).2 m hm).symm
  · simp only [hu1, hs, if_true]
  · simp only [hu1, hl, lt_irrefl, if_false]
    rw [← hl, Nat.add_sub_cancel]

/-- The derivatives that a scheme leaves at the knots, for the polynomials `Q` and the states `x`. -/
noncomputable def knotDerivative (scheme : String) (order n_q S : ℕ) (T : ℕ → ℝ) (Q : ℕ → ℕ → ℝ[X]) (x : ℕ → ℕ → ℝ) (s c : ℕ) : ℝ :=
  if scheme ∈ gaussLike then if s < S then (derivative (Q s c)).eval (T s) else if n_q * (order - 1) ≤ c then (derivative (Q (s - 1) c)).eval (T s) else x s (n_q + c)
  else if scheme ∈ gaussInv then
    if 0 < s then (derivative (Q (s - 1) c)).eval (T s) else if n_q * (order - 1) ≤ c then (derivative (Q s c)).eval (T s) else x s (n_q + c)
  else if scheme ∈ radauInv then if s < S then (derivative (Q s c)).eval (T s) else (derivative (Q (s - 1) c)).eval (T s)
  else if 0 < s then (derivative (Q (s - 1) c)).eval (T s) else (derivative (Q s c)).eval (T s)

/-- C174, existence: with segments short enough, there is a feasible point for any start and any controls at the collocation points, with Radau points for any number of
segments and with Gauss points for one. -/
theorem C174_exists {scheme : String} (hs : scheme ∈ gaussLike ++ gaussInv ++ radauLike ++ radauInv) {order : ℕ} (ho : 1 ≤ order)
    (hord : order ≤ 2 ∨ scheme ∉ gaussLike ++ gaussInv) (B : ℕ) :
    ∃ Λ, 0 ≤ Λ ∧ ∀ (F : Dyn) (n_q n_u : ℕ) (points : List ℕ), Admissible scheme 0 B points → (scheme ∈ gaussLike ++ gaussInv → points.length = 1) →
      ∀ ext : List ℝ, ext.length = points.length + 1 →
      ∀ A L h, Solved F order n_q A → 1 ≤ L → LipA A (fun _ => True) order n_q n_u L → ShortSegs Λ L h (fun s => ext.getD s 0) points.length →
      ∃ C, phConstraints F .node scheme order n_q n_u points ext = .ok C ∧ ∀ x0 c, ∃ v, (∀ q, C v q) ∧ Given order n_q n_u points x0 c v := by
  have himp : scheme ∈ implemented := by
    rw [implemented]
    simp only [List.mem_append] at hs ⊢
    rcases hs with ((h | h) | h) | h <;> simp [h]
  obtain ⟨Λ, hΛ0, hΛ⟩ := leb_scheme himp (order := 2) (by omega) B
  refine ⟨Λ, hΛ0, fun F n_q n_u points hp hone ext hl A L h hF hL1 hL hm => ?_⟩
  obtain ⟨coll, hcoll, hdis⟩ := coll_choice himp (order := 2) (by omega) (fun p h => (hp.2 p h).1)
  obtain ⟨cu, hcu, hdu⟩ := coll_choice himp ho (fun p h => (hp.2 p h).1)
  have kind : scheme ∉ lobatoLike ∧ scheme ∉ gauss2 ∧ scheme ≠ "D2" ∧ (scheme ∈ gaussLike → scheme ∉ gaussInv ∧ scheme ∉ radauLike ∧ scheme ∉ radauInv) ∧
      (scheme ∈ gaussInv → scheme ∉ radauLike ∧ scheme ∉ radauInv) ∧ (scheme ∈ radauLike → scheme ∉ radauInv) ∧ ∀ p, nColToNNodes scheme p = .ok (p + 1) := by
    rw [implemented_eq] at himp
    simp only [List.mem_cons, List.not_mem_nil, or_false] at himp
    rcases himp with rfl | rfl | rfl | rfl | rfl | rfl | rfl | rfl | rfl | rfl | rfl | rfl | rfl | rfl | rfl | rfl | rfl | rfl | rfl | rfl <;>
      simp [nColToNNodes, gaussLike, gaussInv_eq, gauss2_eq, radauLike, radauInv_eq, lobatoLike, otherSchemes] at hs ⊢
  obtain ⟨kl, k2, kD, kg, ki, kr, hn⟩ := kind
  obtain ⟨C, hC, hCv⟩ := C101_feasible himp ho hord F n_q n_u hp.1 (fun p hpp => (hp.2 p hpp).1) hcu hcoll (fun p _ => hn p) hl (fun s h => (hm.inc s h).ne)
  refine ⟨C, hC, fun x0 c => ?_⟩
  have hpts := fun s h => And.intro (points_distinct himp (by omega) hp hcoll s h) (points_ok himp (by omega) hΛ hp hcoll s h).2
  have hpos := List.length_pos_of_ne_nil hp.1
  obtain ⟨v, Q, a1, -, a3, -, a5⟩ := seg_point (coll := coll) (T := fun s => ext.getD s 0) hpos (order := 1) le_rfl (first_solved ho hF) (by linarith) (first_lip hL1 hL) hΛ0 hpts hm
    (fun _ i => x0 (i / n_q) (i % n_q)) c
  obtain ⟨v', b1, b2, b3, b4, b5⟩ := rows_change (F := F) (n_u := n_u) (T := fun s => ext.getD s 0) (cu := cu) (v := v) (fun s h => (hm.inc s h).ne) (fun s h => hdu _ (mem_getD h))
    (knotDerivative scheme order n_q points.length (fun s => ext.getD s 0) Q fun s => v.x (knotRow points s)) a3
  have hg : Given order n_q n_u points x0 c v' := by
    refine first_given.2 ⟨fun p hp i hi => ?_, fun s hs m hm k hk => ?_⟩
    · have := a5.start p hp i hi
      obtain rfl : p = 0 := by omega
      simpa [Vars.lev, b1] using this
    · rw [(b3 s m hm).2]
      exact a5.controls s hs m hm k hk
  refine ⟨v', fun q => (hCv v' q).2 ⟨⟨Q, fun s h i hi => ?_⟩, ?_, b4, b5⟩, hg⟩
  · obtain ⟨d1, d2, d3⟩ := (a1 s h).1 i hi
    refine ⟨by rwa [add_comm] at d1, fun m hmm => ⟨?_, ?_⟩, fun _ => ?_, fun hh => ?_, fun hh => ?_⟩
    · have := d3 0 (by omega) m hmm
      simpa [Vars.lev, b1] using this
    · have := d3 1 le_rfl m hmm
      rw [(b3 s m hmm).1]
      simpa [Vars.lev] using this
    · have := d2 0 one_pos
      simpa [Vars.lev, b1] using this
    · rw [b2]
      simp only [List.mem_append, k2, kl, or_false, false_or] at hh hs
      rcases hs with ((hg | hg) | hg) | hg
      · simp only [knotDerivative, hg, h, if_true]
      · have e : s = 0 := by have := hone (by simp [hg]); omega
        have n1 : scheme ∉ gaussLike := fun h' => (kg h').1 hg
        simp only [n1, (ki hg).1, (ki hg).2, hg, or_false, false_or, false_and, true_and] at hh
        simp only [knotDerivative, n1, hg, e, if_false, if_true, hh, lt_irrefl]
      · have n1 : scheme ∉ gaussLike := fun h' => (kg h').2.1 hg
        have n2 : scheme ∉ gaussInv := fun h' => (ki h').1 hg
        simp only [n1, n2, kr hg, hg, or_false, false_or, false_and, true_and] at hh
        simp only [knotDerivative, n1, n2, kr hg, hh, if_false, lt_irrefl]
      · have n1 : scheme ∉ gaussLike := fun h' => (kg h').2.2 hg
        have n2 : scheme ∉ gaussInv := fun h' => (ki h').2 hg
        simp only [knotDerivative, n1, n2, hg, h, if_false, if_true]
    · rw [b2]
      simp only [List.mem_append, k2, kl, or_false, false_or] at hh hs
      rcases hs with ((hg | hg) | hg) | hg
      · have e : ¬ s + 1 < points.length := by have := hone (by simp [hg]); omega
        simp only [kg hg, hg, or_false, false_or, false_and, true_and, not_false_eq_true] at hh
        simp only [knotDerivative, hg, e, hh, if_true, if_false, Nat.add_sub_cancel]
      · have n1 : scheme ∉ gaussLike := fun h' => (kg h').1 hg
        simp only [knotDerivative, n1, hg, if_false, if_true, Nat.succ_pos, Nat.add_sub_cancel]
      · have n1 : scheme ∉ gaussLike := fun h' => (kg h').2.1 hg
        have n2 : scheme ∉ gaussInv := fun h' => (ki h').1 hg
        simp only [knotDerivative, n1, n2, kr hg, if_false, Nat.succ_pos, if_true, Nat.add_sub_cancel]
      · have n1 : scheme ∉ gaussLike := fun h' => (kg h').2.2 hg
        have n2 : scheme ∉ gaussInv := fun h' => (ki h').2 hg
        have n3 : scheme ∉ radauLike := fun h' => kr h' hg
        simp only [n1, n2, n3, hg, or_false, false_or, false_and, true_and] at hh
        simp only [knotDerivative, n1, n2, hg, hh, if_false, if_true, lt_irrefl]
        rw [show points.length - 1 = s by omega]
  · have hlow : ∀ i < (order - 1) * n_q, ¬ n_q * (order - 1) ≤ i := fun i hi => by rw [mul_comm]; omega
    refine ⟨fun h => absurd h k2, fun hg i hi => ?_, fun hg i hi => ?_⟩
    · have n1 : scheme ∉ gaussLike := fun h' => (kg h').1 hg
      rw [b1, b2]
      simp only [knotDerivative, n1, hg, hlow i hi, if_false, if_true, lt_irrefl]
    · rw [b1, b2]
      simp only [knotDerivative, hg, hlow i hi, if_false, if_true, lt_irrefl]

/-- C174, existence, the schemes with nodes at both ends besides the collocation points: order 2 and one segment. -/
theorem C174_two_exists {scheme : String} (hs : scheme ∈ gauss2) (B : ℕ) :
    ∃ Λ, 0 ≤ Λ ∧ ∀ (F : Dyn) (n_q n_u : ℕ) (points : List ℕ), Admissible scheme 0 B points → points.length = 1 → ∀ ext : List ℝ, ext.length = points.length + 1 →
      ∀ A L h, Solved F 2 n_q A → 0 ≤ L → LipA A (fun _ => True) 2 n_q n_u L → ShortSegs Λ L h (fun s => ext.getD s 0) points.length →
      ∃ C, phConstraints F .node scheme 2 n_q n_u points ext = .ok C ∧ ∀ x0 c, ∃ v, (∀ q, C v q) ∧ Given 2 n_q n_u points x0 c v := by
  have himp : scheme ∈ implemented := by rw [implemented]; simp [hs]
  have hng : scheme ∉ gaussLike ++ gaussInv := by
    rw [gauss2_eq] at hs
    simp only [List.mem_cons, List.not_mem_nil, or_false] at hs
    rcases hs with rfl | rfl | rfl | rfl <;> simp [gaussLike, gaussInv_eq]
  obtain ⟨Λ, hΛ0, hΛ⟩ := leb_scheme himp (order := 2) (by omega) B
  refine ⟨Λ, hΛ0, fun F n_q n_u points hp hone ext hl A L h hF hL0 hL hm => ?_⟩
  obtain ⟨coll, hcoll, hdis⟩ := coll_choice himp (order := 2) (by omega) (fun p h => (hp.2 p h).1)
  have hn : ∀ p, nColToNNodes scheme p = .ok (p + 2) := by
    intro p
    rw [gauss2_eq] at hs
    simp only [List.mem_cons, List.not_mem_nil, or_false] at hs
    rcases hs with rfl | rfl | rfl | rfl <;> simp [nColToNNodes, gaussLike, gaussInv_eq, gauss2_eq, radauLike, radauInv_eq]
  obtain ⟨C, hC, hCv⟩ := C101_feasible himp (order := 2) (by omega) (.inr hng) F n_q n_u hp.1 (fun p hpp => (hp.2 p hpp).1) hcoll hcoll (fun p _ => hn p) hl (fun s h => (hm.inc s h).ne)
  refine ⟨C, hC, fun x0 c => ?_⟩
  have hpts := fun s h => And.intro (points_distinct himp (by omega) hp hcoll s h) (points_ok himp (by omega) hΛ hp hcoll s h).2
  obtain ⟨v, Q, a1, a2, a3, a4, a5⟩ := seg_point (coll := coll) (T := fun s => ext.getD s 0) (by omega) (order := 2) (by omega) hF hL0 hL hΛ0 hpts hm x0 c
  refine ⟨v, fun q => (hCv v q).2 ⟨⟨fun s i => derivative^[i / n_q] (Q s (i % n_q)), fun s h i hi => ?_⟩, ⟨fun _ => a2, fun h' => absurd h' (fun h' => hng (by simp [h'])),
    fun h' => absurd h' (fun h' => hng (by simp [h']))⟩, a3, a4⟩, a5⟩
  have e0 : s = 0 := by omega
  have e1 : s + 1 = points.length := by omega
  obtain ⟨k1, k2, k3⟩ := col_split hi
  obtain ⟨d1, d2, d3⟩ := (a1 s h).1 _ k2
  have hlow : ∀ r t, (∀ p ≤ 2, v.lev 2 n_q p r (i % n_q) = (derivative^[p] (Q s (i % n_q))).eval t) → v.x r i = (derivative^[i / n_q] (Q s (i % n_q))).eval t := by
    intro r t hh
    have := hh _ k1.le
    rwa [Vars.lev, if_pos k1, k3] at this
  have knot : ∀ r t, (∀ p ≤ 2, v.lev 2 n_q p r (i % n_q) = (derivative^[p] (Q s (i % n_q))).eval t) → (∀ i < (2 - 1) * n_q, v.x r (n_q + i) = v.xd r i) →
      v.xd r i = (derivative (derivative^[i / n_q] (Q s (i % n_q)))).eval t := by
    intro r t hh hsh
    have := hh _ (show i / n_q + 1 ≤ 2 by omega)
    rw [Function.iterate_succ_apply'] at this
    rw [← this, Vars.lev]
    split_ifs with hlt
    · have e : i / n_q = 0 := Nat.lt_one_iff.1 (Nat.lt_of_succ_lt_succ hlt)
      rw [e, mul_zero, zero_add] at k3
      rw [e, k3, zero_add, mul_one, hsh i (by omega)]
    · rw [show 2 - 1 = i / n_q by omega, k3]
  have tops := (a1 s h).2
  have l0 : ∀ p ≤ 2, v.lev 2 n_q p (knotRow points s) (i % n_q) = (derivative^[p] (Q s (i % n_q))).eval (ext.getD s 0) := by
    intro p hp
    rcases Nat.lt_or_eq_of_le hp with hp | rfl
    · exact (d2 p hp).1
    · exact tops.1 _ k2
  have l1 : ∀ p ≤ 2, v.lev 2 n_q p (knotRow points (s + 1)) (i % n_q) = (derivative^[p] (Q s (i % n_q))).eval (ext.getD (s + 1) 0) := by
    intro p hp
    rcases Nat.lt_or_eq_of_le hp with hp | rfl
    · exact (d2 p hp).2
    · exact tops.2 e1 _ k2
  refine ⟨?_, fun m hmm => ⟨hlow _ _ fun p hp => d3 p hp m hmm, knot _ _ (fun p hp => d3 p hp m hmm) fun i hi => ?_⟩, fun _ => ⟨hlow _ _ l0, hlow _ _ l1⟩, fun _ => knot _ _ l0 (a2 s h.le),
    fun _ => knot _ _ l1 (a2 (s + 1) h)⟩
  · have : (derivative^[i / n_q] (Q s (i % n_q))).degree ≤ (Q s (i % n_q)).degree := by
      generalize i / n_q = p
      induction p with
      | zero => simp
      | succ p ih => rw [Function.iterate_succ_apply']; exact degree_derivative_le.trans ih
    exact lt_of_le_of_lt this (by rwa [add_comm] at d1)
  · have := ((hF _ _ _ _).1 (a3 s h m hmm)).1 0 (by omega) i (by omega)
    simpa using this.symm

/-- C174 fails with Lobatto points: with two points in a segment there are controls without any feasible point, however short it is. The velocity is the control. -/
theorem C174_lobatto_refuted {scheme : String} (hs : scheme ∈ lobatoLike) {h : ℝ} (hh : 0 < h) :
    ∃ C, phConstraints velocityDyn .node scheme 1 1 1 [2] [0, h] = .ok C ∧ ∀ x0 c, c 0 0 0 ≠ c 0 1 0 → ¬ ∃ v q, C v q ∧ Given 1 1 1 [2] x0 c v := by
  have himp : scheme ∈ implemented := by rw [implemented]; simp [hs]
  have hmin : minPoints scheme ≤ 2 := by
    simp only [lobatoLike, List.mem_cons, List.not_mem_nil, or_false] at hs
    rcases hs with rfl | rfl | rfl <;> simp [minPoints]
  have hn : nColToNNodes scheme 2 = .ok 2 := by
    simp only [lobatoLike, List.mem_cons, List.not_mem_nil, or_false] at hs
    rcases hs with rfl | rfl | rfl <;> simp [nColToNNodes, gaussLike, gaussInv_eq, gauss2_eq, radauLike, radauInv_eq, lobatoLike, otherSchemes]
  obtain ⟨cu, c1, -⟩ := coll_distinct himp (order := 1) le_rfl hmin
  obtain ⟨coll, c2, -⟩ := coll_distinct himp (order := 2) (by omega) hmin
  obtain ⟨C, hC, hCv⟩ := C101_feasible himp (order := 1) le_rfl (.inl (by omega)) velocityDyn 1 1 (points := [2]) (by simp) (by simpa using hmin) (coll := fun _ => cu)
    (coll2 := fun _ => coll) (n := fun _ => 2) (by simpa using c1) (by simpa using c2) (by simpa using hn) (ext := [0, h]) (by simp) (by
      intro s hs
      obtain rfl : s = 0 := by simpa using hs
      simpa using hh.ne)
  refine ⟨C, hC, fun x0 c hne => ?_⟩
  rintro ⟨v, q, hv, hg⟩
  obtain ⟨⟨Q, hQ⟩, -, hc, -⟩ := (hCv v q).1 hv
  obtain ⟨d1, d2, -⟩ := hQ 0 (by simp) 0 (by simp)
  have hd : (derivative (Q 0 0)).degree < (1 : ℕ) := by
    simpa using derivative_degree (M := 1) (N := 1) (P := Q 0 0) (by simpa using d1)
  have hconst := eq_C_of_degree_le_zero (p := derivative (Q 0 0)) (Nat.WithBot.lt_one_iff_le_zero.1 (by simpa using hd))
  have slope : ∀ m < 2, (derivative (Q 0 0)).coeff 0 = c 0 m 0 := by
    intro m hm
    have a2 := (d2 m (by simpa using hm)).2
    rw [hconst, eval_C] at a2
    have a5 := ((velocity_solved _ _ _ _).1 (hc 0 (by simp) m (by simpa using hm))).2 0 one_pos
    have a4 := hg.controls 0 (by simp) m (by simpa using hm) 0 one_pos
    rw [← a2, ← a4]
    exact a5
  exact hne ((slope 0 (by omega)).symm.trans (slope 1 (by omega)))

/-- C174 fails with Gauss points and two segments: each has one point, and the controls of the segments differ. The velocity is the control. -/
theorem C174_gauss_refuted {scheme : String} (hs : scheme ∈ gaussLike ++ gaussInv) {h : ℝ} (hh : 0 < h) :
    ∃ C, phConstraints velocityDyn .node scheme 1 1 1 [1, 1] [0, h, 2 * h] = .ok C ∧ ∀ x0 c, c 0 0 0 ≠ c 1 0 0 → ¬ ∃ v q, C v q ∧ Given 1 1 1 [1, 1] x0 c v := by
  have himp : scheme ∈ implemented := by
    rw [implemented]
    simp only [List.mem_append] at hs ⊢
    rcases hs with h | h <;> simp [h]
  have hmin : minPoints scheme ≤ 1 ∧ nColToNNodes scheme 1 = .ok 2 := by
    simp only [List.mem_append, gaussLike, gaussInv_eq, List.mem_cons, List.not_mem_nil, or_false] at hs
    rcases hs with (rfl | rfl | rfl) | (rfl | rfl | rfl) <;> simp [minPoints, nColToNNodes, gaussLike, gaussInv_eq, gauss2_eq, radauLike, radauInv_eq, lobatoLike, otherSchemes]
  obtain ⟨hmin, hn⟩ := hmin
  obtain ⟨cu, c1, -⟩ := coll_distinct himp (order := 1) le_rfl hmin
  obtain ⟨coll, c2, -⟩ := coll_distinct himp (order := 2) (by omega) hmin
  obtain ⟨C, hC, hCv⟩ := C101_feasible himp (order := 1) le_rfl (.inl (by omega)) velocityDyn 1 1 (points := [1, 1]) (by simp) (by simpa using hmin) (coll := fun _ => cu)
    (coll2 := fun _ => coll) (n := fun _ => 2) (by simpa using c1) (by simpa using c2) (by simpa using hn) (ext := [0, h, 2 * h]) (by simp) (by
      intro s hs
      have : s < 2 := by simpa using hs
      interval_cases s
      · simpa using hh.ne
      · simp only [List.getD_cons_succ, List.getD_cons_zero]; linarith)
  refine ⟨C, hC, fun x0 c hne => ?_⟩
  rintro ⟨v, q, hv, hg⟩
  obtain ⟨⟨Q, hQ⟩, -, hc, -⟩ := (hCv v q).1 hv
  have slope : ∀ s < 2, ∀ t, (derivative (Q s 0)).eval t = c s 0 0 := by
    intro s hs t
    have hp : ([1, 1] : List ℕ).getD s 0 = 1 := by interval_cases s <;> rfl
    obtain ⟨d1, d2, -⟩ := hQ s hs 0 (by simp)
    have hd : (derivative (Q s 0)).degree < (1 : ℕ) := by
      simpa using derivative_degree (M := 1) (N := 1) (P := Q s 0) (by simpa using d1)
    have hconst := eq_C_of_degree_le_zero (p := derivative (Q s 0)) (Nat.WithBot.lt_one_iff_le_zero.1 (by simpa using hd))
    have a2 := (d2 0 (by rw [hp]; exact one_pos)).2
    rw [hconst, eval_C] at a2 ⊢
    have a5 := ((velocity_solved _ _ _ _).1 (hc s hs 0 (by rw [hp]; exact one_pos))).2 0 one_pos
    have a4 := hg.controls s hs 0 (by rw [hp]; exact one_pos) 0 one_pos
    rw [← a2, ← a4]
    exact a5
  have := C101_highest (by simp only [List.mem_append] at hs ⊢; exact .inl hs) (hQ 0 (by simp)) (hQ 1 (by simp)) 0 (by simp) (by simp)
  rw [slope 0 (by omega), slope 1 (by omega)] at this
  exact hne this

/-- The acceleration is the control. -/
def accelDyn : Dyn := fun x xd u _ => [xd 0 - x 1, xd 1 - u 0]

theorem accel_solved : Solved accelDyn 2 1 fun _ u j => u j := by
  intro x xd u lam
  simp only [accelDyn, zero, List.mem_cons, List.not_mem_nil, or_false, forall_eq_or_imp, forall_eq, sub_eq_zero]
  constructor
  · rintro ⟨h1, h2⟩
    exact ⟨fun p hp j hj => by obtain rfl : p = 0 := by omega
                               obtain rfl : j = 0 := by omega
                               simpa using h1, fun j hj => by obtain rfl : j = 0 := by omega
                                                              simpa using h2⟩
  · rintro ⟨h1, h2⟩
    exact ⟨by simpa using h1 0 (by omega) 0 one_pos, by simpa using h2 0 one_pos⟩

/-- C174 fails for the schemes with nodes at both ends besides the collocation points with two segments: each has one point, and the controls of the segments differ. The
acceleration is the control. -/
theorem C174_two_refuted {scheme : String} (hs : scheme ∈ gauss2) {h : ℝ} (hh : 0 < h) :
    ∃ C, phConstraints accelDyn .node scheme 2 1 1 [1, 1] [0, h, 2 * h] = .ok C ∧ ∀ x0 c, c 0 0 0 ≠ c 1 0 0 → ¬ ∃ v q, C v q ∧ Given 2 1 1 [1, 1] x0 c v := by
  have himp : scheme ∈ implemented := by rw [implemented]; simp [hs]
  have hmin : minPoints scheme ≤ 1 ∧ nColToNNodes scheme 1 = .ok 3 := by
    rw [gauss2_eq] at hs
    simp only [List.mem_cons, List.not_mem_nil, or_false] at hs
    rcases hs with rfl | rfl | rfl | rfl <;> simp [minPoints, nColToNNodes, gaussLike, gaussInv_eq, gauss2_eq, radauLike, radauInv_eq, lobatoLike, otherSchemes]
  obtain ⟨hmin, hn⟩ := hmin
  obtain ⟨coll, c2, -⟩ := coll_distinct himp (order := 2) (by omega) hmin
  obtain ⟨C, hC, hCv⟩ := C101_feasible himp (order := 2) (by omega) (.inl (by omega)) accelDyn 1 1 (points := [1, 1]) (by simp) (by simpa using hmin) (coll := fun _ => coll)
    (coll2 := fun _ => coll) (n := fun _ => 3) (by simpa using c2) (by simpa using c2) (by simpa using hn) (ext := [0, h, 2 * h]) (by simp) (by
      intro s hs
      have : s < 2 := by simpa using hs
      interval_cases s
      · simpa using hh.ne
      · simp only [List.getD_cons_succ, List.getD_cons_zero]; linarith)
  refine ⟨C, hC, fun x0 c hne => ?_⟩
  rintro ⟨v, q, hv, hg⟩
  obtain ⟨⟨Q, hQ⟩, hsh, hc, -⟩ := (hCv v q).1 hv
  have slope : ∀ s < 2, ∀ t, (derivative (Q s 1)).eval t = c s 0 0 := by
    intro s hs' t
    have hp : ([1, 1] : List ℕ).getD s 0 = 1 := by interval_cases s <;> rfl
    have ch := node_chain (points := [1, 1]) (coll := fun _ => coll) (T := fun s => ([0, h, 2 * h] : List ℝ).getD s 0) (N := 1) (k := 3) hs hmin hp hn c2 (by
      interval_cases s
      · simpa using hh
      · simp only [List.getD_cons_succ, List.getD_cons_zero]; linarith) accel_solved (hQ s hs') hs' hsh hc 0 (by omega) 0 one_pos
    simp only [mul_zero, add_zero, zero_add, mul_one] at ch
    obtain ⟨-, d2, -⟩ := hQ s hs' 1 (by simp)
    have hd : (derivative (Q s 1)).degree < (1 : ℕ) := by
      have := derivative_degree (M := 2) (N := 1) (P := Q s 0) (by simpa using (hQ s hs' 0 (by simp)).1)
      rw [← ch]
      simpa using this
    have hconst := eq_C_of_degree_le_zero (p := derivative (Q s 1)) (Nat.WithBot.lt_one_iff_le_zero.1 (by simpa using hd))
    have a2 := (d2 0 (by rw [hp]; exact one_pos)).2
    rw [hconst, eval_C] at a2 ⊢
    have a5 := ((accel_solved _ _ _ _).1 (hc s hs' 0 (by rw [hp]; exact one_pos))).2 0 one_pos
    have a4 := hg.controls s hs' 0 (by rw [hp]; exact one_pos) 0 one_pos
    rw [← a2, ← a4]
    exact a5
  have := C101_highest (by simp [hs]) (hQ 0 (by simp)) (hQ 1 (by simp)) 1 (by simp) (by simp)
  rw [slope 0 (by omega), slope 1 (by omega)] at this
  exact hne this

/-- The hypotheses of C173 and C174 for two segments of a quarter of a second, with the velocity as the control. -/
example : "LGR" ∈ implemented ∧ "LGR" ∉ gauss2 ∧ "LGR" ∉ gaussLike ++ gaussInv ∧ "LGR" ∈ gaussLike ++ gaussInv ++ radauLike ++ radauInv ∧ Admissible "LGR" 1 1 [1, 1] ∧
    Solved velocityDyn 1 1 (fun _ u j => u j) ∧ LipA (fun _ u j => u j) (fun _ => True) 1 1 1 1 ∧
    ∃ h, ShortSegs 1 1 h (fun s => ([0, 1 / 4, 1 / 2] : List ℝ).getD s 0) 2 := by
  refine ⟨by decide, by decide, by decide, by decide, ⟨by simp, by simp [minPoints]⟩, velocity_solved, ?_, 1 / 4, ?_, ?_, by norm_num, by norm_num⟩
  · intro ξ η u w d _ _ h0 h j hj
    have := (abs_nonneg _).trans (h0 0 one_pos 0 one_pos)
    simp [h j hj, this]
  · intro s hs
    interval_cases s <;> norm_num
  · intro s hs
    interval_cases s <;> norm_num

example : "LGL" ∈ lobatoLike ∧ "LG" ∈ gaussLike ++ gaussInv ∧ "LG2" ∈ gauss2 ∧ Admissible "LG2" 1 1 [1] ∧ Solved accelDyn 2 1 (fun _ u j => u j) :=
  ⟨by decide, by decide, by decide, ⟨by simp, by simp [minPoints]⟩, accel_solved⟩

end Chords.Conv
