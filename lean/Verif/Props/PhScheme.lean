import Verif.Model.PhScheme
import Verif.Props.NodePs
import Verif.Lemmas.Exc
import Mathlib.Data.List.GetD

/-! # Feasible points of segmented problems: C99, C100, C101 -/

namespace Chords.Props
open Finset Polynomial Chords.Points Chords.Spec Chords.Bary Chords.Gauss Chords.TimeScale Chords.BuTd Chords.PhScheme

/-! ## Specification -/

/-- The row of knot `s`; knot 0 is the start and the last one the end. -/
def knotRow (points : List ℕ) (s : ℕ) : ℕ := ∑ i ∈ range s, (points.getD i 0 + 1)

/-- The row of collocation point `m` of segment `s`. -/
def colRow (points : List ℕ) (s m : ℕ) : ℕ := knotRow points s + 1 + m

/-- The number of collocation points before segment `s`. -/
def collBefore (points : List ℕ) (s : ℕ) : ℕ := ∑ i ∈ range s, points.getD i 0

/-- The dynamics hold at every collocation point with the controls and the multipliers of that point. -/
def PhCollocated (F : Dyn) (v : Vars) (points : List ℕ) : Prop :=
  ∀ s < points.length, ∀ m < points.getD s 0,
    zero (F (v.x (colRow points s m)) (v.xd (colRow points s m)) (v.u (colRow points s m)) (v.lam (collBefore points s + m)))

/-- The controls at a knot are those of the polynomial through the controls of the segment that starts there, and at the end those
of the polynomial of the last segment. -/
def PhControls (v : Vars) (n_u : ℕ) (points : List ℕ) (coll : ℕ → List ℝ) (T : ℕ → ℝ) : Prop :=
  ∀ s < points.length, ∀ c < n_u, ∃ p : ℝ[X], p.degree < points.getD s 0 ∧
    (∀ m < points.getD s 0, v.u (colRow points s m) c = p.eval (tauToT (arr (coll (points.getD s 0)) m) (T s) (T (s + 1)))) ∧
    v.u (knotRow points s) c = p.eval (T s) ∧
    (s + 1 = points.length → v.u (knotRow points (s + 1)) c = p.eval (T (s + 1)))

/-- In segment `s` the coordinates are sampled from the polynomials `Q`: `q`, `v`, ... at all its collocation points, and all but the
highest derivative at both of its knots. -/
def SegPoly (v : Vars) (order n_q : ℕ) (points : List ℕ) (coll : ℕ → List ℝ) (T : ℕ → ℝ) (s : ℕ) (Q : ℕ → ℝ[X]) : Prop :=
  ∀ j < n_q, (Q j).degree < (order + points.getD s 0 : ℕ) ∧
    (∀ k < order, v.lev order n_q k (knotRow points s) j = (derivative^[k] (Q j)).eval (T s) ∧
      v.lev order n_q k (knotRow points (s + 1)) j = (derivative^[k] (Q j)).eval (T (s + 1))) ∧
    ∀ k ≤ order, ∀ m < points.getD s 0, v.lev order n_q k (colRow points s m) j =
      (derivative^[k] (Q j)).eval (tauToT (arr (coll (points.getD s 0)) m) (T s) (T (s + 1)))

/-- At knot `s` the array of derivatives repeats the one of states: the derivative of `q` is `v`, and so on. -/
def KnotShift (v : Vars) (order n_q : ℕ) (points : List ℕ) (s : ℕ) : Prop :=
  ∀ c < (order - 1) * n_q, v.x (knotRow points s) (n_q + c) = v.xd (knotRow points s) c

/-! ## Layout -/

private theorem knotRow_succ (points : List ℕ) (s : ℕ) : knotRow points (s + 1) = knotRow points s + (points.getD s 0 + 1) :=
  Finset.sum_range_succ _ _

private theorem knotRow_cons (p : ℕ) (ps : List ℕ) (s : ℕ) : knotRow (p :: ps) (s + 1) = p + 1 + knotRow ps s := by
  unfold knotRow
  rw [Finset.sum_range_succ']
  simp [add_comm]

private theorem segRows_get (points : List ℕ) (k : ℕ) {s : ℕ} (hs : s < points.length) :
    (Ph.segRows k points).getD s ([], 0) =
      (List.range' (k + knotRow points s) (points.getD s 0), k + knotRow points s + points.getD s 0) := by
  induction points generalizing k s with
  | nil => simp at hs
  | cons p ps ih =>
    cases s with
    | zero => simp [Ph.segRows, knotRow]
    | succ s =>
      rw [Ph.segRows, List.getD_cons_succ, ih _ (by simpa using hs), knotRow_cons, List.getD_cons_succ]
      have e : k + p + 1 + knotRow ps s = k + (p + 1 + knotRow ps s) := by omega
      rw [e]

private theorem segRows_len (points : List ℕ) (k : ℕ) : (Ph.segRows k points).length = points.length := by
  induction points generalizing k with
  | nil => rfl
  | cons p ps ih => simp [Ph.segRows, ih]

private theorem knotRow_all (points : List ℕ) : knotRow points points.length = points.sum + points.length := by
  induction points with
  | nil => rfl
  | cons p ps ih => rw [List.length_cons, knotRow_cons, ih, List.sum_cons]; omega

private theorem knotRows_get (points : List ℕ) (h0 : points ≠ []) {s : ℕ} (hs : s ≤ points.length) :
    (knotRows points).getD s 0 = knotRow points s := by
  have hl := List.length_pos_of_ne_nil h0
  cases s with
  | zero => simp [knotRows, knotRow]
  | succ s =>
    rw [knotRows, List.getD_cons_succ]
    by_cases h : s + 1 = points.length
    · rw [h, knotRow_all, List.getD_eq_getElem?_getD, List.getElem?_append_right (by simp [segRows_len]; omega)]
      have : s - (((Ph.segRows 1 points).map Prod.snd).dropLast).length = 0 := by simp [segRows_len]; omega
      rw [this]
      simp [Ph.nArr]
    · have hs' : s < points.length := by omega
      rw [List.getD_eq_getElem?_getD, List.getElem?_append_left (by simp [segRows_len]; omega), List.getElem?_dropLast,
        if_pos (by simp [segRows_len]; omega), List.getElem?_map]
      have := segRows_get points 1 hs'
      rw [List.getD_eq_getElem?_getD, List.getElem?_eq_getElem (by rw [segRows_len]; exact hs')] at this
      rw [List.getElem?_eq_getElem (by rw [segRows_len]; exact hs')]
      simp only [Option.getD_some] at this
      simp only [Option.map_some, Option.getD_some, this, knotRow_succ]
      omega

private theorem hArr_get (ext : List ℝ) {s : ℕ} (hs : s + 1 < ext.length) : (Ph.hArr ext).getD s 0 = ext.getD (s + 1) 0 - ext.getD s 0 := by
  unfold Ph.hArr
  have h1 : s < ext.tail.length := by simp; omega
  have h2 : s < ext.dropLast.length := by simp; omega
  rw [List.getD_eq_getElem?_getD, List.getElem?_zipWith, List.getElem?_eq_getElem h1, List.getElem?_eq_getElem h2]
  simp [hs, show s < ext.length by omega]

/-- Segment `s` as `apply_scheme` sees it. -/
noncomputable def segAt (points : List ℕ) (ext : List ℝ) (s : ℕ) : Seg :=
  ⟨knotRow points s, List.range' (knotRow points s + 1) (points.getD s 0), knotRow points (s + 1), points.getD s 0,
    ext.getD (s + 1) 0 - ext.getD s 0, decide (s = 0), decide (s = points.length - 1)⟩

private theorem segs_eq (points : List ℕ) (h0 : points ≠ []) (ext : List ℝ) (hl : ext.length = points.length + 1) :
    segs points ext = (List.range points.length).map (segAt points ext) := by
  unfold segs
  refine List.map_congr_left fun s hs => ?_
  have hs := List.mem_range.1 hs
  rw [knotRows_get points h0 (by omega), knotRows_get points h0 (by omega), segRows_get points 1 hs, hArr_get ext (by omega)]
  simp only [segAt, add_comm 1]

theorem col_get (points : List ℕ) (ext : List ℝ) (s : ℕ) {m : ℕ} (hm : m < points.getD s 0) :
    (segAt points ext s).col.getD m 0 = colRow points s m := by
  have h : m < (segAt points ext s).col.length := by simpa [segAt] using hm
  rw [List.getD_eq_getElem _ _ h]
  simp [segAt, colRow]

private theorem flatten_get (L : List (List ℕ)) (P : ℕ → ℕ → Prop) (k : ℕ) :
    (∀ ii < L.flatten.length, P (k + ii) (L.flatten.getD ii 0)) ↔
      ∀ s < L.length, ∀ m < (L.getD s []).length, P (k + (∑ i ∈ range s, (L.getD i []).length) + m) ((L.getD s []).getD m 0) := by
  induction L generalizing k with
  | nil => simp
  | cons l L ih =>
    have hih := ih (k + l.length)
    constructor
    · intro h s hs m hm
      cases s with
      | zero =>
        have hm' : m < l.length := by simpa using hm
        have := h m (by rw [List.flatten_cons, List.length_append]; omega)
        rw [List.flatten_cons, List.getD_append _ _ _ _ hm'] at this
        simpa using this
      | succ s =>
        have hx := hih.1 (fun ii hii => ?_) s (by simpa using hs) m (by simpa using hm)
        · rw [Finset.sum_range_succ']
          simp only [List.getD_cons_succ, List.getD_cons_zero]
          have e : k + (∑ i ∈ range s, (L.getD i []).length + l.length) + m = k + l.length + (∑ i ∈ range s, (L.getD i []).length) + m := by omega
          rw [e]
          exact hx
        · have := h (l.length + ii) (by rw [List.flatten_cons, List.length_append]; omega)
          rw [List.flatten_cons, List.getD_append_right _ _ _ _ (by omega), Nat.add_sub_cancel_left, ← add_assoc] at this
          exact this
    · intro h ii hii
      by_cases hl : ii < l.length
      · have := h 0 (by simp) ii (by simpa using hl)
        rw [List.flatten_cons, List.getD_append _ _ _ _ hl]
        simpa using this
      · have hx := hih.2 (fun s hs m hm => ?_) (ii - l.length) (by rw [List.flatten_cons, List.length_append] at hii; omega)
        · rw [List.flatten_cons, List.getD_append_right _ _ _ _ (by omega)]
          have e : k + l.length + (ii - l.length) = k + ii := by omega
          rw [e] at hx
          exact hx
        · have := h (s + 1) (by simpa using hs) m (by simpa using hm)
          rw [Finset.sum_range_succ'] at this
          simp only [List.getD_cons_succ, List.getD_cons_zero] at this
          have e : k + (∑ i ∈ range s, (L.getD i []).length + l.length) + m = k + l.length + (∑ i ∈ range s, (L.getD i []).length) + m := by omega
          rw [e] at this
          exact this

/-! ## The constraints from those of each segment -/

private theorem u_ok {scheme : String} (hs : scheme ∈ implemented) {order : ℕ} (ho : 1 ≤ order) {N : ℕ} (hN : minPoints scheme ≤ N) {coll : List ℝ}
    (hc : collPoints N scheme order = .ok coll) {t0 t1 : ℝ} (ht : t0 ≠ t1) :
    ∃ f g, uStart scheme order N = .ok f ∧ uEnd scheme order N = .ok g ∧
      ∀ p : ℝ[X], p.degree < N → ∀ y : ℕ → ℝ, (∀ i < N, y i = p.eval (tauToT (arr coll i) t0 t1)) → f y = p.eval t0 ∧ g y = p.eval t1 := by
  obtain ⟨coll', f, g, h1, h2, h3, h4⟩ := C25_u hs ho hN
  rw [hc] at h1
  cases h1
  refine ⟨f, g, ?_, ?_, fun p hp y hy => ?_⟩
  · unfold uStart
    by_cases hm : scheme ∈ radauLike ++ lobatoLike
    · rw [if_pos hm]
      have hm' : scheme ∈ lobatoLike ++ radauLike ++ ["D2"] := by
        rcases List.mem_append.1 hm with h | h <;> simp [h]
      simp only [baryExtreme, if_pos hm', if_true] at h2
      exact congrArg lift h2
    · rw [if_neg hm, h2]
      rfl
  · unfold uEnd
    by_cases hm : scheme ∈ radauInv ++ lobatoLike
    · rw [if_pos hm]
      have hm' : scheme ∈ lobatoLike ++ radauInv ++ ["D2"] := by
        rcases List.mem_append.1 hm with h | h <;> simp [h]
      simp only [baryExtreme, if_pos hm', if_true, show ("end" : String) ≠ "start" by decide, if_false] at h3
      exact congrArg lift h3
    · rw [if_neg hm, h3]
      rfl
  · obtain ⟨e1, e2⟩ := h4 (p.comp (toT t0 t1)) (comp_toT_degree t0 t1 hp) y (fun i hi => by rw [hy i hi, eval_comp, toT_eval])
    rw [e1, e2, eval_comp, eval_comp, toT_eval, toT_eval, tauToT_start, tauToT_end]
    exact ⟨rfl, rfl⟩

theorem ph_ok (F : Dyn) {mode : Mode} {scheme : String} (hs : scheme ∈ implemented) {order : ℕ} (ho : 1 ≤ order) (n_q n_u : ℕ)
    {points : List ℕ} (h0 : points ≠ []) (hN : ∀ p ∈ points, minPoints scheme ≤ p) {coll : ℕ → List ℝ}
    (hcoll : ∀ p ∈ points, collPoints p scheme order = .ok (coll p)) {ext : List ℝ} (hl : ext.length = points.length + 1)
    (ht : ∀ s < points.length, ext.getD s 0 ≠ ext.getD (s + 1) 0) {sl : Slice} (hsl : collIndices scheme = .ok sl)
    {S : ℕ → Vars → (ℕ → ℕ → ℝ) → Prop}
    (hseg : ∀ s < points.length, ∃ C, phSeg mode scheme sl order n_q (segAt points ext s) = .ok C ∧ ∀ v q, C v q ↔ S s v q) :
    ∃ C, phConstraints F mode scheme order n_q n_u points ext = .ok C ∧ ∀ v q, C v q ↔ (∀ s < points.length, S s v (q s)) ∧
      PhCollocated F v points ∧ PhControls v n_u points coll (fun s => ext.getD s 0) := by
  have hmem : ∀ s < points.length, points.getD s 0 ∈ points := by
    intro s h
    rw [List.getD_eq_getElem?_getD, List.getElem?_eq_getElem h]
    exact List.getElem_mem _
  choose! Cs hCs using hseg
  have hu : ∀ s, ∃ f g, s < points.length → uStart scheme order (points.getD s 0) = .ok f ∧ uEnd scheme order (points.getD s 0) = .ok g ∧
      ∀ p : ℝ[X], p.degree < points.getD s 0 → ∀ y : ℕ → ℝ,
        (∀ i < points.getD s 0, y i = p.eval (tauToT (arr (coll (points.getD s 0)) i) (ext.getD s 0) (ext.getD (s + 1) 0))) →
        f y = p.eval (ext.getD s 0) ∧ g y = p.eval (ext.getD (s + 1) 0) := by
    intro s
    by_cases h : s < points.length
    · obtain ⟨f, g, h1, h2, h3⟩ := u_ok hs ho (hN _ (hmem s h)) (hcoll _ (hmem s h)) (ht s h)
      exact ⟨f, g, fun _ => ⟨h1, h2, h3⟩⟩
    · exact ⟨fun _ => 0, fun _ => 0, fun h' => absurd h' h⟩
  choose f g hfg using hu
  have hpos := List.length_pos_of_ne_nil h0
  have m1 : (segs points ext).mapM (phSeg mode scheme sl order n_q) = .ok ((List.range points.length).map Cs) := by
    rw [segs_eq points h0 ext hl, List.mapM_map]
    exact mapM_ok _ _ _ (fun s h => (hCs s (List.mem_range.1 h)).1)
  have m2 : (segs points ext).mapM (fun g => uStart scheme order g.n) = .ok ((List.range points.length).map f) := by
    rw [segs_eq points h0 ext hl, List.mapM_map]
    exact mapM_ok _ _ _ (fun s h => (hfg s (List.mem_range.1 h)).1)
  have hlast : points.getLastD 0 = points.getD (points.length - 1) 0 := by
    rw [List.getLastD_eq_getLast?, List.getLast?_eq_getElem?, List.getD_eq_getElem?_getD]
  have hdist : ∀ s < points.length, Distinct (points.getD s 0) (arr (coll (points.getD s 0))) := by
    intro s h
    obtain ⟨L, k1, k2, k3⟩ := coll_distinct hs ho (hN _ (hmem s h))
    rw [hcoll _ (hmem s h)] at k1
    cases k1
    exact k3
  simp only [phConstraints, hsl, m1, m2, hlast, (hfg (points.length - 1) (by omega)).2.1, lift, bind, Except.bind, pure, Except.pure]
  refine ⟨_, rfl, fun v q => ?_⟩
  have lg : (segs points ext).length = points.length := by rw [segs_eq points h0 ext hl]; simp
  have gcol : (segs points ext).map Seg.col = (List.range points.length).map fun s => (segAt points ext s).col := by
    rw [segs_eq points h0 ext hl, List.map_map]; rfl
  have gst : (segs points ext).map Seg.start = (List.range points.length).map (knotRow points) := by
    rw [segs_eq points h0 ext hl, List.map_map]; rfl
  have gget : ∀ {A : Type} (φ : ℕ → A) (d : A) (s : ℕ), s < points.length → ((List.range points.length).map φ).getD s d = φ s := by
    intro A φ d s h
    simp [List.getD_eq_getElem?_getD, h]
  have clen : ∀ s, (segAt points ext s).col.length = points.getD s 0 := by intro s; simp [segAt]
  refine and_congr ?_ (and_congr ?_ ?_)
  · rw [lg]
    refine forall_congr' fun s => forall_congr' fun h => ?_
    rw [gget _ _ s h]
    exact (hCs s h).2 v (q s)
  · have := flatten_get ((segs points ext).map Seg.col) (fun ii r => zero (F (v.x r) (v.xd r) (v.u r) (v.lam ii))) 0
    simp only [Nat.zero_add] at this
    rw [this, gcol]
    simp only [List.length_map, List.length_range]
    unfold PhCollocated
    refine forall_congr' fun s => forall_congr' fun h => ?_
    have e : ∑ i ∈ range s, (((List.range points.length).map fun s => (segAt points ext s).col).getD i []).length = collBefore points s := by
      refine Finset.sum_congr rfl fun i hi => ?_
      have := Finset.mem_range.1 hi
      rw [gget _ _ i (by omega), clen]
    rw [gget _ _ s h, clen, e]
    refine forall_congr' fun m => forall_congr' fun hm => ?_
    rw [col_get points ext s hm]
  · have hlastrow : Ph.nArr points - 1 = knotRow points points.length := by rw [knotRow_all]; simp [Ph.nArr]
    have hlastcol : ((segs points ext).map Seg.col).getLastD [] = (segAt points ext (points.length - 1)).col := by
      rw [gcol, List.getLastD_eq_getLast?, List.getLast?_eq_getElem?]
      simp [hpos]
    have hf : ∀ s < points.length, ∀ c, ∀ p : ℝ[X], p.degree < points.getD s 0 →
        (∀ m < points.getD s 0, v.u (colRow points s m) c = p.eval (tauToT (arr (coll (points.getD s 0)) m) (ext.getD s 0) (ext.getD (s + 1) 0))) →
        f s (fun m => v.u ((segAt points ext s).col.getD m 0) c) = p.eval (ext.getD s 0) ∧
        g s (fun m => v.u ((segAt points ext s).col.getD m 0) c) = p.eval (ext.getD (s + 1) 0) := by
      intro s h c p hp hy
      exact (hfg s h).2.2 p hp _ (fun m hm => by rw [col_get points ext s hm]; exact hy m hm)
    constructor
    · rintro ⟨c1, c2⟩ s h c hc
      obtain ⟨p, hp, hy⟩ := interp_time (ht s h) (hdist s h) (fun m => v.u (colRow points s m) c)
      obtain ⟨e1, e2⟩ := hf s h c p hp (fun m hm => (hy m hm).symm)
      refine ⟨p, hp, fun m hm => (hy m hm).symm, ?_, fun hl' => ?_⟩
      · have := c1 s (by rw [lg]; exact h) c hc
        rw [gst, gcol, gget _ _ s h, gget _ _ s h, gget _ _ s h] at this
        rw [this, e1]
      · have := c2 c hc
        obtain rfl : s = points.length - 1 := by omega
        rw [hlastrow, hlastcol] at this
        rw [hl', this, e2]
        rw [hl']
    · intro h
      constructor
      · intro s hs' c hc
        rw [lg] at hs'
        obtain ⟨p, hp, hy, e1, -⟩ := h s hs' c hc
        rw [gst, gcol, gget _ _ s hs', gget _ _ s hs', gget _ _ s hs', e1, (hf s hs' c p hp hy).1]
      · intro c hc
        obtain ⟨p, hp, hy, -, e2⟩ := h (points.length - 1) (by omega) c hc
        have e2 := e2 (by omega)
        rw [show points.length - 1 + 1 = points.length by omega] at e2
        rw [hlastrow, hlastcol, e2, (hf _ (by omega) c p hp hy).2, show points.length - 1 + 1 = points.length by omega]

/-! ## One segment: bottom-up and top-down -/

/-- The polynomials of one segment, with the rows of a model segment. -/
private def GPoly (v : Vars) (order n_q : ℕ) (g : Seg) (coll : List ℝ) (t0 t1 : ℝ) (Q : ℕ → ℝ[X]) : Prop :=
  ∀ j < n_q, (Q j).degree < (order + g.n : ℕ) ∧
    (∀ k < order, v.lev order n_q k g.start j = (derivative^[k] (Q j)).eval t0 ∧ v.lev order n_q k g.stop j = (derivative^[k] (Q j)).eval t1) ∧
    ∀ k ≤ order, ∀ m < g.n, v.lev order n_q k (g.col.getD m 0) j = (derivative^[k] (Q j)).eval (tauToT (arr coll m) t0 t1)

private theorem gpoly_iff (v : Vars) (order n_q : ℕ) (points : List ℕ) (coll : ℕ → List ℝ) (ext : List ℝ) (s : ℕ) (Q : ℕ → ℝ[X]) :
    GPoly v order n_q (segAt points ext s) (coll (points.getD s 0)) (ext.getD s 0) (ext.getD (s + 1) 0) Q ↔
      SegPoly v order n_q points coll (fun s => ext.getD s 0) s Q := by
  unfold GPoly SegPoly
  refine forall_congr' fun j => forall_congr' fun hj => and_congr Iff.rfl (and_congr Iff.rfl ?_)
  refine forall_congr' fun k => forall_congr' fun hk => forall_congr' fun m => forall_congr' fun hm => ?_
  rw [col_get points ext s hm]

/-- The first collocation point of the schemes with one at the start, and the last of those with one at the end. -/
private theorem coll_ends {scheme : String} {coll full : List ℝ} {s : Slice} (hc : collIndices scheme = .ok s)
    (hf0 : arr full 0 = -1) (hfl : arr full (full.length - 1) = 1) (h1 : 1 ≤ coll.length) (hsl : pySlice s.1 s.2 full = coll) :
    (scheme ∈ lobatoLike ++ radauLike → arr coll 0 = -1) ∧ (scheme ∈ lobatoLike ++ radauInv → arr coll (coll.length - 1) = 1) := by
  have hlen := rows_length hsl
  constructor
  · intro hm
    have e : s.1 = none := by
      simp only [lobatoLike, radauLike, List.cons_append, List.nil_append, List.mem_cons, List.not_mem_nil, or_false] at hm
      rcases hm with rfl | rfl | rfl | rfl | rfl | rfl <;>
        simp [collIndices, gaussLike, gaussInv_eq, gauss2_eq, radauLike, radauInv_eq, lobatoLike] at hc <;> rw [← hc]
    have h := rows_spec hsl (m := 0) (by omega)
    rw [← h.2, ← hf0]
    congr 1
    have hb : dynRows full.length s = (List.range full.length).take (dynRows full.length s).length := by
      simp only [dynRows, pySlice, e]
      simp
    rw [hb, List.getD_eq_getElem?_getD, List.getElem?_take, if_pos (by omega)]
    simp only [List.getElem?_range (by have := h.1; omega : 0 < full.length), Option.getD_some]
  · intro hm
    have e : s.2 = none := by
      simp only [lobatoLike, radauInv_eq, List.cons_append, List.nil_append, List.mem_cons, List.not_mem_nil, or_false] at hm
      rcases hm with rfl | rfl | rfl | rfl | rfl | rfl <;>
        simp [collIndices, gaussLike, gaussInv_eq, gauss2_eq, radauLike, radauInv_eq, lobatoLike] at hc <;> rw [← hc]
    have h := rows_spec hsl (m := coll.length - 1) (by omega)
    rw [← h.2, ← hfl]
    congr 1
    obtain ⟨a, ha⟩ : ∃ a, dynRows full.length s = (List.range full.length).drop a := by
      simp only [dynRows, pySlice, e]
      simp only [Option.map_none, Option.getD_none, List.length_range]
      exact ⟨_, by rw [List.take_of_length_le (by simp)]⟩
    rw [ha] at hlen ⊢
    simp only [List.length_drop, List.length_range] at hlen
    rw [List.getD_eq_getElem?_getD, List.getElem?_drop, List.getElem?_range (by omega), Option.getD_some]
    omega

private theorem hqd_ok {scheme : String} (hs : scheme ∈ buImplemented) {order : ℕ} (ho : 1 ≤ order) (n_q : ℕ) {g : Seg} (hcl : g.col.length = g.n)
    (hN : minPoints scheme ≤ g.n) {coll : List ℝ} (hc : buCollPoints g.n scheme order = .ok coll) :
    ∃ sv ev, hqdStart scheme order n_q g = .ok sv ∧ hqdEnd scheme order n_q g = .ok ev ∧
      ∀ (v : Vars) (j : ℕ) (A : ℝ[X]), A.degree < g.n → (∀ c < g.n, v.lev order n_q order (g.col.getD c 0) j = A.eval (arr coll c)) →
        sv v j = A.eval (-1) ∧ ev v j = A.eval 1 := by
  obtain ⟨coll', constr, full, s, k1, k2, k3, k4, hfull, k5, k6, hsort, hlast, hlen, hd, hsl, -, -⟩ := constr_length hs ho hN
  rw [hc] at k1
  cases k1
  obtain ⟨coll', r, r', k1', hr, hr', hrr⟩ := C29_extreme hs ho hN
  rw [hc] at k1'
  cases k1'
  have hf0 : arr full 0 = -1 := by rw [hfull]; rfl
  have hfl : arr full (full.length - 1) = 1 := by
    rw [List.getLast?_eq_getElem?] at hlast
    simp [arr, List.getD_eq_getElem?_getD, hlast]
  have hN1 : 1 ≤ g.n := le_trans (minPoints_pos scheme) hN
  obtain ⟨ce1, ce2⟩ := coll_ends k6 hf0 hfl (by omega) hsl
  have hin : scheme ∈ gaussLike ++ radauInv ∨ scheme ∉ gaussLike ++ radauInv ∧ scheme ∈ lobatoLike ++ radauLike := by
    rw [buImplemented_eq] at hs
    simp only [List.mem_cons, List.not_mem_nil, or_false] at hs
    rcases hs with rfl | rfl | rfl | rfl | rfl | rfl | rfl | rfl | rfl | rfl | rfl | rfl <;> decide
  have hin' : scheme ∈ gaussLike ++ radauLike ∨ scheme ∉ gaussLike ++ radauLike ∧ scheme ∈ lobatoLike ++ radauInv := by
    rw [buImplemented_eq] at hs
    simp only [List.mem_cons, List.not_mem_nil, or_false] at hs
    rcases hs with rfl | rfl | rfl | rfl | rfl | rfl | rfl | rfl | rfl | rfl | rfl | rfl <;> decide
  have hS : ∃ sv, hqdStart scheme order n_q g = .ok sv ∧ ∀ (v : Vars) (j : ℕ) (A : ℝ[X]), A.degree < g.n →
      (∀ c < g.n, v.lev order n_q order (g.col.getD c 0) j = A.eval (arr coll c)) → sv v j = A.eval (-1) := by
    unfold hqdStart
    rcases hin with h | ⟨h, h'⟩
    · rw [if_pos h, hr]
      refine ⟨_, rfl, fun v j A hA hy => ?_⟩
      rw [← (hrr A hA).1]
      exact Finset.sum_congr rfl fun c hc => by rw [hy c (mem_range.1 hc)]
    · rw [if_neg h, if_pos h']
      refine ⟨_, rfl, fun v j A hA hy => ?_⟩
      rw [hy 0 (by omega), ce1 h']
  have hE : ∃ ev, hqdEnd scheme order n_q g = .ok ev ∧ ∀ (v : Vars) (j : ℕ) (A : ℝ[X]), A.degree < g.n →
      (∀ c < g.n, v.lev order n_q order (g.col.getD c 0) j = A.eval (arr coll c)) → ev v j = A.eval 1 := by
    unfold hqdEnd
    rcases hin' with h | ⟨h, h'⟩
    · rw [if_pos h, hr']
      refine ⟨_, rfl, fun v j A hA hy => ?_⟩
      rw [← (hrr A hA).2]
      exact Finset.sum_congr rfl fun c hc => by rw [hy c (mem_range.1 hc)]
    · rw [if_neg h, if_pos h']
      refine ⟨_, rfl, fun v j A hA hy => ?_⟩
      rw [hcl, hy (g.n - 1) (by omega), ← hlen, ce2 h']
  obtain ⟨sv, s1, s2⟩ := hS
  obtain ⟨ev, e1, e2⟩ := hE
  exact ⟨sv, ev, s1, e1, fun v j A hA hy => ⟨s2 v j A hA hy, e2 v j A hA hy⟩⟩

private theorem bu_seg {scheme : String} (hs : scheme ∈ buImplemented) {order : ℕ} (ho : 1 ≤ order) (n_q : ℕ) {g : Seg} (hcl : g.col.length = g.n)
    (hN : minPoints scheme ≤ g.n) (h1 : 2 ≤ g.n ∨ scheme ∉ gaussLike) {coll : List ℝ} (hc : buCollPoints g.n scheme order = .ok coll)
    {s : Slice} (hsl : collIndices scheme = .ok s) {t0 t1 : ℝ} (ht : t0 ≠ t1) (hh : g.h = t1 - t0) :
    ∃ C, phBu scheme s order n_q g = .ok C ∧ ∀ v, C v ↔ (∃ Q, GPoly v order n_q g coll t0 t1 Q ∧
        (∀ j < n_q, v.lev order n_q order g.start j = (derivative^[order] (Q j)).eval t0) ∧
        (g.last = true → ∀ j < n_q, v.lev order n_q order g.stop j = (derivative^[order] (Q j)).eval t1)) ∧
      shift order n_q g.stop v ∧ (g.first = true → shift order n_q g.start v) := by
  obtain ⟨coll', constr, full, s', k1, k2, k3, k4, hfull, k5, k6, hsort, hlast, hlen, hd, hslice, -, hl⟩ := constr_length hs ho hN
  rw [hc] at k1
  cases k1
  rw [hsl] at k6
  cases k6
  obtain ⟨sv, ev, hsv, hev, hval⟩ := hqd_ok hs ho n_q hcl hN hc
  have hmats : ∀ ii, ∃ mat, ii < order → integrationMatrix g.n scheme ii (t1 - t0) order = .ok mat ∧
      (∀ i, ∀ c < ii, mat i c = 0) ∧
      (∀ i, ∀ k < order - ii, mat i (ii + k) = ((1 + arr constr i) * (t1 - t0) / 2) ^ k / (Nat.factorial k : ℝ)) ∧
      ∀ i, ∀ c < g.n, mat i (order + c) = ((t1 - t0) / 2) ^ (order - ii)
        * (antiK (-1) (order - ii) (Lagrange.basis (range g.n) (arr coll) c)).eval (arr constr i) := by
    intro ii
    by_cases hii : ii < order
    · obtain ⟨mat, hmat⟩ := integrationMatrix_ok hs hii hN h1 (t1 - t0) k2 hd k3 hl
      exact ⟨mat, fun _ => hmat⟩
    · exact ⟨fun _ _ => 0, fun h => absurd h hii⟩
  choose mats hmats using hmats
  have hmm : (List.range order).mapM (fun ii => integrationMatrix g.n scheme ii g.h order) = .ok ((List.range order).map mats) :=
    mapM_ok _ _ _ (fun a ha => by rw [hh]; exact (hmats a (List.mem_range.1 ha)).1)
  have hget : ∀ ii < order, ((List.range order).map mats).getD ii (fun _ _ => 0) = mats ii := by
    intro ii h; simp [List.getD_eq_getElem?_getD, h]
  have hlastb : ∃ ev', hqdLast scheme order n_q g = .ok ev' ∧ (g.last = true → ev' = ev) := by
    unfold hqdLast
    by_cases hg : g.last = true
    · rw [if_pos hg]; exact ⟨ev, hev, fun _ => rfl⟩
    · rw [if_neg hg]; exact ⟨_, rfl, fun h => absurd h hg⟩
  obtain ⟨ev', hev', hee⟩ := hlastb
  refine ⟨buSeg sv ev' (fun ii => ((List.range order).map mats).getD ii fun _ _ => 0) constr.length (dynRows (constr.length + 1) s) order n_q g, ?_,
    fun v => ?_⟩
  · unfold phBu
    simp only [hsv, hev', hmm, k3, lift, bind, Except.bind, pure, Except.pure]
  have hflen : full.length = constr.length + 1 := by rw [hfull]; rfl
  have hf0 : arr full 0 = -1 := by rw [hfull]; rfl
  have hfs : ∀ i, arr full (i + 1) = arr constr i := by intro i; rw [hfull]; rfl
  have hfl : arr full constr.length = 1 := by
    rw [List.getLast?_eq_getElem?, hflen, Nat.add_sub_cancel] at hlast
    simp [arr, List.getD_eq_getElem?_getD, hlast]
  rw [← hflen]
  have hrs : ∀ m < g.n, (dynRows full.length s).getD m 0 < full.length ∧ arr full ((dynRows full.length s).getD m 0) = arr coll m :=
    fun m hm => rows_spec hslice (by omega)
  obtain ⟨x0, hx0⟩ : ∃ x0 : ℕ → ℕ → ℝ, x0 = fun j c => v.lev order n_q c g.start j := ⟨_, rfl⟩
  obtain ⟨a, ha⟩ : ∃ a : ℕ → ℕ → ℝ, a = fun j m => v.lev order n_q order (g.col.getD m 0) j := ⟨_, rfl⟩
  obtain ⟨P, hP⟩ : ∃ P : ℕ → ℝ[X], P = fun j => traj t0 (t1 - t0) order (x0 j) (Lagrange.interpolate (range g.n) (arr coll) (a j)) := ⟨_, rfl⟩
  have hspec : ∀ j, (P j).degree < (order + g.n : ℕ) ∧ (∀ k < order, (derivative^[k] (P j)).eval t0 = x0 j k) ∧
      ∀ τ, (derivative^[order] (P j)).eval (tauToT τ t0 t1) = (Lagrange.interpolate (range g.n) (arr coll) (a j)).eval τ := by
    intro j; rw [hP]; exact traj_spec ht hd (M := order) (x0 j) (a j)
  have hA : ∀ j, (Lagrange.interpolate (range g.n) (arr coll) (a j)).degree < g.n :=
    fun j => by simpa using Lagrange.degree_interpolate_lt (a j) hd.injOn
  have hAn : ∀ j, ∀ c < g.n, v.lev order n_q order (g.col.getD c 0) j = (Lagrange.interpolate (range g.n) (arr coll) (a j)).eval (arr coll c) := by
    intro j c hc
    rw [Lagrange.eval_interpolate_at_node _ hd.injOn (mem_range.2 hc), ha]
  have hrow : ∀ ii < order, ∀ i < full.length, ∀ j, buRes (((List.range order).map mats).getD ii fun _ _ => 0) order n_q g v ii i j =
      (derivative^[ii] (P j)).eval (tauToT (arr full i) t0 t1) := by
    intro ii hii i hi j
    rw [hget ii hii]
    cases i with
    | zero => rw [buRes, hf0, tauToT_start, (hspec j).2.1 ii hii, hx0]
    | succ i =>
      obtain ⟨-, m1, m2, m3⟩ := hmats ii hii
      have := row_eq ht hii (arr constr i) (x0 j) (a j) (m1 i) (m2 i) (m3 i)
      rw [hfs, hP, ← this, buRes]
      refine Finset.sum_congr rfl fun c _ => ?_
      rw [buData, hx0, ha]
  have hPu : ∀ Q, GPoly v order n_q g coll t0 t1 Q → ∀ j < n_q, Q j = P j := by
    intro Q hQ j hj
    obtain ⟨q1, q2, q3⟩ := hQ j hj
    rw [hP]
    apply traj_unique ht hd q1
    · intro k hk
      rw [← (q2 k hk).1, hx0]
    · intro c hc
      rw [← q3 order le_rfl c hc, ha]
  constructor
  · rintro ⟨c1, c2, c3, c4, c5⟩
    refine ⟨⟨P, fun j hj => ⟨(hspec j).1, fun k hk => ⟨?_, ?_⟩, fun k hk m hm => ?_⟩, fun j hj => ?_, fun hg j hj => ?_⟩, c3, c4⟩
    · rw [(hspec j).2.1 k hk, hx0]
    · rw [(c5 k hk j hj).2, hrow k hk _ (by omega), hfl, tauToT_end]
    · rcases Nat.lt_or_ge k order with hk' | hk'
      · rw [(c5 k hk' j hj).1 m (by omega), hrow k hk' _ (hrs m hm).1, (hrs m hm).2]
      · obtain rfl : k = order := by omega
        rw [(hspec j).2.2, hAn j m hm]
    · rw [c1 j hj, (hval v j _ (hA j) (hAn j)).1, ← (hspec j).2.2, tauToT_start]
    · rw [c2 hg j hj, hee hg, (hval v j _ (hA j) (hAn j)).2, ← (hspec j).2.2, tauToT_end]
  · rintro ⟨⟨Q, hQ, q4, q5⟩, c3, c4⟩
    have hQP := hPu Q hQ
    refine ⟨fun j hj => ?_, fun hg j hj => ?_, c3, c4, fun ii hii j hj => ⟨fun m hm => ?_, ?_⟩⟩
    · rw [(hval v j _ (hA j) (hAn j)).1, ← (hspec j).2.2, tauToT_start, ← hQP j hj, q4 j hj]
    · rw [hee hg, (hval v j _ (hA j) (hAn j)).2, ← (hspec j).2.2, tauToT_end, ← hQP j hj, q5 hg j hj]
    · have hm : m < g.n := by omega
      rw [hrow ii hii _ (hrs m hm).1, (hrs m hm).2, ← hQP j hj, (hQ j hj).2.2 ii hii.le m hm]
    · rw [hrow ii hii _ (by omega), hfl, tauToT_end, ← hQP j hj, ((hQ j hj).2.1 ii hii).2]

private theorem td_seg {scheme : String} (hs : scheme ∈ buImplemented) {order : ℕ} (ho : 1 ≤ order) (n_q : ℕ) {g : Seg} (hcl : g.col.length = g.n)
    (hN : minPoints scheme ≤ g.n) {coll : List ℝ} (hc : buCollPoints g.n scheme order = .ok coll)
    {s : Slice} (hsl : collIndices scheme = .ok s) {t0 t1 : ℝ} (ht : t0 ≠ t1) (hh : g.h = t1 - t0) :
    ∃ C, phTd scheme s order n_q g = .ok C ∧ ∀ v, (∃ q, C v q) ↔ (∃ Q, GPoly v order n_q g coll t0 t1 Q ∧
        ∀ j < n_q, v.lev order n_q order g.start j = (derivative^[order] (Q j)).eval t0 ∧
          v.lev order n_q order g.stop j = (derivative^[order] (Q j)).eval t1) ∧
      shift order n_q g.stop v ∧ (g.first = true → shift order n_q g.start v) := by
  obtain ⟨coll', constr, full, s', k1, k2, k3, k4, hfull, k5, k6, hsort, hlast, hlen, hd, hslice, -, hl⟩ := constr_length hs ho hN
  rw [hc] at k1
  cases k1
  rw [hsl] at k6
  cases k6
  have hN1 : 1 ≤ g.n := le_trans (minPoints_pos scheme) hN
  obtain ⟨nu, n1, n2, n3, n4⟩ := lgl_points (n := order + g.n) (by omega)
  have hD : matrixDNu (order + g.n) = .ok (dMat (order + g.n) (arr nu) (vSum (order + g.n) (arr nu))) := by
    simp [matrixDNu, matrixDBary, n2, n3, bind, Except.bind, pure, Except.pure]
  have hLm : matrixL g.n scheme order = .ok fun i c => baryPoly2d (order + g.n) (arr nu) eye (arr full i) c := by
    simp [matrixL, k5, lagPol2d, add_comm g.n order, n1, bind, Except.bind, pure, Except.pure]
  refine ⟨tdSeg (dMat (order + g.n) (arr nu) (vSum (order + g.n) (arr nu))) (fun i c => baryPoly2d (order + g.n) (arr nu) eye (arr full i) c)
    full.length (dynRows full.length s) order n_q g, by simp only [phTd, hD, hLm, k5, lift, bind, Except.bind, pure, Except.pure], fun v => ?_⟩
  have hf0 : arr full 0 = -1 := by rw [hfull]; rfl
  have hfl : arr full (full.length - 1) = 1 := by
    rw [List.getLast?_eq_getElem?] at hlast
    simp [arr, List.getD_eq_getElem?_getD, hlast]
  have hrs : ∀ m < g.n, (dynRows full.length s).getD m 0 < full.length ∧ arr full ((dynRows full.length s).getD m 0) = arr coll m :=
    fun m hm => rows_spec hslice (by omega)
  have hrow : ∀ (Q : ℝ[X]), Q.degree < (order + g.n : ℕ) → ∀ (q : ℕ → ℕ → ℝ) (j : ℕ),
      (∀ c < order + g.n, Q.eval (tauToT (arr nu c) t0 t1) = q c j) → ∀ k i,
      tdRes (dMat (order + g.n) (arr nu) (vSum (order + g.n) (arr nu))) (fun i c => baryPoly2d (order + g.n) (arr nu) eye (arr full i) c)
        (order + g.n) g.h q k i j = (derivative^[k] Q).eval (tauToT (arr full i) t0 t1) := by
    intro Q hQ q j hq k i
    rw [tdRes, hh]
    exact td_row n4 ht Q hQ (fun c => q c j) hq k i
  constructor
  · rintro ⟨q, c1, c2, c3⟩
    choose Q hQ using fun j => interp_time ht n4 (fun c => q c j)
    have hv := fun j => hrow (Q j) (hQ j).1 q j (hQ j).2
    refine ⟨⟨Q, fun j hj => ⟨(hQ j).1, fun k hk => ⟨?_, ?_⟩, fun k hk m hm => ?_⟩, fun j hj => ⟨?_, ?_⟩⟩, c2, c3⟩
    · rw [(c1 k (by omega) j hj).2.1, hv, hf0, tauToT_start]
    · rw [(c1 k (by omega) j hj).2.2 (Or.inl hk.le), hv, hfl, tauToT_end]
    · rw [(c1 k (by omega) j hj).1 m (by omega), hv, (hrs m hm).2]
    · rw [(c1 order (by omega) j hj).2.1, hv, hf0, tauToT_start]
    · rw [(c1 order (by omega) j hj).2.2 (Or.inl le_rfl), hv, hfl, tauToT_end]
  · rintro ⟨⟨Q, hQ, hh'⟩, c2, c3⟩
    refine ⟨fun c j => (Q j).eval (tauToT (arr nu c) t0 t1), fun k hk j hj => ⟨fun m hm => ?_, ?_, fun _ => ?_⟩, c2, c3⟩
    · rw [hrow (Q j) (hQ j hj).1 _ j (fun _ _ => rfl), (hrs m (by omega)).2, (hQ j hj).2.2 k (by omega) m (by omega)]
    · rw [hrow (Q j) (hQ j hj).1 _ j (fun _ _ => rfl), hf0, tauToT_start]
      rcases Nat.lt_or_ge k order with hk' | hk'
      · exact ((hQ j hj).2.1 k hk').1
      · obtain rfl : k = order := by omega
        exact (hh' j hj).1
    · rw [hrow (Q j) (hQ j hj).1 _ j (fun _ _ => rfl), hfl, tauToT_end]
      rcases Nat.lt_or_ge k order with hk' | hk'
      · exact ((hQ j hj).2.1 k hk').2
      · obtain rfl : k = order := by omega
        exact (hh' j hj).2

/-! ## C99: bottom-up -/

theorem shift_iff (v : Vars) (order n_q : ℕ) (points : List ℕ) :
    (∀ s < points.length, KnotShift v order n_q points (s + 1) ∧ (s = 0 → KnotShift v order n_q points 0)) ↔
      (points ≠ [] → ∀ s ≤ points.length, KnotShift v order n_q points s) := by
  constructor
  · intro h h0 s hs
    have hl := List.length_pos_of_ne_nil h0
    cases s with
    | zero => exact (h 0 hl).2 rfl
    | succ s => exact (h s (by omega)).1
  · intro h s hs
    have h := h (List.ne_nil_of_length_pos (by omega))
    exact ⟨h (s + 1) (by omega), fun _ => h 0 (by omega)⟩

theorem bu_imp {scheme : String} (hs : scheme ∈ buImplemented) : scheme ∈ implemented ∧ ∃ s, collIndices scheme = .ok s := by
  refine ⟨(bu_coll_eq hs 0 0).2, ?_⟩
  rw [buImplemented_eq] at hs
  simp only [List.mem_cons, List.not_mem_nil, or_false] at hs
  rcases hs with rfl | rfl | rfl | rfl | rfl | rfl | rfl | rfl | rfl | rfl | rfl | rfl <;>
    simp [collIndices, gaussLike, gaussInv_eq, gauss2_eq, radauLike, radauInv_eq, lobatoLike]

/-- C99: an assignment of the variables of a segmented bottom-up problem is feasible exactly if in every segment the coordinates are
sampled from polynomials (with the highest derivative at the start of each segment and at the end), `x` and `x_d` agree at
the knots, the dynamics hold at the collocation points and the controls at the knots come from the controls of the segments. -/
theorem C99_feasible {scheme : String} (hs : scheme ∈ buImplemented) {order : ℕ} (ho : 1 ≤ order) (F : Dyn) (n_q n_u : ℕ) {points : List ℕ}
    (h0 : points ≠ []) (hN : ∀ p ∈ points, minPoints scheme ≤ p) (h1 : (∀ p ∈ points, 2 ≤ p) ∨ scheme ∉ gaussLike) {coll : ℕ → List ℝ}
    (hcoll : ∀ p ∈ points, collPoints p scheme order = .ok (coll p)) {ext : List ℝ} (hl : ext.length = points.length + 1)
    (ht : ∀ s < points.length, ext.getD s 0 ≠ ext.getD (s + 1) 0) :
    ∃ C, phConstraints F .bu scheme order n_q n_u points ext = .ok C ∧ ∀ v q, C v q ↔
      (∃ Q : ℕ → ℕ → ℝ[X], ∀ s < points.length, SegPoly v order n_q points coll (fun s => ext.getD s 0) s (Q s) ∧
        (∀ j < n_q, v.lev order n_q order (knotRow points s) j = (derivative^[order] (Q s j)).eval (ext.getD s 0)) ∧
        (s + 1 = points.length → ∀ j < n_q,
          v.lev order n_q order (knotRow points (s + 1)) j = (derivative^[order] (Q s j)).eval (ext.getD (s + 1) 0))) ∧
      (∀ s ≤ points.length, KnotShift v order n_q points s) ∧ PhCollocated F v points ∧
      PhControls v n_u points coll (fun s => ext.getD s 0) := by
  obtain ⟨himp, sl, hsl⟩ := bu_imp hs
  have hmem : ∀ s < points.length, points.getD s 0 ∈ points := by
    intro s h
    rw [List.getD_eq_getElem?_getD, List.getElem?_eq_getElem h]
    exact List.getElem_mem _
  obtain ⟨C, hC, hCv⟩ := ph_ok F (mode := .bu) himp ho n_q n_u h0 hN hcoll hl ht hsl (S := fun s v _ =>
      (∃ Q, GPoly v order n_q (segAt points ext s) (coll (points.getD s 0)) (ext.getD s 0) (ext.getD (s + 1) 0) Q ∧
        (∀ j < n_q, v.lev order n_q order (segAt points ext s).start j = (derivative^[order] (Q j)).eval (ext.getD s 0)) ∧
        ((segAt points ext s).last = true → ∀ j < n_q, v.lev order n_q order (segAt points ext s).stop j =
          (derivative^[order] (Q j)).eval (ext.getD (s + 1) 0))) ∧
      shift order n_q (segAt points ext s).stop v ∧ ((segAt points ext s).first = true → shift order n_q (segAt points ext s).start v)) (by
    intro s h
    have hb : buCollPoints (points.getD s 0) scheme order = .ok (coll (points.getD s 0)) := by
      rw [(bu_coll_eq hs _ _).1]; exact hcoll _ (hmem s h)
    obtain ⟨C, c1, c2⟩ := bu_seg hs ho n_q (g := segAt points ext s) (by simp [segAt]) (hN _ (hmem s h))
      (h1.imp (fun h1 => h1 _ (hmem s h)) id) hb hsl (ht s h) rfl
    exact ⟨fun v _ => C v, by simp [phSeg, c1, Except.map], fun v q => c2 v⟩)
  refine ⟨C, hC, fun v q => ?_⟩
  rw [hCv]
  have e : (∀ s < points.length, (∃ Q, GPoly v order n_q (segAt points ext s) (coll (points.getD s 0)) (ext.getD s 0) (ext.getD (s + 1) 0) Q ∧
        (∀ j < n_q, v.lev order n_q order (segAt points ext s).start j = (derivative^[order] (Q j)).eval (ext.getD s 0)) ∧
        ((segAt points ext s).last = true → ∀ j < n_q, v.lev order n_q order (segAt points ext s).stop j =
          (derivative^[order] (Q j)).eval (ext.getD (s + 1) 0))) ∧
      shift order n_q (segAt points ext s).stop v ∧ ((segAt points ext s).first = true → shift order n_q (segAt points ext s).start v)) ↔
      (∃ Q : ℕ → ℕ → ℝ[X], ∀ s < points.length, SegPoly v order n_q points coll (fun s => ext.getD s 0) s (Q s) ∧
        (∀ j < n_q, v.lev order n_q order (knotRow points s) j = (derivative^[order] (Q s j)).eval (ext.getD s 0)) ∧
        (s + 1 = points.length → ∀ j < n_q,
          v.lev order n_q order (knotRow points (s + 1)) j = (derivative^[order] (Q s j)).eval (ext.getD (s + 1) 0))) ∧
      (∀ s ≤ points.length, KnotShift v order n_q points s) := by
    have hlast : ∀ s < points.length, (segAt points ext s).last = true ↔ s + 1 = points.length := by
      intro s h; simp only [segAt, decide_eq_true_eq]; omega
    have hfirst : ∀ s, (segAt points ext s).first = true ↔ s = 0 := by intro s; simp [segAt]
    constructor
    · intro h
      choose! Q hQ using fun s hs => (h s hs).1
      refine ⟨⟨Q, fun s hs => ⟨(gpoly_iff _ _ _ _ _ _ _ _).1 (hQ s hs).1, (hQ s hs).2.1, fun hl' => (hQ s hs).2.2 ((hlast s hs).2 hl')⟩⟩, ?_⟩
      refine (shift_iff v order n_q points).1 (fun s hs => ⟨(h s hs).2.1, fun h0' => ?_⟩) h0
      subst h0'
      have := (h 0 hs).2.2 ((hfirst 0).2 rfl)
      exact this
    · rintro ⟨⟨Q, hQ⟩, hsh⟩ s hs'
      refine ⟨⟨Q s, (gpoly_iff _ _ _ _ _ _ _ _).2 (hQ s hs').1, (hQ s hs').2.1, fun hl' => (hQ s hs').2.2 ((hlast s hs').1 hl')⟩,
        hsh (s + 1) (by omega), fun _ => hsh s (by omega)⟩
  rw [e, and_assoc]

/-- C99: consecutive polynomials agree at the knot between them, with all their derivatives below the highest one. -/
theorem C99_smooth {v : Vars} {order n_q : ℕ} {points : List ℕ} {coll : ℕ → List ℝ} {T : ℕ → ℝ} {s : ℕ} {Q Q' : ℕ → ℝ[X]}
    (h : SegPoly v order n_q points coll T s Q) (h' : SegPoly v order n_q points coll T (s + 1) Q') :
    ∀ j < n_q, ∀ k < order, (derivative^[k] (Q j)).eval (T (s + 1)) = (derivative^[k] (Q' j)).eval (T (s + 1)) := by
  intro j hj k hk
  rw [← ((h j hj).2.1 k hk).2, ← ((h' j hj).2.1 k hk).1]

/-- C99: a segment with one point of a Gauss scheme makes the bottom-up problem fail, as in `C30_one_gauss`. -/
theorem C99_one_gauss {scheme : String} (hs : scheme ∈ gaussLike) {order : ℕ} (ho : 1 ≤ order) (F : Dyn) (n_q n_u : ℕ) {points : List ℕ}
    (h1 : 1 ∈ points) (ext : List ℝ) : ∃ e, phConstraints F .bu scheme order n_q n_u points ext = .error e := by
  cases hC : phConstraints F .bu scheme order n_q n_u points ext with
  | error e => exact ⟨e, rfl⟩
  | ok C =>
    exfalso
    obtain ⟨sl, -, hC⟩ := Exc.bind_ok hC
    obtain ⟨Cs, hCs, -⟩ := Exc.bind_ok hC
    obtain ⟨k, hk, hk1⟩ := List.mem_iff_getElem.1 h1
    obtain ⟨C', -, hC'⟩ := (Exc.mapM_ok hCs).2 k _ (by
      unfold segs
      rw [List.getElem?_map, List.getElem?_range hk]
      rfl)
    unfold phSeg at hC'
    simp only at hC'
    generalize hg : (Seg.mk _ _ _ _ _ _ _) = g at hC'
    have hn : g.n = 1 := by
      rw [← hg]
      simp [hk, hk1]
    cases hb : phBu scheme sl order n_q g with
    | error e => rw [hb] at hC'; cases hC'
    | ok B =>
      obtain ⟨sv, -, hb⟩ := Exc.bind_ok hb
      obtain ⟨ev, -, hb⟩ := Exc.bind_ok hb
      obtain ⟨mats, hm, -⟩ := Exc.bind_ok hb
      obtain ⟨M, -, hM⟩ := (Exc.mapM_ok hm).2 0 0 (List.getElem?_range (by omega))
      rw [hn, C29_one_gauss hs (by omega)] at hM
      cases hM

example : "LG" ∈ gaussLike ∧ 1 ∈ [3, 1, 2] := by decide

/-- A problem of three segments of different sizes in the hypotheses of `C99_feasible` and `C100_feasible`. -/
example : "JGR" ∈ buImplemented ∧ (∀ p ∈ [3, 1, 2], minPoints "JGR" ≤ p) ∧ "JGR" ∉ gaussLike ∧
    ∀ s < [3, 1, 2].length, ([0, 1, 3, 2] : List ℝ).getD s 0 ≠ ([0, 1, 3, 2] : List ℝ).getD (s + 1) 0 := by
  refine ⟨by decide, by decide, by decide, fun s hs => ?_⟩
  have hs : s < 3 := hs
  interval_cases s <;> norm_num

/-! ## C100: top-down -/

/-- C100: the same for the top-down problems, where the highest derivative at every knot is that of both segments. -/
theorem C100_feasible {scheme : String} (hs : scheme ∈ buImplemented) {order : ℕ} (ho : 1 ≤ order) (F : Dyn) (n_q n_u : ℕ) {points : List ℕ}
    (h0 : points ≠ []) (hN : ∀ p ∈ points, minPoints scheme ≤ p) {coll : ℕ → List ℝ}
    (hcoll : ∀ p ∈ points, collPoints p scheme order = .ok (coll p)) {ext : List ℝ} (hl : ext.length = points.length + 1)
    (ht : ∀ s < points.length, ext.getD s 0 ≠ ext.getD (s + 1) 0) :
    ∃ C, phConstraints F .td scheme order n_q n_u points ext = .ok C ∧ ∀ v, (∃ q, C v q) ↔
      (∃ Q : ℕ → ℕ → ℝ[X], ∀ s < points.length, SegPoly v order n_q points coll (fun s => ext.getD s 0) s (Q s) ∧
        ∀ j < n_q, v.lev order n_q order (knotRow points s) j = (derivative^[order] (Q s j)).eval (ext.getD s 0) ∧
          v.lev order n_q order (knotRow points (s + 1)) j = (derivative^[order] (Q s j)).eval (ext.getD (s + 1) 0)) ∧
      (∀ s ≤ points.length, KnotShift v order n_q points s) ∧ PhCollocated F v points ∧
      PhControls v n_u points coll (fun s => ext.getD s 0) := by
  obtain ⟨himp, sl, hsl⟩ := bu_imp hs
  have hmem : ∀ s < points.length, points.getD s 0 ∈ points := by
    intro s h
    rw [List.getD_eq_getElem?_getD, List.getElem?_eq_getElem h]
    exact List.getElem_mem _
  have hseg : ∀ s < points.length, ∃ C, phTd scheme sl order n_q (segAt points ext s) = .ok C ∧ ∀ v, (∃ q, C v q) ↔
      (∃ Q, GPoly v order n_q (segAt points ext s) (coll (points.getD s 0)) (ext.getD s 0) (ext.getD (s + 1) 0) Q ∧
        ∀ j < n_q, v.lev order n_q order (segAt points ext s).start j = (derivative^[order] (Q j)).eval (ext.getD s 0) ∧
          v.lev order n_q order (segAt points ext s).stop j = (derivative^[order] (Q j)).eval (ext.getD (s + 1) 0)) ∧
      shift order n_q (segAt points ext s).stop v ∧ ((segAt points ext s).first = true → shift order n_q (segAt points ext s).start v) := by
    intro s h
    have hb : buCollPoints (points.getD s 0) scheme order = .ok (coll (points.getD s 0)) := by
      rw [(bu_coll_eq hs _ _).1]; exact hcoll _ (hmem s h)
    exact td_seg hs ho n_q (g := segAt points ext s) (by simp [segAt]) (hN _ (hmem s h)) hb hsl (ht s h) rfl
  choose! Cs hCs using hseg
  obtain ⟨C, hC, hCv⟩ := ph_ok F (mode := .td) himp ho n_q n_u h0 hN hcoll hl ht hsl (S := Cs)
    (fun s h => ⟨Cs s, (hCs s h).1, fun _ _ => Iff.rfl⟩)
  refine ⟨C, hC, fun v => ?_⟩
  simp only [hCv]
  have hfirst : ∀ s, (segAt points ext s).first = true ↔ s = 0 := by intro s; simp [segAt]
  constructor
  · rintro ⟨q, h, h2, h3⟩
    have h := fun s hs => ((hCs s hs).2 v).1 ⟨q s, h s hs⟩
    choose! Q hQ using fun s hs => (h s hs).1
    refine ⟨⟨Q, fun s hs => ⟨(gpoly_iff _ _ _ _ _ _ _ _).1 (hQ s hs).1, (hQ s hs).2⟩⟩, ?_, h2, h3⟩
    refine (shift_iff v order n_q points).1 (fun s hs => ⟨(h s hs).2.1, fun h0' => ?_⟩) h0
    subst h0'
    have := (h 0 hs).2.2 ((hfirst 0).2 rfl)
    exact this
  · rintro ⟨⟨Q, hQ⟩, hsh, h2, h3⟩
    choose! q hq using fun s (hs' : s < points.length) => ((hCs s hs').2 v).2 ⟨⟨Q s, (gpoly_iff _ _ _ _ _ _ _ _).2 (hQ s hs').1, (hQ s hs').2⟩,
        hsh (s + 1) (by omega), fun _ => hsh s (by omega)⟩
    exact ⟨q, hq, h2, h3⟩

end Chords.Props
