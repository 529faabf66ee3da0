import Verif.Lemmas.Colloc
import Verif.Props.PhScheme
import Verif.Props.ConvOpt

/-! # C171: the feasible points of segmented problems follow the motion of the system -/

namespace Chords.Conv
open Set Polynomial Chords.Points Chords.Spec Chords.Bary Chords.Gauss Chords.TimeScale Chords.BuTd Chords.PhScheme Chords.Props

/-- The motion of the system over segments with ends `T`: in the segment `s`, `Z s j k` is the derivative of order `k` of the coordinate `j`, up to the order
`M + r`, and `w s` are the controls; the levels below `M` pass by the states `y` at the ends, without jumps. -/
structure SegMotions (A : (ℕ → ℕ → ℝ) → (ℕ → ℝ) → ℕ → ℝ) (M n_q r : ℕ) (T : ℕ → ℝ) (S : ℕ) (y : ℕ → ℕ → ℕ → ℝ) (w : ℕ → ℝ → ℕ → ℝ)
    (Z : ℕ → ℕ → ℕ → ℝ → ℝ) : Prop where
  tower : ∀ s < S, ∀ j < n_q, ∀ k < M + r, ∀ t ∈ Icc (T s) (T (s + 1)), HasDerivWithinAt (Z s j k) (Z s j (k + 1) t) (Icc (T s) (T (s + 1))) t
  dyn : ∀ s < S, ∀ t ∈ Icc (T s) (T (s + 1)), ∀ j < n_q, Z s j M t = A (fun p j => Z s j p t) (w s t) j
  start : ∀ s < S, ∀ j < n_q, ∀ p < M, Z s j p (T s) = y s p j
  stop : ∀ s < S, ∀ j < n_q, ∀ p < M, Z s j p (T (s + 1)) = y (s + 1) p j

/-- The problem has the controls of the motion at the collocation points. -/
def CollControls (n_u : ℕ) (points : List ℕ) (coll : ℕ → List ℝ) (T : ℕ → ℝ) (v : Vars) (w : ℕ → ℝ → ℕ → ℝ) : Prop :=
  ∀ s < points.length, ∀ m < points.getD s 0, ∀ k < n_u, v.u (colRow points s m) k = w s (tauToT (arr (coll (points.getD s 0)) m) (T s) (T (s + 1))) k

/-- The states of the problem at the collocation points and those of the motion are in a region. -/
structure SegRegion (R : (ℕ → ℕ → ℝ) → Prop) (n_q : ℕ) (points : List ℕ) (T : ℕ → ℝ) (v : Vars) (Z : ℕ → ℕ → ℕ → ℝ → ℝ) : Prop where
  problem : ∀ s < points.length, ∀ m < points.getD s 0, R fun p j => v.x (colRow points s m) (p * n_q + j)
  motion : ∀ s < points.length, ∀ t ∈ Icc (T s) (T (s + 1)), R fun p j => Z s j p t

/-- The bound of the error after a time `t`: a start error `d0` grows exponentially, and segments of length `h` add errors of order `n`. -/
noncomputable def segBound (Λ L K d0 h : ℝ) (n : ℕ) (t : ℝ) : ℝ :=
  Real.exp (2 * (1 + 4 * (Λ * L)) * t) * (d0 + t * (2 * (Λ + 1) * (1 + 2 * (Λ * L)) * K * h ^ n))

/-- Segments that are short enough. -/
structure ShortSegs (Λ L h : ℝ) (T : ℕ → ℝ) (S : ℕ) : Prop where
  inc : ∀ s < S, T s < T (s + 1)
  le : ∀ s < S, T (s + 1) - T s ≤ h
  half : h ≤ 1 / 2
  lip : 4 * h * (Λ * L) ≤ 1

/-- At the knots and at all instants between them. -/
structure SegNear (order n_q : ℕ) (points : List ℕ) (coll : ℕ → List ℝ) (T : ℕ → ℝ) (v : Vars) (y : ℕ → ℕ → ℕ → ℝ) (Z : ℕ → ℕ → ℕ → ℝ → ℝ) (b : ℝ → ℝ) : Prop where
  knots : ∀ s ≤ points.length, ∀ j < n_q, ∀ p < order, |v.lev order n_q p (knotRow points s) j - y s p j| ≤ b (T s - T 0)
  curves : ∀ s < points.length, ∀ Q, SegPoly v order n_q points coll T s Q → ∀ j < n_q, ∀ p < order, ∀ t ∈ Icc (T s) (T (s + 1)),
    |(derivative^[p] (Q j)).eval t - Z s j p t| ≤ b (T (s + 1) - T 0)

/-- A factor for all the point lists of a scheme up to some number of points. -/
theorem leb_scheme {scheme : String} (hs : scheme ∈ implemented) {order : ℕ} (ho : 1 ≤ order) (B : ℕ) :
    ∃ Λ, 0 ≤ Λ ∧ ∀ N, minPoints scheme ≤ N → N ≤ B → ∀ coll, collPoints N scheme order = .ok coll → Leb N (arr coll) Λ := by
  have : ∀ N, ∃ Λ, 0 ≤ Λ ∧ (minPoints scheme ≤ N → ∀ coll, collPoints N scheme order = .ok coll → Leb N (arr coll) Λ) := by
    intro N
    by_cases h : minPoints scheme ≤ N
    · obtain ⟨L, k1, -, k3⟩ := coll_distinct hs ho h
      obtain ⟨Λ, h0, hΛ⟩ := leb_exists k3
      refine ⟨Λ, h0, fun _ coll hc => ?_⟩
      rw [k1] at hc
      cases hc
      exact hΛ
    · exact ⟨0, le_rfl, fun h' => absurd h' h⟩
  choose Λ h0 hΛ using this
  refine ⟨∑ N ∈ Finset.range (B + 1), Λ N, Finset.sum_nonneg fun N _ => h0 N, fun N hN hB coll hc => ?_⟩
  exact (hΛ N hN coll hc).mono (Finset.single_le_sum (fun N _ => h0 N) (Finset.mem_range.2 (by omega)))

theorem seg_near {F : Dyn} {order n_q n_u n : ℕ} (ho : 1 ≤ order) {points : List ℕ} {coll : ℕ → List ℝ} {T : ℕ → ℝ} {A : (ℕ → ℕ → ℝ) → (ℕ → ℝ) → ℕ → ℝ}
    {R : (ℕ → ℕ → ℝ) → Prop} {Λ L K d0 h : ℝ} {y : ℕ → ℕ → ℕ → ℝ} {w : ℕ → ℝ → ℕ → ℝ} {Z : ℕ → ℕ → ℕ → ℝ → ℝ} {v : Vars} {Q : ℕ → ℕ → ℝ[X]}
    (hF : Explicit F order n_q A) (hL0 : 0 ≤ L) (hL : LipA A R order n_q n_u L) (hΛ0 : 0 ≤ Λ)
    (hpts : ∀ s < points.length, n ≤ points.getD s 0 ∧ Leb (points.getD s 0) (arr (coll (points.getD s 0))) Λ ∧
      ∀ m < points.getD s 0, arr (coll (points.getD s 0)) m ∈ Icc (-1 : ℝ) 1)
    (hm : ShortSegs Λ L h T points.length) (hM : SegMotions A order n_q n T points.length y w Z) (hK0 : 0 ≤ K)
    (hK : ∀ s < points.length, ∀ j < n_q, ∀ t ∈ Icc (T s) (T (s + 1)), |Z s j (order + n) t| ≤ K) (hd : 0 ≤ d0)
    (hQ : ∀ s < points.length, SegPoly v order n_q points coll T s (Q s)) (hc : PhCollocated F v points) (hu : CollControls n_u points coll T v w)
    (hR : SegRegion R n_q points T v Z) (h0 : ∀ j < n_q, ∀ p < order, |v.lev order n_q p (knotRow points 0) j - y 0 p j| ≤ d0) :
    SegNear order n_q points coll T v y Z (segBound Λ L K d0 h n) := by
  obtain ⟨b, hb⟩ : ∃ b, b = segBound Λ L K d0 h n := ⟨_, rfl⟩
  rw [← hb]
  have hΛL : 0 ≤ Λ * L := mul_nonneg hΛ0 hL0
  have hT : ∀ s ≤ points.length, T 0 ≤ T s := by
    intro s
    induction s with
    | zero => intro _; exact le_rfl
    | succ s ih => intro hs; exact (ih (by omega)).trans (hm.inc s (by omega)).le
  have hb0 : ∀ t, 0 ≤ t → 0 ≤ h → 0 ≤ b t := by intro t ht hh; rw [hb]; unfold segBound; positivity
  have step : ∀ s < points.length, ∀ Q, SegPoly v order n_q points coll T s Q →
      (∀ j < n_q, ∀ p < order, |v.lev order n_q p (knotRow points s) j - y s p j| ≤ b (T s - T 0)) →
      ∀ j < n_q, ∀ p < order, ∀ t ∈ Icc (T s) (T (s + 1)), |(derivative^[p] (Q j)).eval t - Z s j p t| ≤ b (T (s + 1) - T 0) := by
    intro s hs Q hQ hprev j hj p hp t ht
    obtain ⟨k1, k2, k3⟩ := hpts s hs
    have hH := hm.inc s hs
    have hHh := hm.le s hs
    have hh0 : 0 ≤ h := by linarith
    have key := seg_err (ι := Fin n_q) (M := order) (n := n) (R := fun j => Q j) (D := fun j => Z s j) (δ := b (T s - T 0)) (L := L) (K := K) k1 k3 hΛ0 k2 hH
      (hHh.trans hm.half) hL0 (le_trans (mul_le_mul_of_nonneg_right (by linarith) hΛL) hm.lip) (fun j => (hQ j j.2).1)
      (fun j => hM.tower s hs j j.2) hK0 (fun j => hK s hs j j.2) (hb0 _ (by linarith [hT s (by omega)]) hh0)
      (fun p hp j => by
        rw [hM.start s hs j j.2 p hp, ← ((hQ j j.2).2.1 p hp).1]
        exact hprev j j.2 p hp)
      (fun m hmm d hd' j => by
        have e1 := hF _ _ _ _ (hc s hs m hmm) j j.2
        have e2 := (hQ j j.2).2.2 order le_rfl m hmm
        rw [Vars.lev, if_neg (lt_irrefl _), mul_comm] at e2
        rw [← e2, e1, hM.dyn s hs _ (time_of_tau hH (k3 m hmm)) j j.2]
        refine hL _ _ _ _ d (hR.problem s hs m hmm) (hR.motion s hs _ (time_of_tau hH (k3 m hmm))) (fun p hp i hi => ?_) (hu s hs m hmm) j j.2
        have e3 := (hQ i hi).2.2 p hp.le m hmm
        rw [Vars.lev, if_pos hp, mul_comm] at e3
        rw [e3]
        exact hd' p hp ⟨i, hi⟩)
      p hp ⟨j, hj⟩ t ht
    refine key.trans ?_
    have hτ : 2 * (Λ + 1) * (1 + 2 * (Λ * L)) * K * (T (s + 1) - T s) ^ n ≤ 2 * (Λ + 1) * (1 + 2 * (Λ * L)) * K * h ^ n :=
      mul_le_mul_of_nonneg_left (pow_le_pow_left₀ (by linarith) hHh n) (by positivity)
    have ms := mesh_step (a := 2 * (1 + 4 * (Λ * L))) (τ := 2 * (Λ + 1) * (1 + 2 * (Λ * L)) * K * h ^ n) (t := T s - T 0) (H := T (s + 1) - T s) (by positivity)
      (by positivity) hd (by linarith [hT s (by omega)]) (by linarith) (b := b) (fun t => by rw [hb]; rfl)
    rw [show T s - T 0 + (T (s + 1) - T s) = T (s + 1) - T 0 by ring] at ms
    refine le_trans (add_le_add_right (mul_le_mul_of_nonneg_left (add_le_add_right hτ _) (by linarith)) _) ms
  have knots : ∀ s ≤ points.length, ∀ j < n_q, ∀ p < order, |v.lev order n_q p (knotRow points s) j - y s p j| ≤ b (T s - T 0) := by
    intro s
    induction s with
    | zero =>
      intro _ j hj p hp
      rw [sub_self, hb, segBound, mul_zero, Real.exp_zero, one_mul, zero_mul, add_zero]
      exact h0 j hj p hp
    | succ s ih =>
      intro hs j hj p hp
      have := step s (by omega) (Q s) (hQ s (by omega)) (ih (by omega)) j hj p hp _ (right_mem_Icc.2 (hm.inc s (by omega)).le)
      rwa [hM.stop s (by omega) j hj p hp, ← ((hQ s (by omega) j hj).2.1 p hp).2] at this
  exact ⟨knots, fun s hs Q' hQ' => step s hs Q' hQ' (knots s hs.le)⟩

/-- Numbers of points between `n` and `B` that the scheme admits. -/
def Admissible (scheme : String) (n B : ℕ) (points : List ℕ) : Prop := points ≠ [] ∧ ∀ p ∈ points, minPoints scheme ≤ p ∧ n ≤ p ∧ p ≤ B

private theorem mem_getD {points : List ℕ} {s : ℕ} (h : s < points.length) : points.getD s 0 ∈ points := by
  rw [List.getD_eq_getElem?_getD, List.getElem?_eq_getElem h]
  exact List.getElem_mem _

theorem points_ok {scheme : String} (hs : scheme ∈ implemented) {order : ℕ} (ho : 1 ≤ order) {n B : ℕ} {Λ : ℝ}
    (hΛ : ∀ N, minPoints scheme ≤ N → N ≤ B → ∀ coll, collPoints N scheme order = .ok coll → Leb N (arr coll) Λ) {points : List ℕ} (hp : Admissible scheme n B points)
    {coll : ℕ → List ℝ} (hcoll : ∀ p ∈ points, collPoints p scheme order = .ok (coll p)) : ∀ s < points.length,
      n ≤ points.getD s 0 ∧ Leb (points.getD s 0) (arr (coll (points.getD s 0))) Λ ∧ ∀ m < points.getD s 0, arr (coll (points.getD s 0)) m ∈ Icc (-1 : ℝ) 1 := by
  intro s h
  obtain ⟨g1, g2, g3⟩ := hp.2 _ (mem_getD h)
  have hc := hcoll _ (mem_getD h)
  refine ⟨g2, hΛ _ g1 g3 _ hc, fun m hm => ?_⟩
  obtain ⟨L, k1, k2, -, k3, -⟩ := C21_points hs ho g1
  rw [k1] at hc
  cases hc
  refine k3 _ ?_
  generalize points.getD s 0 = N at *
  rw [arr, List.getD_eq_getElem?_getD, List.getElem?_eq_getElem (by omega), Option.getD_some]
  exact List.getElem_mem _

/-- C171, bottom-up (the last `example` of PhSolvable.lean meets the hypotheses): there is a factor that depends on the scheme, the order of the problem and a bound of the numbers of points only, so that with segments
short enough the feasible points with the controls of a smooth motion follow it: with at least `n` points in every segment the errors at the knots and at all
instants between them are of order `n` in the length of the segments, whatever the segments. -/
theorem C171_bu {scheme : String} (hs : scheme ∈ buImplemented) {order : ℕ} (ho : 1 ≤ order) (B : ℕ) :
    ∃ Λ, 0 ≤ Λ ∧ ∀ (F : Dyn) (n_q n_u n : ℕ) (points : List ℕ), Admissible scheme n B points → ((∀ p ∈ points, 2 ≤ p) ∨ scheme ∉ gaussLike) →
      ∀ coll : ℕ → List ℝ, (∀ p ∈ points, collPoints p scheme order = .ok (coll p)) → ∀ ext : List ℝ, ext.length = points.length + 1 →
      ∀ A R L K h y w Z, Explicit F order n_q A → 0 ≤ L → LipA A R order n_q n_u L → ShortSegs Λ L h (fun s => ext.getD s 0) points.length →
      SegMotions A order n_q n (fun s => ext.getD s 0) points.length y w Z → 0 ≤ K →
      (∀ s < points.length, ∀ j < n_q, ∀ t ∈ Icc (ext.getD s 0) (ext.getD (s + 1) 0), |Z s j (order + n) t| ≤ K) →
      ∃ C, phConstraints F .bu scheme order n_q n_u points ext = .ok C ∧ ∀ v q d0, C v q → CollControls n_u points coll (fun s => ext.getD s 0) v w →
        SegRegion R n_q points (fun s => ext.getD s 0) v Z → 0 ≤ d0 → (∀ j < n_q, ∀ p < order, |v.lev order n_q p 0 j - y 0 p j| ≤ d0) →
        SegNear order n_q points coll (fun s => ext.getD s 0) v y Z (segBound Λ L K d0 h n) := by
  have himp : scheme ∈ implemented := (bu_imp hs).1
  obtain ⟨Λ, hΛ0, hΛ⟩ := leb_scheme himp ho B
  refine ⟨Λ, hΛ0, fun F n_q n_u n points hp h1 coll hcoll ext hl A R L K h y w Z hF hL0 hL hm hM hK0 hK => ?_⟩
  obtain ⟨C, hC, hCv⟩ := C99_feasible hs ho F n_q n_u hp.1 (fun p hpp => (hp.2 p hpp).1) h1 hcoll hl (fun s h => (hm.inc s h).ne)
  refine ⟨C, hC, fun v q d0 hv hu hR hd h0 => ?_⟩
  obtain ⟨⟨Q, hQ⟩, -, hc, -⟩ := (hCv v q).1 hv
  exact seg_near ho hF hL0 hL hΛ0 (points_ok himp ho hΛ hp hcoll) hm hM hK0 hK hd (fun s h => (hQ s h).1) hc hu hR h0

/-- C171, top-down, with the hypotheses of `C171_bu`. -/
theorem C171_td {scheme : String} (hs : scheme ∈ buImplemented) {order : ℕ} (ho : 1 ≤ order) (B : ℕ) :
    ∃ Λ, 0 ≤ Λ ∧ ∀ (F : Dyn) (n_q n_u n : ℕ) (points : List ℕ), Admissible scheme n B points →
      ∀ coll : ℕ → List ℝ, (∀ p ∈ points, collPoints p scheme order = .ok (coll p)) → ∀ ext : List ℝ, ext.length = points.length + 1 →
      ∀ A R L K h y w Z, Explicit F order n_q A → 0 ≤ L → LipA A R order n_q n_u L → ShortSegs Λ L h (fun s => ext.getD s 0) points.length →
      SegMotions A order n_q n (fun s => ext.getD s 0) points.length y w Z → 0 ≤ K →
      (∀ s < points.length, ∀ j < n_q, ∀ t ∈ Icc (ext.getD s 0) (ext.getD (s + 1) 0), |Z s j (order + n) t| ≤ K) →
      ∃ C, phConstraints F .td scheme order n_q n_u points ext = .ok C ∧ ∀ v q d0, C v q → CollControls n_u points coll (fun s => ext.getD s 0) v w →
        SegRegion R n_q points (fun s => ext.getD s 0) v Z → 0 ≤ d0 → (∀ j < n_q, ∀ p < order, |v.lev order n_q p 0 j - y 0 p j| ≤ d0) →
        SegNear order n_q points coll (fun s => ext.getD s 0) v y Z (segBound Λ L K d0 h n) := by
  have himp : scheme ∈ implemented := (bu_imp hs).1
  obtain ⟨Λ, hΛ0, hΛ⟩ := leb_scheme himp ho B
  refine ⟨Λ, hΛ0, fun F n_q n_u n points hp coll hcoll ext hl A R L K h y w Z hF hL0 hL hm hM hK0 hK => ?_⟩
  obtain ⟨C, hC, hCv⟩ := C100_feasible hs ho F n_q n_u hp.1 (fun p hpp => (hp.2 p hpp).1) hcoll hl (fun s h => (hm.inc s h).ne)
  refine ⟨C, hC, fun v q d0 hv hu hR hd h0 => ?_⟩
  obtain ⟨⟨Q, hQ⟩, -, hc, -⟩ := (hCv v).1 ⟨q, hv⟩
  exact seg_near ho hF hL0 hL hΛ0 (points_ok himp ho hΛ hp hcoll) hm hM hK0 hK hd (fun s h => (hQ s h).1) hc hu hR h0

end Chords.Conv
