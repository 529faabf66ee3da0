import Verif.Model.RefineSys
import Verif.Props.MeshErr
import Verif.Props.Digits

/-! # C182: the refinement of a mesh with the errors of the solutions -/

namespace Chords.RefineSys
open Polynomial Chords.Points Chords.Spec Chords.Bary Chords.TimeScale Chords.PsInterp Chords.BuTdInterp Chords.DynErr
  Chords.Interpolation Chords.Problem Chords.MeshErr Chords.Props
open Chords.Ph (linspace knotsExt)
open Chords.Adaptive (calcNewStruct EnoughPerSegment)

/-- The number of points of a segment. -/
def pointsOf (r : SegRes) (ii : ℕ) : ℕ := r.point_structure.getD ii 0

/-- `r` is a bottom-up or top-down result from `t0` to `tf` on the mesh with these knots and numbers of points, with the motions `Q ii` and the
controls `W ii`. -/
def Answers (n_q : ℕ) (t0 tf : ℝ) (knots : List ℝ) (points : List ℤ) (Q W : ℕ → ℕ → ℝ[X]) (r : SegRes) : Prop :=
  (∀ k ∈ knots, t0 < k ∧ k < tf) ∧ knots.Pairwise (· < ·) ∧ points.length = knots.length + 1 ∧ r.point_structure.map (fun n : ℕ => (n : ℤ)) = points ∧
  r.res.t.head? = some t0 ∧ r.res.t.getLast? = some tf ∧ r.res.x.width = n_q * 2 ∧
  ∃ (w : ℕ) (s : Segs), r.res.segs = some s ∧ r.res.scheme ∈ buImplemented ∧
    (∀ ii ≤ knots.length, minPoints r.res.scheme ≤ pointsOf r ii) ∧ (∀ ii ≤ knots.length, ∀ j < n_q, (Q ii j).degree < (2 + pointsOf r ii : ℕ)) ∧
    SegData s (fun N => buCollPoints N r.res.scheme 2) t0 tf knots (pointsOf r) w W ∧
    ((r.res.scheme_mode = "ph bottom-up pseudospectral" ∧ r.res.solve_order = 2 ∧
        SegFeasible s (fun N => buCollPoints N r.res.scheme 2) t0 tf knots (pointsOf r) 2 n_q Q) ∨
      (r.res.scheme_mode = "ph top-down pseudospectral" ∧ SegConstr s t0 tf knots (pointsOf r) 2 n_q Q))

/-- The instants of the segment `ii` at which a solution is tested: the points of its scheme with one more point than the segment has. -/
def Tests (t0 tf : ℝ) (knots : List ℝ) (r : SegRes) (ii : ℕ) (T : List ℝ) : Prop :=
  ∃ L, collPoints (pointsOf r ii + 1) r.res.scheme = .ok L ∧ T = L.map fun τ => tauToT τ (knot t0 tf knots ii) (knot t0 tf knots (ii + 1))

/-- `e` is the largest dynamic error, in absolute value, in the segment `ii` at the instants `T`. -/
def LargestError (n_q : ℕ) (Q W : ℕ → ℕ → ℝ[X]) (F : Row → Row → Row) (ii : ℕ) (T : List ℝ) (e : ℝ) : Prop :=
  IsMaxAbs T.length n_q (fun i c => dynError (Q ii) (W ii) n_q F (arr T i) c) e

/-- `q` is the largest coordinate, in absolute value, in the segment `ii` at the instants `T`. -/
def LargestCoord (n_q : ℕ) (Q : ℕ → ℕ → ℝ[X]) (ii : ℕ) (T : List ℝ) (q : ℝ) : Prop :=
  IsMaxAbs T.length n_q (fun i c => (Q ii c).eval (arr T i)) q

/-- The relative errors of a solution, one for each segment. -/
def RelErrors (n_q : ℕ) (t0 tf : ℝ) (knots : List ℝ) (Q W : ℕ → ℕ → ℝ[X]) (F : Row → Row → Row) (r : SegRes) (rel : List ℝ) : Prop :=
  rel.length = knots.length + 1 ∧ ∀ ii ≤ knots.length, ∃ T e q, Tests t0 tf knots r ii T ∧ LargestError n_q Q W F ii T e ∧
    LargestCoord n_q Q ii T q ∧ rel[ii]? = some (e / (1 + q))

/-- The motion follows the dynamics, up to `eps` times one plus the largest coordinate, at every test instant. -/
def Accurate (n_q : ℕ) (t0 tf : ℝ) (knots : List ℝ) (Q W : ℕ → ℕ → ℝ[X]) (F : Row → Row → Row) (eps : ℝ) (r : SegRes) : Prop :=
  ∀ ii ≤ knots.length, ∃ T q, Tests t0 tf knots r ii T ∧ LargestCoord n_q Q ii T q ∧
    ∀ t ∈ T, ∀ c < n_q, |dynError (Q ii) (W ii) n_q F t c| < eps * (1 + q)

/-- At some test instant the motion does not follow the dynamics up to `eps` times one plus the largest coordinate. -/
def Inaccurate (n_q : ℕ) (t0 tf : ℝ) (knots : List ℝ) (Q W : ℕ → ℕ → ℝ[X]) (F : Row → Row → Row) (eps : ℝ) (r : SegRes) : Prop :=
  ∃ ii ≤ knots.length, ∃ T q, Tests t0 tf knots r ii T ∧ LargestCoord n_q Q ii T q ∧
    ∃ t ∈ T, ∃ c < n_q, eps * (1 + q) ≤ |dynError (Q ii) (W ii) n_q F t c|

/-- `r` is the solution `r0` with its relative errors. -/
def Reported (r0 r : SegRes) (rel : List ℝ) : Prop :=
  r.max_rel_err = some rel ∧ r.point_structure = r0.point_structure ∧ r.res.segs = r0.res.segs

/-! ## Lemmas -/

theorem mem_arr {T : List ℝ} {t : ℝ} (h : t ∈ T) : ∃ i < T.length, arr T i = t := by
  obtain ⟨i, hi, rfl⟩ := List.mem_iff_getElem.1 h
  exact ⟨i, hi, by simp [arr, hi]⟩

theorem coord_nonneg {n_q : ℕ} {Q : ℕ → ℕ → ℝ[X]} {ii : ℕ} {T : List ℝ} {q : ℝ} (h : LargestCoord n_q Q ii T q) : 0 ≤ q := by
  obtain ⟨-, i, -, c, -, rfl⟩ := h
  exact abs_nonneg _

variable {n_q : ℕ} {t0 tf : ℝ} {knots : List ℝ} {points : List ℤ} {Q W : ℕ → ℕ → ℝ[X]} {F : Row → Row → Row} {r r0 : SegRes} {rel : List ℝ} {eps : ℝ}

theorem accurate_of (h : RelErrors n_q t0 tf knots Q W F r rel) (he : ∀ e ∈ rel, e < eps) : Accurate n_q t0 tf knots Q W F eps r := by
  intro ii hi
  obtain ⟨T, e, q, h1, h2, h3, h4⟩ := h.2 ii hi
  refine ⟨T, q, h1, h3, fun t ht c hc => ?_⟩
  obtain ⟨i, hi', rfl⟩ := mem_arr ht
  have := he _ (List.mem_of_getElem? h4)
  rw [div_lt_iff₀ (by linarith [coord_nonneg h3])] at this
  exact lt_of_le_of_lt (h2.1 i hi' c hc) this

theorem inaccurate_of (h : RelErrors n_q t0 tf knots Q W F r rel) (he : ¬ ∀ e ∈ rel, e < eps) : Inaccurate n_q t0 tf knots Q W F eps r := by
  push Not at he
  obtain ⟨e0, h0, hle⟩ := he
  obtain ⟨ii, hi, rfl⟩ := List.mem_iff_getElem.1 h0
  have hi' : ii ≤ knots.length := by have := h.1; omega
  obtain ⟨T, e, q, h1, h2, h3, h4⟩ := h.2 ii hi'
  rw [List.getElem?_eq_getElem hi, Option.some.injEq] at h4
  rw [h4, le_div_iff₀ (by linarith [coord_nonneg h3])] at hle
  obtain ⟨-, i, hi2, c, hc, rfl⟩ := h2
  exact ⟨ii, hi', T, q, h1, h3, arr T i, by simp [arr, hi2], c, hc, hle⟩

theorem points_range (h : Answers n_q t0 tf knots points Q W r) : r.point_structure = (List.range (knots.length + 1)).map (pointsOf r) := by
  obtain ⟨-, -, h3, h4, -⟩ := h
  have hl : r.point_structure.length = knots.length + 1 := by rw [← h3, ← h4, List.length_map]
  apply List.ext_getElem
  · simp [hl]
  · intro i h1 h2
    simp [pointsOf, h1]

theorem answers_rel (hq : 1 ≤ n_q) (ht : t0 < tf) (hF : Reads (2 * n_q) F) (elib : (d : ℕ) → Interp.Lib d Row) (lib : Lib)
    (h : Answers n_q t0 tf knots points Q W r0) : ∃ out r1 rel r, analyzeResErr elib lib r0 F true = .ok (out, r1) ∧ maxErr elib lib r1 = .ok (rel, r) ∧
      RelErrors n_q t0 tf knots Q W F r0 rel ∧ Reported r0 r rel := by
  have hp := points_range h
  obtain ⟨h1, h2, -, -, h5, h6, h7, w, s, h8, h9, h10, h11, h12, h13⟩ := h
  have hm : MeshErrors r0.res.scheme t0 tf knots (pointsOf r0) n_q Q W F elib lib r0 := by
    rcases h13 with ⟨a1, a2, a3⟩ | ⟨a1, a2⟩
    · exact C133_bu h9 hq ht h1 h2 h10 elib lib h11 rfl a1 a2 h5 h6 h7 h8 hp h12 a3 hF
    · exact C133_td h9 hq ht h1 h2 h10 elib lib h11 rfl a1 h5 h6 h7 h8 hp h12 a2 hF
  obtain ⟨T, hT, errs, r1, m1, -, -, -, rel, r, m2, m3, m4, m5, m6, m7⟩ := hm
  refine ⟨_, r1, rel, r, m1, m2, ⟨m6, fun ii hi => ?_⟩, m3, m4, m5⟩
  obtain ⟨e, q, e1, e2, e3⟩ := m7 ii hi
  exact ⟨T ii, e, q, hT ii hi, e1, e2, e3⟩

/-! ## The run -/

/-- The runs that are promised, from the iteration `i` and the mesh with these knots and numbers of points: at most `maxIter` iterations; after a
RuntimeError the same knots with one more point in each segment; the run ends with the first accurate solution; after another one the mesh is refined
as `calc_new_struct` does, with `⌈log (error / eps) / log points⌉` more points in each segment, and the run ends if that is too large. -/
inductive Run (n_q : ℕ) (t0 tf : ℝ) (F : Row → Row → Row) (problem : Problem) (bad min_p max_p : ℤ) (eps : ℝ) (maxIter : ℕ) (maxColl : ℤ) :
    ℕ → List ℝ → List ℤ → List SegRes → Prop
  | over {k p} : Run n_q t0 tf F problem bad min_p max_p eps maxIter maxColl maxIter k p []
  | failed {i k p l} : i < maxIter → problem i k p = .error .runtime →
      Run n_q t0 tf F problem bad min_p max_p eps maxIter maxColl (i + 1) k (p.map (· + 1)) l →
      Run n_q t0 tf F problem bad min_p max_p eps maxIter maxColl i k p l
  | converged {i k p Q W r0 r rel} : i < maxIter → problem i k p = .ok r0 → Answers n_q t0 tf k p Q W r0 → RelErrors n_q t0 tf k Q W F r0 rel →
      Reported r0 r rel → Accurate n_q t0 tf k Q W F eps r0 →
      Run n_q t0 tf F problem bad min_p max_p eps maxIter maxColl i k p [r]
  | tooLarge {i k p Q W r0 r rel k' p'} : i < maxIter → problem i k p = .ok r0 → Answers n_q t0 tf k p Q W r0 → RelErrors n_q t0 tf k Q W F r0 rel →
      Reported r0 r rel → Inaccurate n_q t0 tf k Q W F eps r0 →
      calcNewStruct min_p max_p p (List.zipWith (increment bad eps) rel r0.point_structure) (knotsExt t0 tf k) = .ok (k', p') → maxColl < p'.sum →
      Run n_q t0 tf F problem bad min_p max_p eps maxIter maxColl i k p [r]
  | refined {i k p Q W r0 r rel k' p' l} : i < maxIter → problem i k p = .ok r0 → Answers n_q t0 tf k p Q W r0 → RelErrors n_q t0 tf k Q W F r0 rel →
      Reported r0 r rel → Inaccurate n_q t0 tf k Q W F eps r0 →
      calcNewStruct min_p max_p p (List.zipWith (increment bad eps) rel r0.point_structure) (knotsExt t0 tf k) = .ok (k', p') → p'.sum ≤ maxColl →
      Run n_q t0 tf F problem bad min_p max_p eps maxIter maxColl (i + 1) k' p' l →
      Run n_q t0 tf F problem bad min_p max_p eps maxIter maxColl i k p (r :: l)

/-- What the user's problem promises: a result on the mesh that it is called with, or an exception. -/
def Honest (n_q : ℕ) (t0 tf : ℝ) (problem : Problem) : Prop :=
  ∀ i k p r, problem i k p = .ok r → ∃ Q W, Answers n_q t0 tf k p Q W r

theorem loop_run (hq : 1 ≤ n_q) (ht : t0 < tf) (hF : Reads (2 * n_q) F) (elib : (d : ℕ) → Interp.Lib d Row) (lib : Lib) {problem : Problem}
    (hp : Honest n_q t0 tf problem) {bad min_p max_p : ℤ} (hmax : 0 < max_p) {eps : ℝ} {maxIter : ℕ} {maxColl : ℤ} :
    ∀ (fuel i : ℕ) (k : List ℝ) (p : List ℤ) (run : List SegRes), i + fuel = maxIter →
      (∃ l, refineLoop elib lib problem F bad min_p max_p eps maxColl true fuel i k p run = .ok (run ++ l) ∧
        Run n_q t0 tf F problem bad min_p max_p eps maxIter maxColl i k p l) ∨
      (∃ j k' p' e, i ≤ j ∧ j < maxIter ∧ problem j k' p' = .error e ∧ e ≠ .runtime ∧
        refineLoop elib lib problem F bad min_p max_p eps maxColl true fuel i k p run = .error (.problem e)) := by
  intro fuel
  induction fuel with
  | zero =>
    intro i k p run hi
    obtain rfl : i = maxIter := by omega
    exact Or.inl ⟨[], by simp [refineLoop], .over⟩
  | succ fuel ih =>
    intro i k p run hi
    have hlt : i < maxIter := by omega
    simp only [refineLoop, Bool.true_eq_false, if_false]
    rcases hres : problem i k p with e | r0
    · by_cases he : e = .runtime
      · subst he
        dsimp only
        rcases ih (i + 1) k (p.map (· + 1)) run (by omega) with ⟨l, h1, h2⟩ | ⟨j, k', p', e, h1, h2, h3, h4, h5⟩
        · exact Or.inl ⟨l, h1, .failed hlt hres h2⟩
        · exact Or.inr ⟨j, k', p', e, by omega, h2, h3, h4, h5⟩
      · refine Or.inr ⟨i, k, p, e, le_rfl, hlt, hres, he, ?_⟩
        cases e <;> first | rfl | exact absurd rfl he
    · obtain ⟨Q, W, hA⟩ := hp i k p r0 hres
      obtain ⟨out, r1, rel, r, a1, a2, a3, a4⟩ := answers_rel hq ht hF elib lib hA
      simp only [a1, a2]
      by_cases hc : ∀ e ∈ rel, e < eps
      · rw [if_pos hc]
        exact Or.inl ⟨[r], rfl, .converged hlt hres hA a3 a4 (accurate_of a3 hc)⟩
      · rw [if_neg hc]
        have hpr := points_range hA
        have hl : rel.length = r.point_structure.length := by rw [a4.2.1, hpr, a3.1]; simp
        have hadd : addPointsArr bad eps rel r.point_structure = some (List.zipWith (increment bad eps) rel r0.point_structure) := by
          unfold addPointsArr
          rw [if_pos hl, a4.2.1]
        have hA' := hA
        obtain ⟨c1, c2, c3, c4, -, -, -, w, s, c5, -, -, -, c6, -⟩ := hA'
        have hs : r.res.segs = some s := by rw [a4.2.2, c5]
        simp only [hadd, hs]
        have hext : (t0 :: (k ++ [tf])).Pairwise (· < ·) := by
          rw [List.pairwise_cons, List.pairwise_append]
          refine ⟨fun x hx => ?_, c2, by simp, fun x hx y hy => ?_⟩
          · rcases List.mem_append.1 hx with h | h
            · exact (c1 x h).1
            · rw [List.mem_singleton.1 h]; exact ht
          · rw [List.mem_singleton.1 hy]; exact (c1 x hx).2
        have hlen0 : r0.point_structure.length = k.length + 1 := by rw [hpr]; simp
        obtain ⟨k', p', n1, -⟩ := Adaptive.C42_new_struct min_p max_p hmax p (List.zipWith (increment bad eps) rel r0.point_structure) t0 tf k
          (by rw [List.length_zipWith, a3.1, hlen0, c3, min_self]) c3 hext
        have n1' : calcNewStruct min_p max_p p (List.zipWith (increment bad eps) rel r0.point_structure) s.t_knot_ext = .ok (k', p') := by
          rw [c6.t_knot_ext]; exact n1
        simp only [n1']
        by_cases hb : p'.sum > maxColl
        · rw [if_pos hb]
          exact Or.inl ⟨[r], rfl, .tooLarge hlt hres hA a3 a4 (inaccurate_of a3 hc) n1 hb⟩
        · rw [if_neg hb]
          rcases ih (i + 1) k' p' (run ++ [r]) (by omega) with ⟨l, h1, h2⟩ | ⟨j, k2, p2, e, h1, h2, h3, h4, h5⟩
          · refine Or.inl ⟨r :: l, by rw [h1]; simp, .refined hlt hres hA a3 a4 (inaccurate_of a3 hc) n1 (not_lt.1 hb) h2⟩
          · exact Or.inr ⟨j, k2, p2, e, by omega, h2, h3, h4, h5⟩

/-- C182: with a problem that answers on the mesh it is called with, a call either makes a run as promised, with the errors of the motions, and returns
its solutions, or raises an exception that the problem raised, other than RuntimeError. -/
theorem C182_run (hq : 1 ≤ n_q) (ht : t0 < tf) (hF : Reads (2 * n_q) F) (elib : (d : ℕ) → Interp.Lib d Row) (lib : Lib) {problem : Problem}
    (hp : Honest n_q t0 tf problem) (bad min_p : ℤ) {max_p : ℤ} (hmax : 0 < max_p) (eps : ℝ) (maxIter : ℕ) (maxColl : ℤ) (knots : List ℝ)
    (points : List ℤ) :
    (∃ out, refineSystem elib lib problem F bad knots points min_p max_p eps maxIter maxColl true = .ok out ∧
      Run n_q t0 tf F problem bad min_p max_p eps maxIter maxColl 0 knots points out) ∨
    (∃ i k p e, i < maxIter ∧ problem i k p = .error e ∧ e ≠ .runtime ∧
      refineSystem elib lib problem F bad knots points min_p max_p eps maxIter maxColl true = .error (.problem e)) := by
  rcases loop_run hq ht hF elib lib hp hmax maxIter 0 knots points [] (zero_add _) (bad := bad) (min_p := min_p) (eps := eps) (maxColl := maxColl) with
    ⟨l, h1, h2⟩ | ⟨j, k', p', e, -, h2, h3, h4, h5⟩
  · exact Or.inl ⟨l, h1, h2⟩
  · exact Or.inr ⟨j, k', p', e, h2, h3, h4, h5⟩

/-- A solution of the run, as returned. -/
def Solution (n_q : ℕ) (t0 tf : ℝ) (F : Row → Row → Row) (problem : Problem) (maxIter : ℕ) (r : SegRes) (k : List ℝ) (p : List ℤ) (Q W : ℕ → ℕ → ℝ[X])
    (r0 : SegRes) (rel : List ℝ) : Prop :=
  (∃ i < maxIter, problem i k p = .ok r0) ∧ Answers n_q t0 tf k p Q W r0 ∧ RelErrors n_q t0 tf k Q W F r0 rel ∧ Reported r0 r rel

theorem run_end {problem : Problem} {bad min_p max_p : ℤ} {eps : ℝ} {maxIter : ℕ} {maxColl : ℤ} {i : ℕ} {k : List ℝ} {p : List ℤ} {out : List SegRes}
    (h : Run n_q t0 tf F problem bad min_p max_p eps maxIter maxColl i k p out) :
    i ≤ maxIter ∧ out.length ≤ maxIter - i ∧
    (∀ r ∈ out.dropLast, ∃ k p Q W r0 rel, Solution n_q t0 tf F problem maxIter r k p Q W r0 rel ∧ Inaccurate n_q t0 tf k Q W F eps r0) ∧
    ((∀ i k p, problem i k p ≠ .error .runtime) → out.length < maxIter - i → ∃ r k p Q W r0 rel, out.getLast? = some r ∧
      Solution n_q t0 tf F problem maxIter r k p Q W r0 rel ∧ (Accurate n_q t0 tf k Q W F eps r0 ∨ ∃ k' p',
        calcNewStruct min_p max_p p (List.zipWith (increment bad eps) rel r0.point_structure) (knotsExt t0 tf k) = .ok (k', p') ∧ maxColl < p'.sum)) := by
  induction h with
  | over => exact ⟨le_rfl, by simp, by simp, by simp⟩
  | failed hi hr _ ih =>
    obtain ⟨h1, h2, h3, h4⟩ := ih
    exact ⟨by omega, by omega, h3, fun hn => absurd hr (hn _ _ _)⟩
  | converged hi hr hA hE hR hacc =>
    exact ⟨hi.le, by simp; omega, by simp, fun _ _ => ⟨_, _, _, _, _, _, _, rfl, ⟨⟨_, hi, hr⟩, hA, hE, hR⟩, Or.inl hacc⟩⟩
  | tooLarge hi hr hA hE hR hin hn hb =>
    exact ⟨hi.le, by simp; omega, by simp, fun _ _ => ⟨_, _, _, _, _, _, _, rfl, ⟨⟨_, hi, hr⟩, hA, hE, hR⟩, Or.inr ⟨_, _, hn, hb⟩⟩⟩
  | @refined i k p Q W r0 r rel k' p' l hi hr hA hE hR hin hn hb _ ih =>
    obtain ⟨h1, h2, h3, h4⟩ := ih
    refine ⟨hi.le, by simp; omega, fun r' hr' => ?_, fun hf hl => ?_⟩
    · cases l with
      | nil => simp at hr'
      | cons a l =>
        rw [List.dropLast_cons_of_ne_nil (by simp)] at hr'
        rcases List.mem_cons.1 hr' with rfl | hr'
        · exact ⟨_, _, _, _, _, _, ⟨⟨_, hi, hr⟩, hA, hE, hR⟩, hin⟩
        · exact h3 r' hr'
    · obtain ⟨r', k2, p2, Q2, W2, r02, rel2, e1, e2⟩ := h4 hf (by simp at hl; omega)
      refine ⟨r', k2, p2, Q2, W2, r02, rel2, ?_, e2⟩
      cases l with
      | nil => simp at e1
      | cons a l => rw [List.getLast?_cons_cons]; exact e1

/-- C182, what is returned: at most `max_iter` solutions; all but the last one are wrong by `eps` times one plus the largest coordinate, or more, at some
test instant; and when no solve fails and fewer than `max_iter` solutions are returned, the last one is wrong by less than that at every test instant, or
its refinement is larger than `max_coll_points`. -/
theorem C182_end (hq : 1 ≤ n_q) (ht : t0 < tf) (hF : Reads (2 * n_q) F) (elib : (d : ℕ) → Interp.Lib d Row) (lib : Lib) {problem : Problem}
    (hp : Honest n_q t0 tf problem) (bad min_p : ℤ) {max_p : ℤ} (hmax : 0 < max_p) (eps : ℝ) (maxIter : ℕ) (maxColl : ℤ) (knots : List ℝ)
    (points : List ℤ) {out : List SegRes}
    (h : refineSystem elib lib problem F bad knots points min_p max_p eps maxIter maxColl true = .ok out) :
    out.length ≤ maxIter ∧
    (∀ r ∈ out.dropLast, ∃ k p Q W r0 rel, Solution n_q t0 tf F problem maxIter r k p Q W r0 rel ∧ Inaccurate n_q t0 tf k Q W F eps r0) ∧
    ((∀ i k p, problem i k p ≠ .error .runtime) → out.length < maxIter → ∃ r k p Q W r0 rel, out.getLast? = some r ∧
      Solution n_q t0 tf F problem maxIter r k p Q W r0 rel ∧ (Accurate n_q t0 tf k Q W F eps r0 ∨ ∃ k' p',
        calcNewStruct min_p max_p p (List.zipWith (increment bad eps) rel r0.point_structure) (knotsExt t0 tf k) = .ok (k', p') ∧ maxColl < p'.sum)) := by
  rcases C182_run hq ht hF elib lib hp bad min_p hmax eps maxIter maxColl knots points with ⟨out', h1, h2⟩ | ⟨i, k, p, e, -, -, -, h1⟩
  · rw [h] at h1
    cases h1
    obtain ⟨-, h3, h4, h5⟩ := run_end h2
    exact ⟨h3, h4, h5⟩
  · rw [h] at h1
    cases h1

theorem increment_nonneg {bad : ℤ} {e : ℝ} {p : ℕ} (heps : 0 < eps) (hp : 2 ≤ p) (h : eps < e * p) : 0 ≤ increment bad eps e p := by
  have hp' : (0 : ℝ) < p := by exact_mod_cast (by omega : 0 < p)
  have he : 0 < e := by
    by_contra hc
    have := mul_nonpos_of_nonpos_of_nonneg (not_lt.1 hc) hp'.le
    linarith
  have h1 : ¬(eps = 0 ∨ e / eps ≤ 0 ∨ p = 1) := by
    rintro (h' | h' | h')
    · linarith
    · have := div_pos he heps; linarith
    · omega
  rw [increment, if_neg h1]
  by_contra hc
  rw [not_le, Adaptive.C43_increment_negative_iff eps e p heps he (by exact_mod_cast hp)] at hc
  have : ((p : ℤ) : ℝ) = p := by simp
  rw [this] at hc
  linarith

/-- C182, the meshes, the part that holds: when the relative error of every segment is more than `eps` divided by its number of points, and this number is
at least 2, the refined mesh keeps the horizon and the knots, no segment loses points, and no new segment has fewer than `min_p` if none had. Missing:
solutions with a segment whose error is smaller. -/
theorem C182_mesh_partial (ht : t0 < tf) {bad min_p max_p : ℤ} (hmax : 0 < max_p) (heps : 0 < eps) (hA : Answers n_q t0 tf knots points Q W r)
    (hE : RelErrors n_q t0 tf knots Q W F r rel) (h2 : ∀ n ∈ r.point_structure, 2 ≤ n)
    (hbig : ∀ ii e, rel[ii]? = some e → eps < e * pointsOf r ii) {k' : List ℝ} {p' : List ℤ}
    (hn : calcNewStruct min_p max_p points (List.zipWith (increment bad eps) rel r.point_structure) (knotsExt t0 tf knots) = .ok (k', p')) :
    (t0 :: (k' ++ [tf])).Pairwise (· < ·) ∧ (∀ x ∈ knots, x ∈ k') ∧ p'.length = k'.length + 1 ∧ EnoughPerSegment points p' ∧
      ((∀ n ∈ points, min_p ≤ n) → ∀ n ∈ p', min_p ≤ n) := by
  have hpr := points_range hA
  obtain ⟨c1, c2, c3, c4, -⟩ := hA
  have hlen : r.point_structure.length = knots.length + 1 := by rw [hpr]; simp
  have hext : (t0 :: (knots ++ [tf])).Pairwise (· < ·) := by
    rw [List.pairwise_cons, List.pairwise_append]
    refine ⟨fun x hx => ?_, c2, by simp, fun x hx y hy => ?_⟩
    · rcases List.mem_append.1 hx with h | h
      · exact (c1 x h).1
      · rw [List.mem_singleton.1 h]; exact ht
    · rw [List.mem_singleton.1 hy]; exact (c1 x hx).2
  obtain ⟨k2, p2, n1, n2, n3, n4, -, n6, n7⟩ := Adaptive.C42_new_struct min_p max_p hmax points (List.zipWith (increment bad eps) rel r.point_structure)
    t0 tf knots (by rw [List.length_zipWith, hE.1, hlen, c3, min_self]) c3 hext
  rw [knotsExt, n1] at hn
  cases hn
  have hle : List.Forall₂ (fun a b : ℤ => a ≤ b) points (List.zipWith (· + ·) points (List.zipWith (increment bad eps) rel r.point_structure)) := by
    rw [List.forall₂_iff_get]
    refine ⟨by simp [hE.1, hlen, c3], fun i h3 h4 => ?_⟩
    have hi1 : i < rel.length := by rw [hE.1]; omega
    have hi2 : i < r.point_structure.length := by omega
    simp only [List.get_eq_getElem, List.getElem_zipWith]
    have := increment_nonneg (bad := bad) heps (h2 _ (List.getElem_mem hi2)) (by
      have := hbig i rel[i] (List.getElem?_eq_getElem hi1)
      simpa [pointsOf, hi2] using this)
    omega
  refine ⟨n2, n3, n4, ?_, fun hmin => n7 fun n hn => ?_⟩
  · obtain ⟨g, g1, g2⟩ := n6
    refine ⟨g, g1, ?_⟩
    generalize List.zipWith (· + ·) points (List.zipWith (increment bad eps) rel r.point_structure) = req at hle g2
    clear n7 n1 n2 n3 n4 c3 c4 hmax hE
    induction hle generalizing g p' with
    | nil => cases g2; exact .nil
    | cons hab _ ih =>
      cases g2 with
      | cons hg g2 => exact .cons (hab.trans hg) (ih _ rfl g2)
  · obtain ⟨i, hi, rfl⟩ := List.mem_iff_getElem.1 hn
    rw [List.forall₂_iff_get] at hle
    obtain ⟨l1, l2⟩ := hle
    have hi' : i < points.length := by rw [l1]; exact hi
    exact (hmin _ (List.getElem_mem hi')).trans (l2 i hi' hi)

/-! ## A segment without error -/

/-- The dynamics `a = 3 u₀² + u₁`. -/
def exF : Row → Row → Row := fun _ u _ => 3 * u 0 ^ 2 + u 1

/-- The motion `t² / 2`. -/
noncomputable def exQ : ℕ → ℕ → ℝ[X] := fun _ _ => C (1 / 2) * X ^ 2

/-- Its controls: `u₁ = 1` up to the knot at 1, and `u₀ = t - 2` after it. -/
noncomputable def exW : ℕ → ℕ → ℝ[X] := fun ii c => if ii = 0 then (if c = 1 then 1 else 0) else (if c = 0 then X - C 2 else 0)

theorem exW_degree (ii c : ℕ) : (exW ii c).degree < (2 : ℕ) := by
  unfold exW
  split_ifs
  · exact lt_of_le_of_lt degree_one_le (by norm_num)
  · rw [degree_zero]; exact WithBot.bot_lt_coe _
  · rw [degree_X_sub_C]; norm_num
  · rw [degree_zero]; exact WithBot.bot_lt_coe _

theorem exQ_second (ii : ℕ) (t : ℝ) : (derivative^[2] (exQ ii 0)).eval t = 1 := by
  simp [exQ, Function.iterate_succ, derivative_pow]

theorem ex_error_0 (t : ℝ) (c : ℕ) (hc : c < 1) : dynError (exQ 0) (exW 0) 1 exF t c = 0 := by
  obtain rfl : c = 0 := by omega
  rw [dynError, exQ_second]
  simp [exF, exW]

theorem ex_error_1 (t : ℝ) (c : ℕ) (hc : c < 1) : dynError (exQ 1) (exW 1) 1 exF t c = 1 - 3 * (t - 2) ^ 2 := by
  obtain rfl : c = 0 := by omega
  rw [dynError, exQ_second]
  simp [exF, exW]

/-- The result with two segments of two Legendre-Gauss points each. -/
theorem ex_answer : ∃ r : SegRes, Answers 1 (-1) 3 [1] [2, 2] exQ exW r ∧ r.res.scheme = "LG" ∧ r.point_structure = [2, 2] := by
  obtain ⟨coll, full, sl, c1, -, -, -, -, -, -, c8, -⟩ := C32_rows (scheme := "LG") (by decide) (order := 2) (N := 2) (by norm_num) (by decide)
  obtain ⟨s, -, h1, h2⟩ := Props.seg_exists (points := fun N => buCollPoints N "LG" 2) (t0 := -1) (tf := 3) (knots := [1])
    (N := fun _ => 2) (order := 2) (n_s := 1) (w := 2) (fun _ => C (1 / 2) * X ^ 2) (fun _ => 0) (coll := fun _ => coll)
    (fun _ _ => c1) (fun _ _ => c8) (fun _ _ _ => by rw [degree_zero]; exact WithBot.bot_lt_coe _)
  obtain ⟨U, hU⟩ : ∃ U : ℕ → Arr2, U = fun ii => ⟨2, coll.map fun τ c => (exW ii c).eval (tauToT τ (knot (-1) 3 [1] ii) (knot (-1) 3 [1] (ii + 1)))⟩ :=
    ⟨_, rfl⟩
  obtain ⟨res, hres⟩ : ∃ res : Res, res =
      { scheme := "LG"
        scheme_mode := "ph bottom-up pseudospectral"
        solve_order := 2
        x := ⟨2, []⟩
        x_d := ⟨2, []⟩
        u := ⟨2, []⟩
        t := [-1, 3]
        segs := some { s with u_col_list := [U 0, U 1] } } := ⟨_, rfl⟩
  obtain ⟨r, hr⟩ : ∃ r : SegRes, r = { res := res, point_structure := [2, 2] } := ⟨_, rfl⟩
  subst hres
  have hN : ∀ ii ≤ 1, pointsOf r ii = 2 := by
    intro ii hi
    rw [pointsOf, hr]
    obtain rfl | rfl : ii = 0 ∨ ii = 1 := by omega
    all_goals rfl
  have hlen : [(1 : ℝ)].length = 1 := rfl
  refine ⟨r, ⟨by simp, by simp, rfl, by rw [hr]; rfl, by rw [hr]; rfl, by rw [hr]; rfl, by rw [hr], 2, _, by rw [hr], by rw [hr]; exact (by decide : "LG" ∈ buImplemented), ?_, ?_, ?_,
    Or.inl ⟨by rw [hr], by rw [hr], ?_⟩⟩, by rw [hr], by rw [hr]⟩
  · intro ii hi
    rw [hN ii hi, hr]
    exact (by decide : minPoints "LG" ≤ 2)
  · intro ii hi j _
    rw [hN ii hi, exQ]
    refine lt_of_le_of_lt (degree_C_mul_X_pow_le _ _) (by norm_num)
  · refine ⟨h1.count, h1.t_knot, h1.t_knot_ext, fun ii hi c hc => ?_, fun ii hi c hc => ?_⟩
    · rw [hN ii hi, hr] at hc
      exact h1.t_col ii hi c hc
    · rw [hN ii hi, hr] at hc
      rw [hN ii hi]
      have hcc : c = coll := by
        dsimp only at hc
        rw [c1] at hc
        exact (Except.ok.inj hc).symm
      subst hcc
      refine ⟨U ii, ?_, by rw [hU], by rw [hU]; simpa using c8, fun c' => ⟨exW_degree ii c', fun i hi' => ?_⟩⟩
      · obtain rfl | rfl : ii = 0 ∨ ii = 1 := by simp at hi; omega
        all_goals rfl
      · rw [hU]
        dsimp only
        rw [rows_map _ _ (by omega)]
  · refine ⟨fun ii hi c hc => ?_, fun ii hi c hc => ?_, h2.x_knot, fun ii hi => ?_⟩
    · rw [hN ii hi, hr] at hc
      exact h2.x_col ii hi c hc
    · rw [hN ii hi, hr] at hc
      exact h2.x_d_col ii hi c hc
    · rcases Nat.lt_or_ge ii 2 with h | h
      · obtain ⟨r0, r1, e, -⟩ := h2.x_d_knot ii (by simp; omega)
        exact ⟨r0, e⟩
      · obtain ⟨r0, r1, -, e, -⟩ := h2.x_d_knot 1 (by simp)
        obtain rfl : ii = 2 := by simp at hi; omega
        exact ⟨r1, e⟩

/-- Non-vacuity of `C182_mesh_partial`: the same motion without forces has an error of 1 everywhere. -/
example : ∃ (r : SegRes) (rel : List ℝ) (eps : ℝ), Answers 1 (-1) 3 [1] [2, 2] exQ exW r ∧ RelErrors 1 (-1) 3 [1] exQ exW (fun _ _ _ => 0) r rel ∧ 0 < eps ∧
    (∀ n ∈ r.point_structure, 2 ≤ n) ∧ ∀ ii e, rel[ii]? = some e → eps < e * pointsOf r ii := by
  obtain ⟨r, hA, -, hps⟩ := ex_answer
  have hF : Reads (2 * 1) (fun _ _ _ => 0 : Row → Row → Row) := fun _ _ _ _ => rfl
  obtain ⟨out, r1, rel, r', -, -, a3, -⟩ := answers_rel (F := fun _ _ _ => 0) le_rfl (by norm_num) hF (fun _ => ⟨fun _ _ _ _ _ => 0, fun _ w => w⟩)
    ⟨fun _ _ _ _ _ => .error .value, fun _ _ => .error .value⟩ hA
  have hpos : ∀ ii ≤ 1, ∃ v, 0 < v ∧ rel[ii]? = some v := by
    intro ii hi
    obtain ⟨T, e, q, -, h2, h3, h4⟩ := a3.2 ii hi
    refine ⟨_, ?_, h4⟩
    have he : e = 1 := by
      obtain ⟨-, i, -, c, hc, rfl⟩ := h2
      obtain rfl : c = 0 := by omega
      dsimp only
      rw [dynError, exQ_second]
      simp
    rw [he]
    exact div_pos one_pos (by linarith [coord_nonneg h3])
  obtain ⟨v0, p0, e0⟩ := hpos 0 (by norm_num)
  obtain ⟨v1, p1, e1⟩ := hpos 1 le_rfl
  refine ⟨r, rel, min v0 v1, hA, a3, lt_min p0 p1, by simp [hps], fun ii e he => ?_⟩
  have hi : ii < 2 := by
    obtain ⟨this, -⟩ := List.getElem?_eq_some_iff.1 he
    have h2 : rel.length = 2 := a3.1
    omega
  obtain rfl | rfl : ii = 0 ∨ ii = 1 := by omega
  · rw [e0] at he
    cases he
    rw [pointsOf, hps]
    have := min_le_left v0 v1
    simp only [List.getD_cons_zero, List.getD_cons_succ, Nat.cast_ofNat]
    linarith
  · rw [e1] at he
    cases he
    rw [pointsOf, hps]
    have := min_le_right v0 v1
    simp only [List.getD_cons_zero, List.getD_cons_succ, Nat.cast_ofNat]
    linarith

/-- The result follows the dynamics exactly at its collocation points, in both segments. -/
theorem ex_collocates : ∃ L, buCollPoints 2 "LG" 2 = .ok L ∧ ∀ ii ≤ 1, ∀ τ ∈ L, ∀ c < 1,
    dynError (exQ ii) (exW ii) 1 exF (tauToT τ (knot (-1) 3 [1] ii) (knot (-1) 3 [1] (ii + 1))) c = 0 := by
  refine ⟨LG 2, by simp [buCollPoints, collPoints], fun ii hi τ hτ c hc => ?_⟩
  obtain rfl | rfl : ii = 0 ∨ ii = 1 := by omega
  · exact ex_error_0 _ c hc
  · rw [ex_error_1 _ c hc]
    have hk : tauToT τ (knot (-1) 3 [1] 1) (knot (-1) 3 [1] (1 + 1)) - 2 = τ := by
      simp [tauToT, knot, knotsExt]
      ring
    rw [hk]
    have h3 : Real.sqrt 3 * Real.sqrt 3 = 3 := Real.mul_self_sqrt (by norm_num)
    rw [Digits.LG_2] at hτ
    rcases List.mem_cons.1 hτ with rfl | hτ
    · nlinarith
    · rw [List.mem_singleton.1 hτ]
      nlinarith

/-- C182, the meshes, is false: for a solution that follows the dynamics exactly at its collocation points, and everywhere in its first segment, but
not at the test instants of the second one, the next mesh has a first segment with a negative number of points. So a problem that answers whenever
there is a result on its mesh makes the call fail. `bad` is the integer that numpy makes of minus infinity. -/
theorem C182_refuted (elib : (d : ℕ) → Interp.Lib d Row) (lib : Lib) {bad : ℤ} (hbad : bad ≤ -4) (min_p : ℤ) {max_p : ℤ} (hmax : 2 ≤ max_p)
    {maxIter : ℕ} (hI : 2 ≤ maxIter) {maxColl : ℤ} (hc : 4 ≤ maxColl) :
    ∃ (problem : Problem) (eps : ℝ), Honest 1 (-1) 3 problem ∧ 0 < eps ∧
      (∀ i k p e, problem i k p = .error e → ¬∃ Q W r, Answers 1 (-1) 3 k p Q W r) ∧
      (∃ r0, problem 0 [1] [2, 2] = .ok r0 ∧ Answers 1 (-1) 3 [1] [2, 2] exQ exW r0) ∧
      problem 1 [1] [2 + bad, 2] = .error .other ∧
      refineSystem elib lib problem exF bad [1] [2, 2] min_p max_p eps maxIter maxColl true = .error (.problem .other) := by
  classical
  obtain ⟨r0, hA, hsch, hps⟩ := ex_answer
  have hF : Reads (2 * 1) exF := fun _ _ _ _ => rfl
  obtain ⟨out, r1, rel, r, a1, a2, a3, a4⟩ := answers_rel le_rfl (by norm_num) hF elib lib hA
  obtain ⟨T, e, q, -, b2, -, b4⟩ := a3.2 0 (by simp)
  obtain ⟨T', e', q', d1, d2, d3, d4⟩ := a3.2 1 (by simp)
  have he : e = 0 := by
    obtain ⟨-, i, -, c, hc, rfl⟩ := b2
    dsimp only
    rw [ex_error_0 _ c hc, abs_zero]
  subst he
  have hrel : rel = [0, e' / (1 + q')] := by
    have hl : rel.length = 2 := a3.1
    match rel, hl with
    | [x, y], _ => simp at b4 d4; rw [b4, d4]
  have he' : 0 < e' := by
    have h0 : 0 ≤ e' := by obtain ⟨-, i, -, c, -, rfl⟩ := d2; exact abs_nonneg _
    refine lt_of_le_of_ne h0 fun h => ?_
    subst h
    obtain ⟨L, l1, l2⟩ := d1
    have hN : pointsOf r0 1 = 2 := by rw [pointsOf, hps]; rfl
    rw [hN, hsch] at l1
    have l1' : collPoints 3 "LG" = .ok L := l1
    obtain ⟨L', k1, k2, k3, -⟩ := C21_points (scheme := "LG") (by decide) (order := 2) (by norm_num) (N := 3) (by decide)
    rw [l1'] at k1
    cases k1
    have hroot : ∀ τ ∈ L, 3 * τ ^ 2 = 1 := by
      intro τ hτ
      obtain ⟨i, hi, rfl⟩ := List.mem_iff_getElem.1 hτ
      have hz := d2.1 i (by rw [l2, List.length_map]; exact hi) 0 (by norm_num)
      dsimp only at hz
      rw [ex_error_1 _ 0 (by norm_num), l2, Props.arr_map _ _ hi] at hz
      have hk : tauToT (arr L i) (knot (-1) 3 [1] 1) (knot (-1) 3 [1] (1 + 1)) - 2 = L[i] := by
        simp [tauToT, knot, knotsExt, arr, hi]
        ring
      rw [hk] at hz
      have := abs_nonpos_iff.1 hz
      linarith
    match L, k2 with
    | [x, y, z], _ =>
      have h1 := hroot x (by simp)
      have h2 := hroot y (by simp)
      have h3 := hroot z (by simp)
      simp only [List.pairwise_cons, List.mem_cons, List.not_mem_nil, or_false, forall_eq_or_imp, forall_eq] at k3
      obtain ⟨⟨xy, xz⟩, yz, -⟩ := k3
      have f1 : x + y = 0 := by
        have : (x - y) * (x + y) = 0 := by nlinarith
        rcases mul_eq_zero.1 this with h | h
        · linarith
        · exact h
      have f2 : x + z = 0 := by
        have : (x - z) * (x + z) = 0 := by nlinarith
        rcases mul_eq_zero.1 this with h | h
        · linarith
        · exact h
      linarith
  have hq' : 0 < 1 + q' := by linarith [coord_nonneg d3]
  have heps : 0 < e' / (1 + q') := div_pos he' hq'
  obtain ⟨eps, hE⟩ : ∃ eps, eps = e' / (1 + q') := ⟨_, rfl⟩
  rw [← hE] at hrel heps
  obtain ⟨problem, hP⟩ : ∃ problem : Problem, problem = fun _ k p => if k = [1] ∧ p = [2, 2] then .ok r0
    else if h : ∃ r Q W, Answers 1 (-1) 3 k p Q W r then .ok h.choose else .error .other := ⟨_, rfl⟩
  have hno : ¬∃ r Q W, Answers 1 (-1) 3 [1] [2 + bad, 2] Q W r := by
    rintro ⟨r, Q, W, -, -, -, h4, -⟩
    match hr : r.point_structure, h4 with
    | x :: l, h4 =>
      simp only [List.map_cons, List.cons.injEq] at h4
      omega
  have p0 : problem 0 [1] [2, 2] = .ok r0 := by rw [hP]; simp
  have p1 : problem 1 [1] [2 + bad, 2] = .error .other := by
    rw [hP]
    dsimp only
    rw [if_neg (by rintro ⟨-, h⟩; simp at h; omega), dif_neg hno]
  refine ⟨problem, eps, ?_, heps, ?_, ⟨r0, p0, hA⟩, p1, ?_⟩
  · intro i k p r h
    rw [hP] at h
    dsimp only at h
    split_ifs at h with h1 h2
    · cases h
      rw [h1.1, h1.2]
      exact ⟨_, _, hA⟩
    · cases h
      exact h2.choose_spec
  · rintro i k p e h ⟨Q, W, r, hr⟩
    rw [hP] at h
    dsimp only at h
    rw [dif_pos ⟨r, Q, W, hr⟩] at h
    split_ifs at h
  · obtain ⟨n, rfl⟩ : ∃ n, maxIter = n + 2 := ⟨maxIter - 2, by omega⟩
    have hinc0 : increment bad eps 0 2 = bad := by simp [increment]
    have hinc1 : increment bad eps eps 2 = 0 := by
      rw [increment, if_neg (by rintro (h | h | h) <;> [linarith; (rw [div_self heps.ne'] at h; linarith); omega])]
      simp [Adaptive.addPoints, heps.ne']
    obtain ⟨-, -, -, -, -, -, -, w, s, c5, -, -, -, c6, -⟩ := hA
    have hs : r.res.segs = some s := by rw [a4.2.2, c5]
    have hnew : calcNewStruct min_p max_p [2, 2] [bad, 0] s.t_knot_ext = .ok ([1], [2 + bad, 2]) := by
      rw [c6.t_knot_ext]
      have h1 : 2 + bad ≤ max_p := by omega
      simp [calcNewStruct, Adaptive.newStructLoop, Adaptive.newSegment, knotsExt, h1, hmax, Bind.bind, Except.bind]
    have hadd : addPointsArr bad eps rel r.point_structure = some [bad, 0] := by
      rw [a4.2.1, hps, hrel]
      simp [addPointsArr, hinc0, hinc1]
    have hnc : ¬∀ e ∈ rel, e < eps := by
      rw [hrel]
      simp
    have hsum : ¬([2 + bad, 2] : List ℤ).sum > maxColl := by simp; omega
    simp only [refineSystem, refineLoop, Bool.true_eq_false, if_false, p0, a1, a2, hadd, hs, hnew]
    rw [if_neg hnc, if_neg hsum]
    simp only [zero_add, p1]

end Chords.RefineSys
