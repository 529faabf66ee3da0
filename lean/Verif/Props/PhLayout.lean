import Mathlib.Tactic.Linarith
import Mathlib.Tactic.Positivity
import Mathlib.Tactic.FieldSimp
import Mathlib.Tactic.Ring
import Mathlib.Tactic.NormNum
import Mathlib.Algebra.Order.Ring.Rat
import Mathlib.Algebra.BigOperators.Fin
import Verif.Model.PhLayout

/-! # Properties C33, C34, C35, C46, C69: segmented problems -/

namespace Chords.Ph
open Finset Chords.Spec

/-! ## C33: rows -/

/-- All rows in the order of the loop: each segment's block, then the row after it. -/
def loopRows (segs : List (List ℕ × ℕ)) : List ℕ := (segs.map fun s => s.1 ++ [s.2]).flatten

theorem loopRows_segRows (i : ℕ) (points : List ℕ) :
    loopRows (segRows i points) = List.range' i (points.sum + points.length) := by
  induction points generalizing i with
  | nil => simp [segRows, loopRows]
  | cons p ps ih =>
    have := ih (i + p + 1)
    simp only [loopRows] at this
    simp only [segRows, loopRows, List.map_cons, List.flatten_cons, this, List.sum_cons, List.length_cons]
    have h : p + ps.sum + (ps.length + 1) = p + (1 + (ps.sum + ps.length)) := by omega
    rw [h, ← List.range'_append_1 (s := i) (m := p), ← List.range'_append_1 (s := i + p) (m := 1)]
    simp

theorem segRows_last (points : List ℕ) (i : ℕ) (s : List ℕ × ℕ)
    (h : (segRows i points).getLast? = some s) : s.2 + 1 = i + points.sum + points.length := by
  induction points generalizing i with
  | nil => simp [segRows] at h
  | cons p ps ih =>
    cases ps with
    | nil => simp [segRows] at h; subst h; simp
    | cons p' ps' =>
      have hne : segRows (i + p + 1) (p' :: ps') ≠ [] := by simp [segRows]
      rw [segRows, List.getLast?_cons_of_ne_nil hne] at h
      have := ih (i + p + 1) h
      simp at this ⊢; omega

/-- C33.  For every point structure: the start row 0 followed by the segments' collocation rows, each
followed by its knot row, is exactly `0, 1, ..., n_arr - 1` (every row once, in order); there is one
block per segment, of the requested size; and the last knot row is the last row. -/
theorem C33_rows (points : List ℕ) :
    0 :: loopRows (segRows 1 points) = List.range (nArr points) ∧
    (segRows 1 points).map (fun s => s.1.length) = points ∧
    (∀ s, (segRows 1 points).getLast? = some s → s.2 + 1 = nArr points) := by
  have hl : ∀ i, (segRows i points).map (fun s => s.1.length) = points := by
    induction points with
    | nil => simp [segRows]
    | cons p ps ih => intro i; simp [segRows, ih (i + p + 1)]
  refine ⟨?_, hl 1, ?_⟩
  · rw [loopRows_segRows, nArr, List.range_eq_range', List.range'_succ]
  · intro s h
    have := segRows_last points 1 s h
    simp [nArr]; omega

/-! ## C33: times -/

theorem tArrTail_length (coll : ℕ → List ℝ) (points : List ℕ) (ext : List ℝ)
    (hc : ∀ p ∈ points, (coll p).length = p) (hl : ext.length = points.length + 1) :
    (tArrTail coll points ext).length = points.sum + points.length := by
  induction points generalizing ext with
  | nil => cases ext <;> simp [tArrTail]
  | cons p ps ih =>
    match ext, hl with
    | a :: b :: ts, hl =>
      simp only [tArrTail, List.length_append, List.length_map, List.length_cons, List.sum_cons,
        hc p (by simp)]
      rw [ih (b :: ts) (fun q hq => hc q (by simp [hq])) (by simpa using hl)]
      omega
    | [a], hl => simp at hl

/-- Positions in a list, shifted. -/
theorem rows_times_aux (coll : ℕ → List ℝ) (points : List ℕ) (ext : List ℝ) (pre : List ℝ)
    (hc : ∀ p ∈ points, (coll p).length = p) (hl : ext.length = points.length + 1) :
    ((segRows pre.length points).map fun s => s.1.map fun r => (pre ++ tArrTail coll points ext)[r]?)
      = (tColl coll points ext).map (fun l => l.map some) ∧
    ((segRows pre.length points).map fun s => (pre ++ tArrTail coll points ext)[s.2]?)
      = ext.tail.map some := by
  induction points generalizing ext pre with
  | nil =>
    match ext, hl with
    | [a], _ => simp [segRows, tColl]
  | cons p ps ih =>
    match ext, hl with
    | a :: b :: ts, hl =>
      have hp := hc p (by simp)
      have := ih (b :: ts) (pre ++ ((coll p).map (fun τ => TimeScale.tauToT τ a b) ++ [b]))
        (fun q hq => hc q (by simp [hq])) (by simpa using hl)
      simp only [List.length_append, List.length_map, hp, List.length_singleton, List.append_assoc,
        List.singleton_append, ← Nat.add_assoc] at this
      simp only [segRows, tArrTail, tColl, List.map_cons, List.tail_cons, this.1, this.2]
      refine ⟨?_, ?_⟩
      · congr 1
        apply List.ext_getElem
        · simp [hp]
        · intro n h1 h2
          simp only [List.length_map, List.length_range', Nat.add_sub_cancel_left] at h1
          simp only [List.getElem_map, List.getElem_range', Nat.one_mul]
          rw [List.getElem?_append_right (by omega), Nat.add_sub_cancel_left,
            List.getElem?_append_left (by simp [hp, h1]), List.getElem?_map,
            List.getElem?_eq_getElem (by omega)]
          simp
      · simp only [List.cons.injEq]
        refine ⟨?_, by simp⟩
        rw [List.getElem?_append_right (by omega), Nat.add_sub_cancel_left,
          List.getElem?_append_right (by simp [hp])]
        simp [hp]
    | [a], hl => simp at hl

/-- C33, times: when every segment's collocation list has the requested length, the time array has one
entry per row; the entries at a segment's collocation rows are that segment's collocation times and
the entries at the knot rows are the segment ends. -/
theorem C33_times (coll : ℕ → List ℝ) (points : List ℕ) (t_start t_end : ℝ) (knots : List ℝ)
    (hc : ∀ p ∈ points, (coll p).length = p) (hl : points.length = knots.length + 1) :
    let t := tArr coll points (knotsExt t_start t_end knots)
    t.length = nArr points ∧ t[0]? = some t_start ∧
    ((segRows 1 points).map fun s => s.1.map fun r => t[r]?)
      = (tColl coll points (knotsExt t_start t_end knots)).map (fun l => l.map some) ∧
    ((segRows 1 points).map fun s => t[s.2]?) = (knots ++ [t_end]).map some := by
  have hl' : (knotsExt t_start t_end knots).length = points.length + 1 := by simp [knotsExt, hl]
  have h := rows_times_aux coll points (knotsExt t_start t_end knots) [t_start] hc hl'
  refine ⟨?_, by simp [tArr, knotsExt], ?_, ?_⟩
  · have := tArrTail_length coll points _ hc hl'
    simp only [tArr, List.length_append, this, nArr]
    simp [knotsExt]; omega
  · simpa [tArr, knotsExt] using h.1
  · simpa [tArr, knotsExt] using h.2

theorem tauToT_mem {τ a b : ℝ} (hab : a < b) (h1 : -1 < τ) (h2 : τ < 1) :
    a < TimeScale.tauToT τ a b ∧ TimeScale.tauToT τ a b < b := by
  unfold TimeScale.tauToT
  constructor <;> nlinarith [mul_pos (sub_pos.mpr hab) (by linarith : (0:ℝ) < τ + 1),
    mul_pos (sub_pos.mpr hab) (by linarith : (0:ℝ) < 1 - τ)]

/-- C33, order: with strictly increasing knots and, in every segment, collocation points strictly
increasing inside (-1, 1), the time array is strictly increasing. -/
theorem C33_time_order (coll : ℕ → List ℝ) (points : List ℕ) (ext : List ℝ)
    (hin : ∀ p ∈ points, ∀ τ ∈ coll p, -1 < τ ∧ τ < 1) (hs : ∀ p ∈ points, (coll p).Pairwise (· < ·))
    (hext : ext.Pairwise (· < ·)) : (tArr coll points ext).Pairwise (· < ·) := by
  have key : ∀ (points : List ℕ) (a : ℝ) (ts : List ℝ), (∀ p ∈ points, ∀ τ ∈ coll p, -1 < τ ∧ τ < 1) →
      (∀ p ∈ points, (coll p).Pairwise (· < ·)) → (a :: ts).Pairwise (· < ·) →
      (a :: tArrTail coll points (a :: ts)).Pairwise (· < ·) := by
    intro points
    induction points with
    | nil => intro a ts _ _ _; simp [tArrTail]
    | cons p ps ih =>
      intro a ts hin hs hext
      cases ts with
      | nil => simp [tArrTail]
      | cons b ts =>
        have hb := ih b ts (fun q hq => hin q (by simp [hq])) (fun q hq => hs q (by simp [hq]))
          (List.pairwise_cons.mp hext).2
        have hab : a < b := (List.pairwise_cons.mp hext).1 b (by simp)
        rw [tArrTail, List.pairwise_cons]
        have hmem : ∀ x ∈ (coll p).map (fun τ => TimeScale.tauToT τ a b), a < x ∧ x < b := by
          intro x hx
          obtain ⟨τ, hτ, rfl⟩ := List.mem_map.mp hx
          have := hin p (by simp) τ hτ
          exact tauToT_mem hab this.1 this.2
        have hbs : ∀ x ∈ b :: tArrTail coll ps (b :: ts), b ≤ x := by
          intro x hx
          rcases List.mem_cons.mp hx with rfl | hx
          · exact le_refl _
          · exact ((List.pairwise_cons.mp hb).1 x hx).le
        refine ⟨?_, ?_⟩
        · intro x hx
          rcases List.mem_append.mp hx with hx | hx
          · exact (hmem x hx).1
          · exact hab.trans_le (hbs x hx)
        · rw [List.pairwise_append]
          refine ⟨?_, hb, fun x hx y hy => (hmem x hx).2.trans_le (hbs y hy)⟩
          rw [List.pairwise_map]
          refine (hs p (by simp)).imp ?_
          intro s t hst
          unfold TimeScale.tauToT
          have := mul_lt_mul_of_pos_left hst (sub_pos.mpr hab)
          nlinarith
  cases ext with
  | nil =>
    cases points <;> simp [tArr, tArrTail]
  | cons a ts => simpa [tArr] using key points a ts hin hs hext

/-- Non-vacuity: two segments of one and two points. -/
example : (∀ p ∈ [1, 2], ((fun p => if p = 1 then [0] else [-1/2, 1/2] : ℕ → List ℝ) p).length = p) ∧
    (∀ p ∈ [1, 2], ∀ τ ∈ (fun p => if p = 1 then [0] else [-1/2, 1/2] : ℕ → List ℝ) p, -1 < τ ∧ τ < 1) ∧
    (knotsExt 0 2 [1]).Pairwise (· < ·) := by
  refine ⟨by simp, by norm_num, by norm_num [knotsExt]⟩

example : segRows 1 [3, 2] = [([1, 2, 3], 4), ([5, 6], 7)] ∧ nArr [3, 2] = 8 := by decide

/-! ## C34 -/

theorem pairs_le_iff (l : List ℝ) :
    (∀ kk ∈ l.dropLast.zip l.tail, kk.1 ≤ kk.2) ↔ l.Pairwise (· ≤ ·) := by
  induction l with
  | nil => simp
  | cons a t ih =>
    cases t with
    | nil => simp
    | cons b t =>
      simp only [List.tail_cons] at ih ⊢
      rw [List.dropLast_cons_of_ne_nil (by simp), List.zip_cons_cons, List.forall_mem_cons,
        List.pairwise_cons]
      refine Iff.trans (and_congr_right fun _ => ih) ?_
      constructor
      · rintro ⟨h1, h2⟩
        refine ⟨?_, h2⟩
        intro x hx
        rcases List.mem_cons.mp hx with rfl | hx
        · exact h1
        · exact le_trans h1 ((List.pairwise_cons.mp h2).1 x hx)
      · rintro ⟨h1, h2⟩
        exact ⟨h1 b (by simp), h2⟩

/-- The check accepts exactly: knots strictly inside the horizon, in non-decreasing order, integer point
numbers, one more segment than knots. -/
theorem check_iff (t_start t_end : ℝ) (knots : List ℝ) (points : List PointEntry) :
    (∃ r, checkStructure t_start t_end knots points = .ok r) ↔
      (∀ k ∈ knots, t_start < k ∧ k < t_end) ∧ knots.Pairwise (· ≤ ·) ∧ (∀ p ∈ points, p.den = 1) ∧
      points.length = knots.length + 1 := by
  unfold checkStructure
  simp only [pairs_le_iff, isInteger, beq_iff_eq]
  constructor
  · rintro ⟨r, h⟩
    split_ifs at h with h1 h2 h3 h4 h5
    exact ⟨fun k hk => ⟨h1 k hk, h2 k hk⟩, h3, h4, h5⟩
  · rintro ⟨h1, h3, h4, h5⟩
    rw [if_pos (fun k hk => (h1 k hk).1), if_pos (fun k hk => (h1 k hk).2), if_pos h3, if_pos h4, if_pos h5]
    exact ⟨_, rfl⟩

theorem check_ok {t_start t_end : ℝ} {knots : List ℝ} {points : List PointEntry} {k : List ℝ} {p : List ℤ}
    (h : checkStructure t_start t_end knots points = .ok (k, p)) : k = knots ∧ p = points.map (·.num) := by
  unfold checkStructure at h
  dsimp only at h
  split_ifs at h
  simp only [Except.ok.injEq, Prod.mk.injEq] at h; exact ⟨h.1.symm, h.2.symm⟩

/-- A rejected structure raises `AssertionError`, nothing else. -/
theorem check_error (t_start t_end : ℝ) (knots : List ℝ) (points : List PointEntry) (e : Err)
    (h : checkStructure t_start t_end knots points = .error e) : e = .assertion := by
  unfold checkStructure at h
  dsimp only at h
  split_ifs at h <;> exact (Except.error.inj h).symm

theorem hArr_cons (a b : ℝ) (t : List ℝ) : hArr (a :: b :: t) = (b - a) :: hArr (b :: t) := by
  simp [hArr]

/-- C33, local times: the times since the knot are the collocation times minus the knot where their segment starts. -/
theorem C33_since_knot (coll : ℕ → List ℝ) (points : List ℕ) (ext : List ℝ) :
    tCollSinceKnot coll points (hArr ext) =
      List.zipWith (fun seg a => seg.map fun t => t - a) (tColl coll points ext) ext := by
  induction points generalizing ext with
  | nil => simp [tCollSinceKnot, tColl]
  | cons p ps ih =>
    rcases ext with _ | ⟨a, _ | ⟨b, ts⟩⟩
    · simp [tCollSinceKnot, tColl, hArr]
    · simp [tCollSinceKnot, tColl, hArr]
    · have := ih (b :: ts)
      rw [hArr_cons, tColl, List.zipWith_cons_cons, ← this]
      simp only [tCollSinceKnot, List.zipWith_cons_cons, List.map_map]
      congr 1
      apply List.map_congr_left
      intro τ _
      simp only [Function.comp, TimeScale.tauToT]
      ring

theorem hArr_length (ext : List ℝ) : (hArr ext).length = ext.length - 1 := by
  simp [hArr]

theorem hArr_sum (a : ℝ) (t : List ℝ) : (hArr (a :: t)).sum = (a :: t).getLast (by simp) - a := by
  induction t generalizing a with
  | nil => simp [hArr]
  | cons b t ih => rw [hArr_cons, List.sum_cons, ih]; simp

theorem hArr_mem (ext : List ℝ) (R : ℝ → ℝ → Prop) (hR : ext.Pairwise R) {P : ℝ → Prop}
    (hP : ∀ a b, R a b → P (b - a)) : ∀ h ∈ hArr ext, P h := by
  induction ext with
  | nil => simp [hArr]
  | cons a t ih =>
    cases t with
    | nil => simp [hArr]
    | cons b t =>
      rw [hArr_cons]
      intro h hh
      rcases List.mem_cons.mp hh with rfl | hh
      · exact hP a b ((List.pairwise_cons.mp hR).1 b (by simp))
      · exact ih (List.pairwise_cons.mp hR).2 h hh

/-- C34, the part that holds: accepted structures have one duration per segment, none negative, the first
and the last strictly positive when there is a knot, and they add up to the horizon.
Missing: strict positivity of the inner ones, which is false (`C34_refuted`). -/
theorem C34_lengths_partial (t_start t_end : ℝ) (knots : List ℝ) (points : List PointEntry)
    (hh : t_start < t_end) (k : List ℝ) (p : List ℤ)
    (h : checkStructure t_start t_end knots points = .ok (k, p)) :
    (hArr (knotsExt t_start t_end k)).length = p.length ∧
    (∀ x ∈ hArr (knotsExt t_start t_end k), 0 ≤ x) ∧
    (hArr (knotsExt t_start t_end k)).sum = t_end - t_start ∧
    (k.Nodup → ∀ x ∈ hArr (knotsExt t_start t_end k), 0 < x) := by
  obtain ⟨rfl, rfl⟩ := check_ok h
  obtain ⟨h1, h2, h3, h4⟩ := (check_iff _ _ _ _).mp ⟨_, h⟩
  have hext : (knotsExt t_start t_end k).Pairwise (· ≤ ·) := by
    simp only [knotsExt, List.pairwise_cons, List.mem_append, List.mem_singleton, List.pairwise_append]
    refine ⟨?_, h2, ?_⟩
    · rintro x (hx | rfl)
      · exact (h1 x hx).1.le
      · exact hh.le
    · refine ⟨by simp, ?_⟩
      rintro x hx y rfl; exact (h1 x hx).2.le
  refine ⟨?_, hArr_mem _ _ hext (fun a b hab => sub_nonneg.mpr hab), ?_, ?_⟩
  · simp [hArr_length, knotsExt, h4]
  · simp [knotsExt, hArr_sum]
  · intro hnd
    have hext' : (knotsExt t_start t_end k).Pairwise (· < ·) := by
      have hk' : k.Pairwise (· < ·) := (h2.and hnd).imp (fun h => lt_of_le_of_ne h.1 h.2)
      simp only [knotsExt, List.pairwise_cons, List.mem_append, List.mem_singleton, List.pairwise_append]
      refine ⟨?_, hk', ?_⟩
      · rintro x (hx | rfl)
        · exact (h1 x hx).1
        · exact hh
      · refine ⟨by simp, ?_⟩
        rintro x hx y rfl; exact (h1 x hx).2
    exact hArr_mem _ _ hext' (fun a b hab => sub_pos.mpr hab)

/-- C34 is false: a repeated knot is accepted and gives a segment of zero duration. -/
theorem C34_refuted : ∃ k p, checkStructure 0 2 [1, 1] [3, 3, 3] = .ok (k, p) ∧
    (0 : ℝ) ∈ hArr (knotsExt 0 2 k) := by
  have : ∃ r, checkStructure 0 2 [1, 1] [3, 3, 3] = .ok r := by
    rw [check_iff]; norm_num
  obtain ⟨⟨k, p⟩, h⟩ := this
  refine ⟨k, p, h, ?_⟩
  have hk : k = [1, 1] := (check_ok h).1
  subst hk
  simp [hArr, knotsExt]

/-- Non-vacuity of the partial theorem. -/
example : ∃ r, checkStructure 0 3 [1, 2] [3, 4, 5] = .ok r := by
  rw [check_iff]; norm_num

/-! ## C69 -/

/-- C69 is false: segments with no collocation points, or a negative number, are accepted. -/
theorem C69_refuted : ∃ k p, checkStructure 0 2 [1] [0, -4] = .ok (k, p) ∧ ∀ q ∈ p, q ≤ 0 := by
  have : ∃ r, checkStructure 0 2 [1] [0, -4] = .ok r := by
    rw [check_iff]; norm_num
  obtain ⟨⟨k, p⟩, h⟩ := this
  refine ⟨k, p, h, ?_⟩
  have hp : p = [0, -4] := by
    rw [(check_ok h).2]; simp
  subst hp
  simp

/-- C69, the part that holds: the returned structure is the given one, all integers, one entry per
segment. Missing: positivity. -/
theorem C69_integers_partial (t_start t_end : ℝ) (knots : List ℝ) (points : List PointEntry)
    (k : List ℝ) (p : List ℤ) (h : checkStructure t_start t_end knots points = .ok (k, p)) :
    k = knots ∧ p.map (fun n : ℤ => (n : ℚ)) = points ∧ p.length = knots.length + 1 := by
  obtain ⟨h1, h2, h3, h4⟩ := (check_iff _ _ _ _).mp ⟨_, h⟩
  obtain ⟨rfl, rfl⟩ := check_ok h
  refine ⟨rfl, ?_, by simpa using h4⟩
  rw [List.map_map]
  conv_rhs => rw [← List.map_id points]
  apply List.map_congr_left
  intro q hq
  simp only [Function.comp, id]
  exact (Rat.den_eq_one_iff q).mp (h3 q hq)

/-! ## C35 -/

theorem quadInt_positional (w : Weights) (scheme mode : String) (p : ℕ) (squared : Bool) (hm : mode ≠ "") :
    quadIntCas w [.str scheme, .int p, .bool squared, .str mode] [] =
      .ok (p, fun u => ∑ i ∈ range p, w p scheme (if squared then 1 else 0) "u" i * u i ^ 2) := by
  simp [quadIntCas, quadIntSig, pyBind, findKw, kwOrDefault, eraseKw, quadIntBody, PyObj.asInt, PyObj.truthy, hm]

theorem quadInt_keyword (w : Weights) (scheme : String) (p : ℕ) :
    quadIntCas w [.str scheme, .int p] [("squared", .bool true)] =
      .ok (p, fun u => ∑ i ∈ range p, w p scheme 2 "u" i * u i ^ 2) := by
  simp [quadIntCas, quadIntSig, pyBind, findKw, kwOrDefault, eraseKw, quadIntBody, PyObj.asInt, PyObj.truthy]

/-- Specification: the sum over the segments of duration times the weighted sum of the squares of the
segment's own rows (rows `off, off+1, ...` in order). -/
noncomputable def segmentSquares {m : ℕ} (w : ℕ → ℕ → ℝ) (arr : ℕ → Fin m → ℝ) :
    ℕ → List ℕ → List ℝ → ℝ
  | off, p :: ps, h :: hs =>
    h * (∑ j, ∑ i ∈ range p, w p i * arr (off + i) j ^ 2) + segmentSquares w arr (off + p) ps hs
  | _, _, _ => 0

/-- What `quad_cost` computes on an array with one row per collocation point: whatever `squared` is, the
weighted sum of the *squares*, with the weights of differential order 0 or 1. -/
theorem quadCost_u {m : ℕ} (w : Weights) (scheme : String) (points : List ℕ) (h : List ℝ)
    (arr : ℕ → Fin m → ℝ) (squared : Bool) :
    quadCost w scheme points h points.sum arr squared =
      .ok (segmentSquares (fun p i => w p scheme (if squared then 1 else 0) "u" i) arr 0 points h) := by
  have key : ∀ off, quadCostLoop w scheme "u" squared arr off points h =
      .ok (segmentSquares (fun p i => w p scheme (if squared then 1 else 0) "u" i) arr off points h) := by
    induction points generalizing h with
    | nil => intro off; simp [quadCostLoop, segmentSquares]
    | cons p ps ih =>
      intro off
      cases h with
      | nil => simp [quadCostLoop, segmentSquares]
      | cons h hs =>
        simp only [quadCostLoop, quadInt_positional w scheme "u" p squared (by decide), segmentSquares]
        simp [Bind.bind, Except.bind, applyCost, ih hs (off + p)]
  simp [quadCost, key]

/-- C35, the part that holds: asked for the square of an array with one row per collocation point, the
cost is the weighted sum of squares of each segment's rows; when the weights do not depend on the
differential order (every scheme but the Jacobi ones) they are the scheme's own weights.
Missing: the unsquared integral and arrays with the rows of `x`, both false. -/
theorem C35_squared_partial {m : ℕ} (w : Weights) (scheme : String) (points : List ℕ) (h : List ℝ)
    (arr : ℕ → Fin m → ℝ) (order : ℤ) (hw : ∀ p o i, w p scheme o "u" i = w p scheme order "u" i) :
    quadCost w scheme points h points.sum arr true =
      .ok (segmentSquares (fun p i => w p scheme order "u" i) arr 0 points h) := by
  rw [quadCost_u]
  congr 2
  funext p i
  exact hw p _ i

/-- C35 is false: `squared=False` gives the integral of the square all the same. For every weights, every
structure and every array the two calls differ only in the order passed to the weights. -/
theorem C35_not_squared_refuted {m : ℕ} (w : Weights) (scheme : String) (points : List ℕ) (h : List ℝ)
    (arr : ℕ → Fin m → ℝ) (hw : ∀ p i, w p scheme 0 "u" i = w p scheme 1 "u" i) :
    quadCost w scheme points h points.sum arr false = quadCost w scheme points h points.sum arr true := by
  rw [quadCost_u, quadCost_u]
  congr 2
  funext p i
  simpa using hw p i

/-- So a constant integrand 3 over one segment of duration 1 and weights that add up to 2 costs
18 instead of 6. -/
theorem C35_value_refuted : quadCost (m := 1) (fun _ _ _ _ _ => 1) "LG" [2] [1] 2 (fun _ _ => 3) false
    = .ok 18 := by
  have := quadCost_u (m := 1) (fun _ _ _ _ _ => 1) "LG" [2] [1] (fun _ _ => 3) false
  rw [show [2].sum = 2 from rfl] at this
  rw [this]
  simp [segmentSquares]; norm_num

/-- C35 is false: an array with the rows of `x` always raises (first segment with at least one point). -/
theorem C35_state_array_refuted {m : ℕ} (w : Weights) (scheme : String) (p : ℕ) (ps : List ℕ) (h : ℝ)
    (hs : List ℝ) (arr : ℕ → Fin m → ℝ) (squared : Bool) :
    quadCost w scheme (p :: ps) (h :: hs) (nArr (p :: ps)) arr squared = .error .casadiShape := by
  have hne : nArr (p :: ps) ≠ (p :: ps).sum := by simp [nArr]; omega
  simp only [quadCost, hne, if_false, if_true, quadCostLoop,
    quadInt_positional w scheme "x" p squared (by decide)]
  have hr : 0 + p + 2 - 0 ≠ p := by omega
  simp [Bind.bind, Except.bind, applyCost]

/-- Any other number of rows raises `ValueError`. -/
theorem C35_shape_error {m : ℕ} (w : Weights) (scheme : String) (points : List ℕ) (h : List ℝ) (n : ℕ)
    (h1 : n ≠ points.sum) (h2 : n ≠ nArr points) (arr : ℕ → Fin m → ℝ) (squared : Bool) :
    quadCost w scheme points h n arr squared = .error .valueError := by
  simp [quadCost, h1, h2]

/-- C35 for the control cost: `u_sq_cost` is the weighted sum of the squares of the controls at each
segment's collocation rows, knot rows left out, with the weights of differential order 2. -/
theorem C35_u_sq_cost {m : ℕ} (w : Weights) (scheme : String) (points : List ℕ) (h : List ℝ)
    (u : ℕ → Fin m → ℝ) (rows : ℕ → ℕ)
    (hrows : ∀ i < points.sum, ((segRows 1 points).map (·.1)).flatten[i]? = some (rows i)) :
    uSqCost w scheme points h u =
      .ok (segmentSquares (fun p i => w p scheme 2 "u" i) (fun i => u (rows i)) 0 points h) := by
  have key : ∀ (points : List ℕ) (h : List ℝ) (start off : ℕ),
      (∀ i < points.sum, ((segRows start points).map (·.1)).flatten[i]? = some (rows (off + i))) →
      uSqCostLoop w scheme u (segRows start points) points h =
      .ok (segmentSquares (fun p i => w p scheme 2 "u" i) (fun i => u (rows i)) off points h) := by
    intro points
    induction points with
    | nil => intro h start off _; simp [segRows, uSqCostLoop, segmentSquares]
    | cons p ps ih =>
      intro h start off hr
      cases h with
      | nil => simp [segRows, uSqCostLoop, segmentSquares]
      | cons h hs =>
        have hrest := ih hs (start + p + 1) (off + p) (by
          intro i hi
          have := hr (p + i) (by simp [List.sum_cons]; omega)
          simp only [segRows, List.map_cons, List.flatten_cons] at this
          rw [List.getElem?_append_right (by simp)] at this
          simpa [Nat.add_assoc] using this)
        simp only [segRows, uSqCostLoop, quadInt_keyword, segmentSquares]
        simp only [Bind.bind, Except.bind, applyCost, List.length_range', Nat.add_sub_cancel_left, if_true,
          hrest]
        congr 2
        congr 1
        refine Finset.sum_congr rfl fun j _ => Finset.sum_congr rfl fun i hi => ?_
        have hi := mem_range.mp hi
        have := hr i (by simp [List.sum_cons]; omega)
        simp only [segRows, List.map_cons, List.flatten_cons] at this
        rw [List.getElem?_append_left (by simp [hi])] at this
        simp only [Nat.add_sub_cancel_left] at this
        simp [List.getD_eq_getElem?_getD, this]
  simpa [uSqCost] using key points h 1 0 (by simpa using hrows)

example : ∀ i < [2, 1].sum, ((segRows 1 [2, 1]).map (·.1)).flatten[i]? = some (if i < 2 then i + 1 else 4) := by
  decide

/-! ## C46 -/

theorem linspace_length (a b : ℝ) (n : ℕ) : (linspace a b n).length = n := by
  unfold linspace; split_ifs with h <;> simp [h]

theorem searchsorted_le (l : List ℝ) (v : ℝ) : searchsorted l v ≤ l.length := by
  unfold searchsorted; exact List.length_filter_le _ _

theorem searchsorted_mono (l : List ℝ) {v w : ℝ} (h : v ≤ w) : searchsorted l v ≤ searchsorted l w := by
  unfold searchsorted
  apply List.Sublist.length_le
  apply List.monotone_filter_right
  intro x hx
  simp only [decide_eq_true_eq] at hx ⊢
  exact lt_of_lt_of_le hx h

/-- Sum of (length - 1) over the middle segments. -/
theorem midLens_sum (l : List ℤ) (a : ℤ) :
    ((midLens (a :: l)).map (fun x => x - 1)).sum = (a :: l).getLastD 0 - a := by
  induction l generalizing a with
  | nil => simp [midLens]
  | cons b l ih => simp only [midLens, List.map_cons, List.sum_cons, ih b]; simp

theorem midLens_pos (l : List ℤ) (h : l.Pairwise (· ≤ ·)) : ∀ x ∈ midLens l, 1 ≤ x := by
  induction l with
  | nil => simp [midLens]
  | cons a l ih =>
    cases l with
    | nil => simp [midLens]
    | cons b l =>
      intro x hx
      rw [midLens] at hx
      rcases List.mem_cons.mp hx with rfl | hx
      · have := (List.pairwise_cons.mp h).1 b (by simp); omega
      · exact ih (List.pairwise_cons.mp h).2 x hx

theorem midLens_length (l : List ℤ) (a : ℤ) : (midLens (a :: l)).length = l.length := by
  induction l generalizing a with
  | nil => simp [midLens]
  | cons b l ih => simp [midLens, ih b]

theorem join_length {A : Type} (ss : List (List A)) (hne : ss ≠ []) (hpos : ∀ s ∈ ss.dropLast, s ≠ []) :
    ((joinSegments ss).length : ℤ) = (ss.map fun s => (s.length : ℤ) - 1).sum + 1 := by
  induction ss with
  | nil => exact absurd rfl hne
  | cons s ss ih =>
    cases ss with
    | nil => simp [joinSegments]
    | cons s' ss =>
      have hs : s ≠ [] := hpos s (by simp)
      have hs' : 1 ≤ s.length := List.length_pos_iff.mpr hs
      rw [joinSegments, List.length_append, List.length_dropLast]
      · push_cast [ih (by simp) (fun x hx => hpos x (by
          rw [List.dropLast_cons_of_ne_nil (by simp)]; exact List.mem_cons_of_mem _ hx))]
        simp only [List.map_cons, List.sum_cons]
        omega
      · simp

theorem segTimes_map_length (ls : List ℤ) (ts : List ℝ) (hl : ts.length = ls.length + 1) :
    (segTimes ls ts).map List.length = ls.map Int.toNat := by
  induction ls generalizing ts with
  | nil => match ts, hl with | [a], _ => simp [segTimes]
  | cons l ls ih =>
    match ts, hl with
    | a :: b :: ts, hl =>
      simp only [segTimes, List.map_cons, linspace_length]
      rw [ih (b :: ts) (by simpa using hl)]
    | [a], hl => simp at hl

theorem linspace_last_lt {t0 tf k : ℝ} {n : ℕ} (hn : 2 ≤ n) (hk : k < tf) : searchsorted (linspace t0 tf n) k < n := by
  have hmem : tf ∈ linspace t0 tf n := by
    unfold linspace
    rw [if_neg (by omega)]
    refine List.mem_map.mpr ⟨n - 1, by simp; omega, ?_⟩
    have : ((n - 1 : ℕ) : ℝ) = (n : ℝ) - 1 := by push_cast [Nat.cast_sub (by omega : 1 ≤ n)]; ring
    rw [this]
    have hne : (n : ℝ) - 1 ≠ 0 := by
      have : (2 : ℝ) ≤ n := by exact_mod_cast hn
      intro h; linarith
    field_simp; ring
  unfold searchsorted
  calc _ < (linspace t0 tf n).length := by
        apply List.length_filter_lt_length_iff_exists.mpr
        exact ⟨tf, hmem, by simpa using hk.le⟩
    _ = n := linspace_length _ _ _

theorem linspace_first_lt {t0 tf k : ℝ} {n : ℕ} (hn : 2 ≤ n) (hk : t0 < k) : 1 ≤ searchsorted (linspace t0 tf n) k := by
  have hmem : t0 ∈ linspace t0 tf n := by
    unfold linspace
    rw [if_neg (by omega)]
    exact List.mem_map.mpr ⟨0, by simp; omega, by simp⟩
  unfold searchsorted
  apply List.length_pos_of_mem (a := t0)
  simp [hmem, hk]

/-- Facts on the segment lengths. -/
theorem inLens_facts {t0 tf : ℝ} {n : ℕ} (hn : 2 ≤ n) {knots : List ℝ}
    (hin : ∀ k ∈ knots, t0 < k ∧ k < tf) (hs : knots.Pairwise (· ≤ ·)) :
    (inLens t0 tf n knots).length = knots.length + 1 ∧ (∀ l ∈ inLens t0 tf n knots, 1 ≤ l) ∧
    (∀ l, (inLens t0 tf n knots).head? = some l → 2 ≤ l) ∧
    ((inLens t0 tf n knots).map (fun l : ℤ => l - 1)).sum + 1 = (n : ℤ) := by
  cases knots with
  | nil => simp [inLens]; omega
  | cons k ks =>
    obtain ⟨f, hf⟩ : ∃ f : ℝ → ℤ, f = fun k => (searchsorted (linspace t0 tf n) k : ℤ) := ⟨_, rfl⟩
    have e : inLens t0 tf n (k :: ks) = (f k + 1) :: (midLens (f k :: ks.map f) ++ [(n : ℤ) - (f k :: ks.map f).getLastD 0]) := by
      subst hf; rfl
    rw [e]
    have hmono : (f k :: ks.map f).Pairwise (· ≤ ·) := by
      have : ((k :: ks).map f).Pairwise (· ≤ ·) := by
        rw [List.pairwise_map]
        exact hs.imp fun h => by simp only [hf]; exact_mod_cast searchsorted_mono _ h
      simpa using this
    have hlt : (f k :: ks.map f).getLastD 0 < n := by
      rw [List.getLastD_eq_getLast?, List.getLast?_eq_some_getLast (by simp)]
      simp only [Option.getD_some]
      have hm := List.getLast_mem (l := f k :: ks.map f) (by simp)
      have hm' : (f k :: ks.map f).getLast (by simp) ∈ (k :: ks).map f := by simpa using hm
      obtain ⟨x, hx, hfx⟩ := List.mem_map.mp hm'
      rw [← hfx]
      simp only [hf]
      exact_mod_cast linspace_last_lt hn (hin x hx).2
    have h1 : 1 ≤ f k := by
      simp only [hf]; exact_mod_cast linspace_first_lt hn (hin k (by simp)).1
    refine ⟨?_, ?_, ?_, ?_⟩
    · simp [midLens_length]
    · intro l hl
      rcases List.mem_cons.mp hl with rfl | hl
      · omega
      · rcases List.mem_append.mp hl with hl | hl
        · exact midLens_pos _ hmono l hl
        · simp only [List.mem_singleton] at hl; subst hl; omega
    · intro l hl; simp only [List.head?_cons, Option.some.injEq] at hl; omega
    · simp only [List.map_append, List.map_cons, List.sum_cons, List.sum_append, midLens_sum, List.map_nil,
        List.sum_nil]
      ring

/-- C46, count: for every segmented problem (knots inside the horizon in order, as the structure check
accepts) and every requested number of samples, at least two, every segment gets at least one sample
and exactly the requested number is returned. -/
theorem C46_count {t0 tf : ℝ} {n : ℕ} (hn : 2 ≤ n) {knots : List ℝ}
    (hin : ∀ k ∈ knots, t0 < k ∧ k < tf) (hs : knots.Pairwise (· ≤ ·)) :
    (interpTimes t0 tf n knots).length = n ∧
    (segTimes (inLens t0 tf n knots) (knotsExt t0 tf knots)).length = knots.length + 1 ∧
    (∀ s ∈ segTimes (inLens t0 tf n knots) (knotsExt t0 tf knots), s ≠ []) := by
  obtain ⟨hl, hpos, -, hsum⟩ := inLens_facts hn hin hs
  have hmap := segTimes_map_length (inLens t0 tf n knots) (knotsExt t0 tf knots) (by simp [knotsExt, hl])
  have hlen : (segTimes (inLens t0 tf n knots) (knotsExt t0 tf knots)).length = knots.length + 1 := by
    have := congrArg List.length hmap
    simpa [hl] using this
  have hne : ∀ s ∈ segTimes (inLens t0 tf n knots) (knotsExt t0 tf knots), s ≠ [] := by
    intro s hs' he
    have : s.length ∈ (inLens t0 tf n knots).map Int.toNat := by
      rw [← hmap]; exact List.mem_map_of_mem hs'
    obtain ⟨l, hl', hle⟩ := List.mem_map.mp this
    have := hpos l hl'
    rw [he] at hle; simp at hle; omega
  refine ⟨?_, hlen, hne⟩
  have hj := join_length (segTimes (inLens t0 tf n knots) (knotsExt t0 tf knots))
    (by intro h; rw [h] at hlen; simp at hlen) (fun s hs' => hne s (List.dropLast_subset _ hs'))
  have e : (segTimes (inLens t0 tf n knots) (knotsExt t0 tf knots)).map (fun s => (s.length : ℤ) - 1)
      = (inLens t0 tf n knots).map (fun l => l - 1) := by
    have : (segTimes (inLens t0 tf n knots) (knotsExt t0 tf knots)).map (fun s => (s.length : ℤ) - 1)
      = ((segTimes (inLens t0 tf n knots) (knotsExt t0 tf knots)).map List.length).map (fun l : ℕ => (l : ℤ) - 1) := by
      simp [List.map_map, Function.comp_def]
    rw [this, hmap, List.map_map]
    apply List.map_congr_left
    intro l hl'
    have := hpos l hl'
    simp only [Function.comp]; omega
  rw [e, hsum] at hj
  unfold interpTimes
  exact_mod_cast hj

theorem linspace_props {a b : ℝ} (hab : a < b) (n : ℕ) :
    (linspace a b n).Pairwise (· < ·) ∧ (∀ x ∈ linspace a b n, a ≤ x ∧ x ≤ b) ∧
    (∀ x ∈ (linspace a b n).dropLast, x < b) ∧ (1 ≤ n → (linspace a b n).head? = some a) := by
  by_cases h1 : n = 1
  · subst h1; simp [linspace, hab.le]
  · by_cases h0 : n = 0
    · subst h0; simp [linspace]
    have hn : (0 : ℝ) < (n : ℝ) - 1 := by
      have : (2 : ℝ) ≤ n := by exact_mod_cast (by omega : 2 ≤ n)
      linarith
    have hd : 0 < (b - a) / ((n : ℝ) - 1) := div_pos (sub_pos.mpr hab) hn
    unfold linspace
    rw [if_neg h1]
    refine ⟨?_, ?_, ?_, ?_⟩
    · rw [List.pairwise_map]
      refine List.pairwise_lt_range.imp ?_
      intro i j hij
      have : (i : ℝ) < j := by exact_mod_cast hij
      have := mul_lt_mul_of_pos_right this hd
      linarith
    · intro x hx
      obtain ⟨i, hi, rfl⟩ := List.mem_map.mp hx
      have hi' : (i : ℝ) ≤ (n : ℝ) - 1 := by
        have := List.mem_range.mp hi
        have : ((i + 1 : ℕ) : ℝ) ≤ n := by exact_mod_cast this
        push_cast at this; linarith
      have hb : ((n : ℝ) - 1) * ((b - a) / ((n : ℝ) - 1)) = b - a := by field_simp
      constructor
      · have : 0 ≤ (i : ℝ) * ((b - a) / ((n : ℝ) - 1)) := by positivity
        linarith
      · have := mul_le_mul_of_nonneg_right hi' hd.le
        linarith
    · intro x hx
      rw [← List.map_dropLast] at hx
      obtain ⟨i, hi, rfl⟩ := List.mem_map.mp hx
      obtain ⟨m, rfl⟩ : ∃ m, n = m + 1 := ⟨n - 1, by omega⟩
      rw [List.range_succ, List.dropLast_concat, List.mem_range] at hi
      have hi' : (i : ℝ) < ((m + 1 : ℕ) : ℝ) - 1 := by
        push_cast; have : (i : ℝ) < m := by exact_mod_cast hi
        linarith
      have hb : (((m + 1 : ℕ) : ℝ) - 1) * ((b - a) / (((m + 1 : ℕ) : ℝ) - 1)) = b - a := by field_simp
      have := mul_lt_mul_of_pos_right hi' hd
      linarith
    · intro _
      obtain ⟨m, rfl⟩ : ∃ m, n = m + 1 := ⟨n - 1, by omega⟩
      rw [List.range_succ_eq_map]
      simp

theorem join_sorted (ls : List ℤ) (a : ℝ) (ts : List ℝ) (hl : ts.length = ls.length) (hpos : ∀ l ∈ ls, 1 ≤ l)
    (hs : (a :: ts).Pairwise (· < ·)) :
    (joinSegments (segTimes ls (a :: ts))).Pairwise (· < ·) ∧
    (∀ x ∈ joinSegments (segTimes ls (a :: ts)), a ≤ x ∧ x ≤ (a :: ts).getLast (by simp)) := by
  induction ls generalizing a ts with
  | nil => simp [segTimes, joinSegments]
  | cons l ls ih =>
    match ts, hl with
    | b :: ts, hl =>
      have hab : a < b := (List.pairwise_cons.mp hs).1 b (by simp)
      have hp := linspace_props hab l.toNat
      have hb := ih b ts (by simpa using hl) (fun l hl => hpos l (by simp [hl])) (List.pairwise_cons.mp hs).2
      have hlast : b ≤ (b :: ts).getLast (by simp) := by
        rcases List.mem_cons.mp (List.getLast_mem (l := b :: ts) (by simp)) with h | h
        · rw [h]
        · exact ((List.pairwise_cons.mp (List.pairwise_cons.mp hs).2).1 _ h).le
      rw [List.getLast_cons (by simp : b :: ts ≠ [])]
      cases hseg : segTimes ls (b :: ts) with
      | nil =>
        rw [segTimes, hseg, joinSegments]
        exact ⟨hp.1, fun x hx => ⟨(hp.2.1 x hx).1, (hp.2.1 x hx).2.trans hlast⟩⟩
      | cons s ss =>
        rw [segTimes, hseg, joinSegments, ← hseg]
        · refine ⟨?_, ?_⟩
          · rw [List.pairwise_append]
            refine ⟨hp.1.sublist (List.dropLast_sublist _), hb.1, ?_⟩
            intro x hx y hy
            exact (hp.2.2.1 x hx).trans_le (hb.2 y hy).1
          · intro x hx
            rcases List.mem_append.mp hx with hx | hx
            · have := hp.2.1 x (List.dropLast_subset _ hx)
              exact ⟨this.1, this.2.trans hlast⟩
            · exact ⟨hab.le.trans (hb.2 x hx).1, (hb.2 x hx).2⟩
        · simp

/-- C46, order: with strictly increasing knots the returned times are strictly increasing, stay inside the
horizon and start at its start. -/
theorem C46_order {t0 tf : ℝ} (h : t0 < tf) {n : ℕ} (hn : 2 ≤ n) {knots : List ℝ}
    (hin : ∀ k ∈ knots, t0 < k ∧ k < tf) (hs : knots.Pairwise (· < ·)) :
    (interpTimes t0 tf n knots).Pairwise (· < ·) ∧ (∀ t ∈ interpTimes t0 tf n knots, t0 ≤ t ∧ t ≤ tf) ∧
    (interpTimes t0 tf n knots).head? = some t0 := by
  obtain ⟨hl, hpos, hfirst, -⟩ := inLens_facts hn hin (hs.imp le_of_lt)
  have hext : (knotsExt t0 tf knots).Pairwise (· < ·) := by
    simp only [knotsExt, List.pairwise_cons, List.mem_append, List.mem_singleton, List.pairwise_append]
    refine ⟨?_, hs, ⟨by simp, by simp⟩, ?_⟩
    · rintro x (hx | rfl)
      · exact (hin x hx).1
      · exact h
    · rintro x hx y rfl; exact (hin x hx).2
  have := join_sorted (inLens t0 tf n knots) t0 (knots ++ [tf]) (by simp [hl]) hpos hext
  refine ⟨this.1, ?_, ?_⟩
  · intro t ht
    have := this.2 t ht
    simpa using this
  · unfold interpTimes knotsExt
    cases hL : inLens t0 tf n knots with
    | nil => rw [hL] at hl; simp at hl
    | cons l ls =>
      have h2 : 2 ≤ l := hfirst l (by rw [hL]; rfl)
      obtain ⟨b, ts, hbt⟩ : ∃ b ts, knots ++ [tf] = b :: ts := by
        cases knots with
        | nil => exact ⟨tf, [], rfl⟩
        | cons k ks => exact ⟨k, ks ++ [tf], rfl⟩
      rw [knotsExt, hbt] at hext
      rw [hbt]
      have hab : t0 < b := (List.pairwise_cons.mp hext).1 b (by simp)
      have hh := (linspace_props hab l.toNat).2.2.2 (by omega)
      rw [segTimes]
      cases segTimes ls (b :: ts) with
      | nil => simpa [joinSegments] using hh
      | cons s ss =>
        rw [joinSegments]
        · have hlen : 2 ≤ (linspace t0 b l.toNat).length := by rw [linspace_length]; omega
          match hq : linspace t0 b l.toNat, hlen with
          | x :: y :: r, _ =>
            rw [hq] at hh
            simpa using hh
        · simp

/-- C46 is false as to the times: the returned times are not the requested `linspace(t0, tf, n)` (every
segment is sampled afresh between its own ends), and the end of the horizon can be missing: with a
knot beyond the last but one sample the last returned time is that knot. -/
theorem C46_times_refuted : interpTimes 0 1 2 [1 / 2] = [0, 1 / 2] ∧ linspace (0 : ℝ) 1 2 = [0, 1] := by
  have hl : linspace (0 : ℝ) 1 2 = [0, 1] := by
    norm_num [linspace, List.range_succ]
  refine ⟨?_, hl⟩
  have hj : searchsorted (linspace (0 : ℝ) 1 2) (1 / 2) = 1 := by
    rw [hl]; unfold searchsorted; norm_num [List.filter]
  unfold interpTimes
  have hin : inLens 0 1 2 [1 / 2] = [2, 1] := by
    simp only [inLens, List.map_cons, List.map_nil, hj]; norm_num [midLens]
  rw [hin]
  have e2 : Int.toNat 2 = 2 := rfl
  have e1 : Int.toNat 1 = 1 := rfl
  norm_num [knotsExt, segTimes, linspace, joinSegments, List.range_succ, e2, e1]

/-- Non-vacuity. -/
example : (∀ k ∈ [(1 : ℝ), 3 / 2], 0 < k ∧ k < 2) ∧ [(1 : ℝ), 3 / 2].Pairwise (· < ·) := by norm_num

end Chords.Ph
