import Verif.Model.Adaptive
import Verif.Props.TimeScale
import Mathlib.Data.List.Sort
import Mathlib.Algebra.BigOperators.Group.List.Basic
import Mathlib.Algebra.Order.BigOperators.Group.List
import Mathlib.Algebra.Order.Field.Rat
import Mathlib.Tactic.Positivity
import Mathlib.Tactic.NormNum

/-! # C42-C45: mesh refinement (adaptive.py) -/

namespace Chords.Adaptive

/-! ## Helpers -/

theorem linspaceTail_length (a b : ℝ) (n : ℕ) : (linspaceTail a b n).length = n := by
  simp [linspaceTail]

theorem linspaceTail_mem {a b : ℝ} (hab : a < b) {n : ℕ} {x : ℝ} (h : x ∈ linspaceTail a b n) :
    a < x ∧ x ≤ b := by
  simp only [linspaceTail, List.mem_map, List.mem_range] at h
  obtain ⟨i, hi, rfl⟩ := h
  have hn : (0 : ℝ) < n := by exact_mod_cast (by omega : 0 < n)
  have hd : 0 < b - a := sub_pos.mpr hab
  have h1 : (((i + 1 : ℕ) : ℝ)) ≤ n := by exact_mod_cast hi
  have h0 : (0 : ℝ) < ((i + 1 : ℕ) : ℝ) := by positivity
  constructor
  · have : 0 < (b - a) * ((i + 1 : ℕ) : ℝ) / n := by positivity
    linarith
  · have : (b - a) * ((i + 1 : ℕ) : ℝ) / n ≤ b - a := by
      rw [div_le_iff₀ hn]
      exact mul_le_mul_of_nonneg_left h1 hd.le
    linarith

theorem linspaceTail_sorted {a b : ℝ} (hab : a < b) (n : ℕ) :
    (linspaceTail a b n).Pairwise (· < ·) := by
  unfold linspaceTail
  rw [List.pairwise_map]
  refine List.Pairwise.imp_of_mem ?_ List.pairwise_lt_range
  intro i j hi hj hij
  simp only [List.mem_range] at hi hj
  have hn : (0 : ℝ) < n := by exact_mod_cast (by omega : 0 < n)
  have hd : 0 < b - a := sub_pos.mpr hab
  have h1 : (((i + 1 : ℕ) : ℝ)) < ((j + 1 : ℕ) : ℝ) := by exact_mod_cast (by omega)
  have := div_lt_div_of_pos_right (mul_lt_mul_of_pos_left h1 hd) hn
  linarith

theorem linspaceTail_last (a b : ℝ) {n : ℕ} (hn : 0 < n) :
    (linspaceTail a b n).getLast? = some b := by
  obtain ⟨m, rfl⟩ : ∃ m, n = m + 1 := ⟨n - 1, by omega⟩
  unfold linspaceTail
  rw [List.range_succ, List.map_append, List.map_singleton, List.getLast?_append]
  have hn' : (((m + 1 : ℕ) : ℝ)) ≠ 0 := by positivity
  simp only [List.getLast?_singleton, Option.some_or, Option.some.injEq]
  field_simp
  ring

/-- What one old segment becomes: positive number of new segments, ending at the old end, strictly
increasing after the old start, at least the requested number of points, each within limits. -/
structure BlockOk (min_p max_p n : ℤ) (t0 t1 : ℝ) (k : List ℝ) (p : List ℤ) : Prop where
  same_len : p.length = k.length
  last : k.getLast? = some t1
  sorted : k.Pairwise (· < ·)
  inside : ∀ x ∈ k, t0 < x ∧ x ≤ t1
  enough : n ≤ p.sum
  cap : min_p ≤ max_p → ∀ q ∈ p, q ≤ max_p
  floor : min_p ≤ n → ∀ q ∈ p, min_p ≤ q

theorem newSegment_ok {min_p max_p n : ℤ} (hmax : 0 < max_p) {t0 t1 : ℝ} (ht : t0 < t1) :
    ∃ k p, newSegment min_p max_p n t0 t1 = .ok (k, p) ∧ BlockOk min_p max_p n t0 t1 k p := by
  unfold newSegment
  by_cases h : n ≤ max_p
  · refine ⟨[t1], [n], by simp [h], by simp, by simp, by simp, ?_, by simp, ?_, ?_⟩
    · intro x hx; simp only [List.mem_singleton] at hx; subst hx; exact ⟨ht, le_refl _⟩
    · intro _ q hq; simp only [List.mem_singleton] at hq; subst hq; exact h
    · intro hm q hq; simp only [List.mem_singleton] at hq; subst hq; exact hm
  · have hn : max_p < n := by omega
    have hmq : (0 : ℚ) < max_p := by exact_mod_cast hmax
    have hnq : (0 : ℚ) < n := by exact_mod_cast (by omega : 0 < n)
    have hd1 : (1 : ℤ) < ⌈(n : ℚ) / max_p⌉ := by
      rw [Int.lt_ceil, lt_div_iff₀ hmq]
      push_cast
      rw [one_mul]
      exact_mod_cast hn
    set d := ⌈(n : ℚ) / max_p⌉ with hd
    have hdq : (0 : ℚ) < d := by exact_mod_cast (by omega : 0 < d)
    have hle : (n : ℚ) / max_p ≤ d := Int.le_ceil _
    have heach : ⌈(n : ℚ) / d⌉ ≤ max_p := by
      rw [Int.ceil_le, div_le_iff₀ hdq]
      rw [div_le_iff₀ hmq] at hle
      linarith
    have hdn : (d.toNat : ℤ) = d := Int.toNat_of_nonneg (by omega)
    refine ⟨linspaceTail t0 t1 d.toNat, List.replicate d.toNat (max ⌈(n : ℚ) / d⌉ min_p), ?_, ?_⟩
    · have h1 : ¬ (max_p = 0) := by omega
      have h2 : ¬ (d = 0) := by omega
      have h3 : ¬ (d + 1 < 0) := by omega
      simp [h, h1, h2, h3]
    · refine ⟨by simp [linspaceTail_length], linspaceTail_last _ _ (by omega),
        linspaceTail_sorted ht _, fun x hx => linspaceTail_mem ht hx, ?_, ?_, ?_⟩
      · rw [List.sum_replicate, nsmul_eq_mul]
        have e : ((d.toNat : ℕ) : ℤ) = d := hdn
        rw [e]
        have h1 : (n : ℚ) ≤ d * ⌈(n : ℚ) / d⌉ := by
          have := Int.le_ceil ((n : ℚ) / d)
          rw [div_le_iff₀ hdq] at this
          linarith
        have h2 : n ≤ d * ⌈(n : ℚ) / d⌉ := by exact_mod_cast h1
        have h3 : d * ⌈(n : ℚ) / d⌉ ≤ d * max ⌈(n : ℚ) / d⌉ min_p :=
          mul_le_mul_of_nonneg_left (le_max_left _ _) (by omega)
        omega
      · intro hm q hq
        rw [List.mem_replicate] at hq
        rw [hq.2]
        exact max_le heach hm
      · intro _ q hq
        rw [List.mem_replicate] at hq
        rw [hq.2]
        exact le_max_right _ _

/-- Blocks chained along the old knots. -/
inductive Blocks (min_p max_p : ℤ) : List ℤ → List ℝ → List (List ℝ × List ℤ) → Prop
  | nil (t : ℝ) : Blocks min_p max_p [] [t] []
  | cons {n : ℤ} {ns : List ℤ} {t0 t1 : ℝ} {ts : List ℝ} {k p bs} :
      BlockOk min_p max_p n t0 t1 k p → Blocks min_p max_p ns (t1 :: ts) bs →
      Blocks min_p max_p (n :: ns) (t0 :: t1 :: ts) ((k, p) :: bs)

theorem loop_ok {min_p max_p : ℤ} (hmax : 0 < max_p) (ns : List ℤ) (ts : List ℝ)
    (hl : ts.length = ns.length + 1) (hs : ts.Pairwise (· < ·)) :
    ∃ bs, newStructLoop min_p max_p ns ts
        = .ok ((bs.map (·.1)).flatten, (bs.map (·.2)).flatten) ∧ Blocks min_p max_p ns ts bs := by
  induction ns generalizing ts with
  | nil =>
    match ts, hl with
    | [t], _ => exact ⟨[], rfl, .nil t⟩
  | cons n ns ih =>
    match ts, hl with
    | t0 :: t1 :: ts, hl =>
      have ht : t0 < t1 := by
        rw [List.pairwise_cons] at hs
        exact hs.1 t1 (List.mem_cons_self ..)
      obtain ⟨k, p, h1, h2⟩ := newSegment_ok (min_p := min_p) (n := n) hmax ht
      obtain ⟨bs, h3, h4⟩ := ih (t1 :: ts) (by simpa using hl) (List.pairwise_cons.mp hs).2
      refine ⟨(k, p) :: bs, ?_, .cons h2 h4⟩
      simp only [newStructLoop, h1, h3]
      rfl

theorem blocks_facts {min_p max_p : ℤ} {ns : List ℤ} {ts : List ℝ} {bs}
    (h : Blocks min_p max_p ns ts bs) :
    bs.length = ns.length ∧ ts ≠ [] ∧
    ((bs.map (·.1)).flatten).length = ((bs.map (·.2)).flatten).length ∧
    (∀ t0 rest, ts = t0 :: rest → (t0 :: (bs.map (·.1)).flatten).Pairwise (· < ·) ∧
      (∀ x ∈ rest, x ∈ (bs.map (·.1)).flatten) ∧
      (t0 :: (bs.map (·.1)).flatten).getLast? = ts.getLast?) ∧
    (min_p ≤ max_p → ∀ q ∈ (bs.map (·.2)).flatten, q ≤ max_p) ∧
    ((∀ n ∈ ns, min_p ≤ n) → ∀ q ∈ (bs.map (·.2)).flatten, min_p ≤ q) := by
  induction h with
  | nil t =>
    refine ⟨rfl, by simp, rfl, ?_, by simp, by simp⟩
    rintro t0 rest e
    simp only [List.cons.injEq] at e
    obtain ⟨rfl, rfl⟩ := e
    simp
  | @cons n ns t0 t1 ts k p bs hb _ ih =>
    obtain ⟨i1, i2, i3, i4, i5, i6⟩ := ih
    obtain ⟨j1, j2, j3⟩ := i4 t1 ts rfl
    obtain ⟨k', hk'⟩ : ∃ k', k = k' ++ [t1] := by
      have := hb.last
      rw [List.getLast?_eq_some_iff] at this
      exact this
    refine ⟨by simp [i1], by simp, by simp [i3, hb.same_len], ?_, ?_, ?_⟩
    · intro t0' rest e
      simp only [List.cons.injEq] at e
      obtain ⟨rfl, rfl⟩ := e
      simp only [List.map_cons, List.flatten_cons]
      refine ⟨?_, ?_, ?_⟩
      · rw [List.pairwise_cons]
        have h1 := List.pairwise_cons.mp j1
        constructor
        · intro x hx
          rcases List.mem_append.mp hx with hx | hx
          · exact (hb.inside x hx).1
          · have := hb.inside t1 (by rw [hk']; simp)
            exact lt_trans this.1 (h1.1 x hx)
        · rw [List.pairwise_append]
          refine ⟨hb.sorted, h1.2, ?_⟩
          intro x hx y hy
          exact lt_of_le_of_lt (hb.inside x hx).2 (h1.1 y hy)
      · intro x hx
        rcases List.mem_cons.mp hx with rfl | hx
        · exact List.mem_append_left _ (by rw [hk']; simp)
        · exact List.mem_append_right _ (j2 x hx)
      · rw [List.getLast?_cons_cons, ← j3, hk']
        simp [List.getLast?_cons, List.getLast?_append]
    · intro hm q hq
      simp only [List.map_cons, List.flatten_cons, List.mem_append] at hq
      rcases hq with hq | hq
      · exact hb.cap hm q hq
      · exact i5 hm q hq
    · intro hm q hq
      simp only [List.map_cons, List.flatten_cons, List.mem_append] at hq
      rcases hq with hq | hq
      · exact hb.floor (hm n (List.mem_cons_self ..)) q hq
      · exact i6 (fun m hmm => hm m (List.mem_cons_of_mem _ hmm)) q hq

/-! ## C42 -/

/-- New points that fall in each old segment: the new segments grouped by old segment. `groups` has
one list of point numbers per old segment; each sums to at least what was requested. -/
def EnoughPerSegment (requested : List ℤ) (newPoints : List ℤ) : Prop :=
  ∃ groups : List (List ℤ), groups.flatten = newPoints ∧ List.Forall₂ (fun n g => n ≤ g.sum) requested groups

theorem blocks_enough {min_p max_p : ℤ} {ns : List ℤ} {ts : List ℝ} {bs}
    (h : Blocks min_p max_p ns ts bs) :
    List.Forall₂ (fun n (g : List ℤ) => n ≤ g.sum) ns (bs.map (·.2)) := by
  induction h with
  | nil t => exact .nil
  | cons hb _ ih => exact .cons hb.enough ih

/-- C42.  Given knots `t0 < t1 < ... < tf` (one more than segments), any increments and any positive
`max_p`, the call succeeds and returns interior knots `k` and point numbers `p` such that
`t0 :: k ++ [tf]` is strictly increasing, all old interior knots are kept, there is one more segment
than interior knots, no segment has more than `max_p` points when `min_p ≤ max_p`, and each old
segment gets at least the requested number of points. -/
theorem C42_new_struct (min_p max_p : ℤ) (hmax : 0 < max_p) (p_str add_p : List ℤ)
    (t0 tf : ℝ) (old : List ℝ)
    (hlen : add_p.length = p_str.length) (hseg : p_str.length = old.length + 1)
    (hsorted : (t0 :: (old ++ [tf])).Pairwise (· < ·)) :
    ∃ k p, calcNewStruct min_p max_p p_str add_p (t0 :: (old ++ [tf])) = .ok (k, p) ∧
      (t0 :: (k ++ [tf])).Pairwise (· < ·) ∧ (∀ x ∈ old, x ∈ k) ∧ p.length = k.length + 1 ∧
      (min_p ≤ max_p → ∀ q ∈ p, q ≤ max_p) ∧
      EnoughPerSegment (List.zipWith (· + ·) p_str add_p) p ∧
      ((∀ n ∈ List.zipWith (· + ·) p_str add_p, min_p ≤ n) → ∀ q ∈ p, min_p ≤ q) := by
  obtain ⟨bs, h1, h2⟩ := loop_ok (min_p := min_p) hmax (List.zipWith (· + ·) p_str add_p)
    (t0 :: (old ++ [tf])) (by simp [hlen, hseg]) hsorted
  obtain ⟨f1, f2, f3, f4, f5, f6⟩ := blocks_facts h2
  obtain ⟨g1, g2, g3⟩ := f4 t0 (old ++ [tf]) rfl
  have hg := blocks_enough h2
  generalize hK : (bs.map (·.1)).flatten = K at *
  generalize hP : (bs.map (·.2)).flatten = P at *
  have hKne : K ≠ [] := by
    intro e
    have : tf ∈ K := g2 tf (by simp)
    rw [e] at this
    simp at this
  have hKl : K.getLast hKne = tf := by
    have : (t0 :: K).getLast? = some tf := by
      rw [g3]; simp [List.getLast?_cons]
    rw [List.getLast?_cons, Option.some.injEq, List.getLast?_eq_some_getLast hKne] at this
    simpa using this
  have hsplit : K.dropLast ++ [tf] = K := by
    rw [← hKl]; exact List.dropLast_append_getLast hKne
  refine ⟨K.dropLast, P, ?_, ?_, ?_, ?_, f5, ⟨_, hP, hg⟩, f6⟩
  · unfold calcNewStruct
    simp only [hlen, ne_eq, not_true_eq_false, if_false, h1]
    rfl
  · rw [hsplit]; exact g1
  · intro x hx
    have hxK : x ∈ K := g2 x (by simp [hx])
    rw [← hsplit] at hxK
    rcases List.mem_append.mp hxK with h | h
    · exact h
    · simp only [List.mem_singleton] at h
      subst h
      exfalso
      rw [List.pairwise_cons, List.pairwise_append] at hsorted
      exact lt_irrefl _ (hsorted.2.2.2 x hx x (List.mem_singleton.mpr rfl))
  · rw [← f3, List.length_dropLast]
    have : 0 < K.length := List.length_pos_iff.mpr hKne
    omega

/-- Non-vacuity and a case with a split: 5 + 20 points, at most 10 per segment. -/
example : ((0 : ℝ) :: ([1] ++ [2])).Pairwise (· < ·) ∧ ([3, 5] : List ℤ).length = ([1] : List ℝ).length + 1 ∧
    (newSegment 3 10 25 1 2).isOk := by
  refine ⟨by norm_num, rfl, ?_⟩
  obtain ⟨k, p, h, -⟩ := newSegment_ok (min_p := 3) (max_p := 10) (n := 25) (by norm_num)
    (show (1 : ℝ) < 2 by norm_num)
  rw [h]; rfl

/-! ## C43 -/

/-- C43, the part that holds: if every old segment is asked to have at least `min_p` points, every new
segment has at least `min_p`. -/
theorem C43_min_points_partial (min_p max_p : ℤ) (hmax : 0 < max_p) (p_str add_p : List ℤ)
    (t0 tf : ℝ) (old : List ℝ)
    (hlen : add_p.length = p_str.length) (hseg : p_str.length = old.length + 1)
    (hsorted : (t0 :: (old ++ [tf])).Pairwise (· < ·))
    (hreq : ∀ n ∈ List.zipWith (· + ·) p_str add_p, min_p ≤ n) :
    ∃ k p, calcNewStruct min_p max_p p_str add_p (t0 :: (old ++ [tf])) = .ok (k, p) ∧
      ∀ q ∈ p, min_p ≤ q := by
  obtain ⟨k, p, h, -, -, -, -, -, h7⟩ :=
    C42_new_struct min_p max_p hmax p_str add_p t0 tf old hlen hseg hsorted
  exact ⟨k, p, h, h7 hreq⟩

/-- C43 is false: with `min_p = 3` a segment of 3 points that gets increment -2 keeps one point. -/
theorem C43_refuted : ∃ (p add : List ℤ) (ts : List ℝ) (k : List ℝ) (p' : List ℤ),
    calcNewStruct 3 25 p add ts = .ok (k, p') ∧ ∃ q ∈ p', q < 3 := by
  refine ⟨[3], [-2], [0, 1], [], [1], ?_, 1, by simp, by norm_num⟩
  simp [calcNewStruct, newStructLoop, newSegment, Bind.bind, Except.bind]

/-- The increments are negative exactly for the segments whose error is already below the tolerance by
a factor of the number of points. -/
theorem C43_increment_negative_iff (eps relErr : ℝ) (points : ℤ) (heps : 0 < eps) (herr : 0 < relErr)
    (hp : 2 ≤ points) : addPoints eps relErr points < 0 ↔ relErr * points ≤ eps := by
  have hpr : (1 : ℝ) < points := by exact_mod_cast (by omega : 1 < points)
  have hl : 0 < Real.log points := Real.log_pos hpr
  have hq : 0 < relErr / eps := div_pos herr heps
  unfold addPoints
  have e : (⌈Real.log (relErr / eps) / Real.log points⌉ < 0) ↔
      ⌈Real.log (relErr / eps) / Real.log points⌉ ≤ -1 := by omega
  rw [e, Int.ceil_le, div_le_iff₀ hl]
  push_cast
  have h1 : (-1 : ℝ) * Real.log points = Real.log (points : ℝ)⁻¹ := by rw [Real.log_inv]; ring
  rw [h1, Real.log_le_log_iff hq (by positivity), div_le_iff₀ heps, inv_mul_eq_div,
    le_div_iff₀ (by positivity)]

/-- So a segment can be left with no points at all: the refinement hands a structure with a
non-positive number of points to the next solve (the other segment has not converged). -/
theorem C43_no_points_left : ∃ (eps e1 e2 : ℝ), 0 < eps ∧ 0 < e1 ∧ eps ≤ e2 ∧
    ∃ k p', calcNewStruct 3 25 [2, 2] [addPoints eps e1 2, addPoints eps e2 2] [0, 1, 2]
      = .ok (k, p') ∧ ∃ q ∈ p', q ≤ 0 := by
  have h2 : addPoints 1 1 2 = 0 := by simp [addPoints]
  have h1 : addPoints 1 (1 / 4) 2 = -2 := by
    unfold addPoints
    have : Real.log (1 / 4 / 1) / Real.log ((2 : ℤ) : ℝ) = -2 := by
      have e : (1 / 4 / 1 : ℝ) = ((2 : ℝ) ^ 2)⁻¹ := by norm_num
      have hl : Real.log 2 ≠ 0 := Real.log_ne_zero_of_pos_of_ne_one (by norm_num) (by norm_num)
      rw [e, Real.log_inv, Real.log_pow]
      push_cast
      field_simp
    rw [this]
    norm_num
  refine ⟨1, 1 / 4, 1, by norm_num, by norm_num, le_refl _, [1], [0, 2], ?_, 0, by simp, le_refl _⟩
  rw [h1, h2]
  simp [calcNewStruct, newStructLoop, newSegment, Bind.bind, Except.bind]

/-! ## C44 -/

/-- `s` is what the problem returned in some iteration below `n`. -/
def Solved (problem : Problem) (n : ℕ) (s : Sol) : Prop :=
  ∃ i k p, i < n ∧ problem i k p = .ok s

theorem loop_shape (problem : Problem) (min_p max_p : ℤ) (eps : ℝ) (maxColl : ℤ) (silent : Bool)
    (fuel iter : ℕ) (knots : List ℝ) (points : List ℤ) (run out : List Sol)
    (h : refineLoop problem min_p max_p eps maxColl silent fuel iter knots points run = .ok out) :
    ∃ new, out = run ++ new ∧ new.length ≤ fuel ∧
      (∀ s ∈ new, Solved problem (iter + fuel) s) ∧ (∀ s ∈ new.dropLast, ∃ e ∈ s.relErr, eps ≤ e) := by
  induction fuel generalizing iter knots points run with
  | zero =>
    simp only [refineLoop, Except.ok.injEq] at h
    exact ⟨[], by simp [h], le_refl _, by simp, by simp⟩
  | succ fuel ih =>
    unfold refineLoop at h
    split at h
    · simp at h
    · split at h
      · obtain ⟨new, h1, h2, h3, h4⟩ := ih _ _ _ _ h
        refine ⟨new, h1, by omega, ?_, h4⟩
        intro s hs
        rw [show iter + (fuel + 1) = iter + 1 + fuel by omega]
        exact h3 s hs
      · simp at h
      · rename_i s hs
        have hsol : Solved problem (iter + (fuel + 1)) s := ⟨iter, knots, points, by omega, hs⟩
        split at h
        · simp only [Except.ok.injEq] at h
          refine ⟨[s], h.symm, by simp, ?_, by simp⟩
          intro s' hs'; simp only [List.mem_singleton] at hs'; subst hs'; exact hsol
        · rename_i hc
          replace hc : ∃ e ∈ s.relErr, eps ≤ e := by simpa [converged] using hc
          split at h
          · simp at h
          · split at h
            · simp only [Except.ok.injEq] at h
              refine ⟨[s], h.symm, by simp, ?_, by simp⟩
              intro s' hs'; simp only [List.mem_singleton] at hs'; subst hs'; exact hsol
            · obtain ⟨new, h1, h2, h3, h4⟩ := ih _ _ _ _ h
              refine ⟨s :: new, by simp [h1], by simp; omega, ?_, ?_⟩
              · intro s' hs'
                rcases List.mem_cons.mp hs' with rfl | hs'
                · exact hsol
                · rw [show iter + (fuel + 1) = iter + 1 + fuel by omega]
                  exact h3 s' hs'
              · intro s' hs'
                cases new with
                | nil => simp at hs'
                | cons a new =>
                  rw [List.dropLast_cons_cons] at hs'
                  rcases List.mem_cons.mp hs' with rfl | hs'
                  · exact hc
                  · exact h4 s' hs'

/-- C44, what holds for every problem behaviour (any sequence of failures, errors and structures): when
the call returns, it made at most `max_iter` solves, every returned entry is the result of a
successful solve of this run, and all but the last entry have an error of `eps` or more. -/
theorem C44_outcome (problem : Problem) (knots : List ℝ) (points : List ℤ) (min_p max_p : ℤ)
    (eps : ℝ) (maxIter : ℕ) (maxColl : ℤ) (silent : Bool) (out : List Sol)
    (h : refine problem knots points min_p max_p eps maxIter maxColl silent = .ok out) :
    out.length ≤ maxIter ∧ (∀ s ∈ out, Solved problem maxIter s) ∧
      ∀ s ∈ out.dropLast, ∃ e ∈ s.relErr, eps ≤ e := by
  obtain ⟨new, h1, h2, h3, h4⟩ := loop_shape problem min_p max_p eps maxColl silent maxIter 0 knots
    points [] out h
  simp only [List.nil_append] at h1
  subst h1
  exact ⟨h2, by simpa using h3, h4⟩

/-- A problem that reports the structure it was given. -/
def Honest (problem : Problem) : Prop :=
  ∀ i k p s, problem i k p = .ok s → s.points = p ∧ s.knots = k

/-- No RuntimeError ever. -/
def NeverFails (problem : Problem) : Prop := ∀ i k p, problem i k p ≠ .error .runtime

theorem loop_budget (problem : Problem) (hh : Honest problem) (hn : NeverFails problem)
    (min_p max_p : ℤ) (eps : ℝ) (maxColl : ℤ) (silent : Bool) (fuel iter : ℕ) (knots : List ℝ)
    (points : List ℤ) (run out : List Sol) (hp : points.sum ≤ maxColl)
    (h : refineLoop problem min_p max_p eps maxColl silent fuel iter knots points run = .ok out) :
    ∃ new, out = run ++ new ∧ ∀ s ∈ new, s.points.sum ≤ maxColl := by
  induction fuel generalizing iter knots points run with
  | zero =>
    simp only [refineLoop, Except.ok.injEq] at h
    exact ⟨[], by simp [h], by simp⟩
  | succ fuel ih =>
    unfold refineLoop at h
    split at h
    · simp at h
    · split at h
      · rename_i hs
        exact absurd hs (hn _ _ _)
      · simp at h
      · rename_i s hs
        have hsum : s.points.sum ≤ maxColl := by rw [(hh _ _ _ _ hs).1]; exact hp
        have one : ∀ s' ∈ [s], s'.points.sum ≤ maxColl := by
          intro s' hs'; simp only [List.mem_singleton] at hs'; subst hs'; exact hsum
        split at h
        · simp only [Except.ok.injEq] at h
          exact ⟨[s], h.symm, one⟩
        · split at h
          · simp at h
          · split at h
            · simp only [Except.ok.injEq] at h
              exact ⟨[s], h.symm, one⟩
            · rename_i hle
              obtain ⟨new, h1, h2⟩ := ih _ _ _ _ (by omega) h
              refine ⟨s :: new, by simp [h1], ?_⟩
              intro s' hs'
              rcases List.mem_cons.mp hs' with rfl | hs'
              · exact hsum
              · exact h2 s' hs'

/-- C44, budget, the part that holds: when no solve fails with RuntimeError and the first structure is
within the budget, no returned solve exceeds it. -/
theorem C44_budget_partial (problem : Problem) (hh : Honest problem) (hn : NeverFails problem)
    (knots : List ℝ) (points : List ℤ) (min_p max_p : ℤ) (eps : ℝ) (maxIter : ℕ) (maxColl : ℤ)
    (silent : Bool) (hp : points.sum ≤ maxColl) (out : List Sol)
    (h : refine problem knots points min_p max_p eps maxIter maxColl silent = .ok out) :
    ∀ s ∈ out, s.points.sum ≤ maxColl := by
  obtain ⟨new, h1, h2⟩ := loop_budget problem hh hn min_p max_p eps maxColl silent maxIter 0 knots
    points [] out hp h
  simpa [h1] using h2

/-- A run of the refinement from a structure: every solve uses the structure that the refinement of the one before gives, which had an error of `eps` or more, and
stays within the budget. -/
def Run (min_p max_p : ℤ) (eps : ℝ) (maxColl : ℤ) : List ℝ → List ℤ → List Sol → Prop
  | _, _, [] => True
  | knots, points, [s] => s.knots = knots ∧ s.points = points
  | knots, points, s :: s' :: l => s.knots = knots ∧ s.points = points ∧ (∃ e ∈ s.relErr, eps ≤ e) ∧
    ∃ knots' points', calcNewStruct min_p max_p points s.addP s.t_knot_ext = .ok (knots', points') ∧ points'.sum ≤ maxColl ∧
      Run min_p max_p eps maxColl knots' points' (s' :: l)

theorem loop_run (problem : Problem) (hh : Honest problem) (hn : NeverFails problem)
    (min_p max_p : ℤ) (eps : ℝ) (maxColl : ℤ) (silent : Bool) (fuel iter : ℕ) (knots : List ℝ)
    (points : List ℤ) (run out : List Sol)
    (h : refineLoop problem min_p max_p eps maxColl silent fuel iter knots points run = .ok out) :
    ∃ new, out = run ++ new ∧ Run min_p max_p eps maxColl knots points new ∧
      (new.length = fuel ∨ ∃ s, new.getLast? = some s ∧ ((∀ e ∈ s.relErr, e < eps) ∨
        ∃ knots' points', calcNewStruct min_p max_p s.points s.addP s.t_knot_ext = .ok (knots', points') ∧ maxColl < points'.sum)) := by
  induction fuel generalizing iter knots points run with
  | zero =>
    simp only [refineLoop, Except.ok.injEq] at h
    exact ⟨[], by simp [h], trivial, .inl rfl⟩
  | succ fuel ih =>
    unfold refineLoop at h
    split at h
    · simp at h
    · split at h
      · rename_i hs
        exact absurd hs (hn _ _ _)
      · simp at h
      · rename_i s hs
        obtain ⟨e1, e2⟩ := hh _ _ _ _ hs
        split at h
        · rename_i hc
          simp only [Except.ok.injEq] at h
          exact ⟨[s], h.symm, ⟨e2, e1⟩, .inr ⟨s, rfl, .inl hc⟩⟩
        · rename_i hc
          replace hc : ∃ e ∈ s.relErr, eps ≤ e := by simpa [converged] using hc
          split at h
          · simp at h
          · rename_i knots' points' hcs
            split at h
            · rename_i hgt
              simp only [Except.ok.injEq] at h
              exact ⟨[s], h.symm, ⟨e2, e1⟩, .inr ⟨s, rfl, .inr ⟨knots', points', by rw [e1]; exact hcs, hgt⟩⟩⟩
            · rename_i hle
              obtain ⟨new, h1, h2, h3⟩ := ih _ _ _ _ h
              refine ⟨s :: new, by simp [h1], ?_, ?_⟩
              · cases new with
                | nil => exact ⟨e2, e1⟩
                | cons s' l => exact ⟨e2, e1, hc, knots', points', hcs, by omega, h2⟩
              · rcases h3 with h3 | ⟨s', h3, h4⟩
                · exact .inl (by simp [h3])
                · refine .inr ⟨s', ?_, h4⟩
                  cases new with
                  | nil => simp at h3
                  | cons a l => rw [List.getLast?_cons_cons]; exact h3

/-- C44: when no solve fails, the returned list starts at the structure of the user, goes on with the structure that each result asks for, and ends because all errors are
below `eps`, because the next structure is over the budget, or because `max_iter` solves have been made. -/
theorem C44_run (problem : Problem) (hh : Honest problem) (hn : NeverFails problem)
    (knots : List ℝ) (points : List ℤ) (min_p max_p : ℤ) (eps : ℝ) (maxIter : ℕ) (maxColl : ℤ)
    (silent : Bool) (out : List Sol)
    (h : refine problem knots points min_p max_p eps maxIter maxColl silent = .ok out) :
    Run min_p max_p eps maxColl knots points out ∧
      (out.length = maxIter ∨ ∃ s, out.getLast? = some s ∧ ((∀ e ∈ s.relErr, e < eps) ∨
        ∃ knots' points', calcNewStruct min_p max_p s.points s.addP s.t_knot_ext = .ok (knots', points') ∧ maxColl < points'.sum)) := by
  obtain ⟨new, h1, h2, h3⟩ := loop_run problem hh hn min_p max_p eps maxColl silent maxIter 0 knots points [] out h
  rw [List.nil_append] at h1
  subst h1
  exact ⟨h2, h3⟩

/-- Non-vacuity: an honest problem that never fails and converges at once. -/
example : ∃ problem : Problem, Honest problem ∧ NeverFails problem ∧
    refine problem [] [10] 3 25 1 100 500 true = .ok [⟨[10], [], [0, 1], [0], [0]⟩] := by
  refine ⟨fun _ k p => .ok ⟨p, k, [0, 1], [0], [0]⟩, ?_, fun _ _ _ h => (by simp at h), ?_⟩
  · intro i k p s h
    simp only [Except.ok.injEq] at h
    subst h
    exact ⟨rfl, rfl⟩
  · simp [refine, refineLoop, converged]

/-- The example problem: fails for 10 points, succeeds and converges otherwise. -/
noncomputable def exProblem : Problem := fun _ k p =>
  if p = [10] then .error .runtime else .ok ⟨p, k, [0, 1], [0], [0]⟩

theorem exProblem_honest : Honest exProblem := by
  intro i k p s h
  unfold exProblem at h
  split at h
  · simp at h
  · simp only [Except.ok.injEq] at h
    subst h
    exact ⟨rfl, rfl⟩

/-- C44, budget, is false when a solve fails: the failed attempt is repeated with one more point per
segment without looking at `max_coll_points`. -/
theorem C44_budget_refuted : ∃ out, refine exProblem [] [10] 3 25 1 100 10 true = .ok out ∧
    Honest exProblem ∧ ∃ s ∈ out, s.points.sum > 10 := by
  refine ⟨[⟨[11], [], [0, 1], [0], [0]⟩], ?_, exProblem_honest, _, List.mem_singleton.mpr rfl, by simp⟩
  simp [refine, refineLoop, exProblem, converged]

/-- With the default `silent=False` the function never returns: AttributeError in the first
iteration, for every problem. -/
theorem C44_not_silent_refuted (problem : Problem) (knots : List ℝ) (points : List ℤ)
    (min_p max_p : ℤ) (eps : ℝ) (maxIter : ℕ) (hi : 0 < maxIter) (maxColl : ℤ) :
    refine problem knots points min_p max_p eps maxIter maxColl false = .error .attribute := by
  obtain ⟨n, rfl⟩ : ∃ n, maxIter = n + 1 := ⟨maxIter - 1, by omega⟩
  simp [refine, refineLoop]

/-! ## C45 -/

/-- C45.  Splitting by segment loses nothing: the pieces concatenate to the whole error array and have
the promised lengths. -/
theorem C45_split {E : Type} (lens : List ℕ) (errs : List E) (h : errs.length = lens.sum) :
    (splitErr lens errs).flatten = errs ∧ (splitErr lens errs).map List.length = lens := by
  induction lens generalizing errs with
  | nil => simpa [splitErr, eq_comm] using h
  | cons n lens ih =>
    simp only [List.sum_cons] at h
    obtain ⟨h1, h2⟩ := ih (errs.drop n) (by simp; omega)
    refine ⟨by simp [splitErr, h1], ?_⟩
    simp only [splitErr, List.map_cons, h2, List.length_take]
    congr 1
    omega

/-- C45, test points: one more than the points of each segment, all inside the closed segment. -/
theorem C45_test_points (coll : ℕ → List ℝ) (hlen : ∀ n, (coll n).length = n)
    (hin : ∀ n, ∀ τ ∈ coll n, -1 ≤ τ ∧ τ ≤ 1) (ps : List ℕ) (ts : List ℝ)
    (hl : ts.length = ps.length + 1) (hs : ts.Pairwise (· < ·)) :
    (testPoints coll ps ts).map List.length = ps.map (· + 1) ∧
    ∀ i (hi : i < (testPoints coll ps ts).length) (h1 : i + 1 < ts.length),
      ∀ t ∈ (testPoints coll ps ts)[i], ts[i] ≤ t ∧ t ≤ ts[i + 1] := by
  induction ps generalizing ts with
  | nil => simp [testPoints]
  | cons p ps ih =>
    match ts, hl with
    | t0 :: t1 :: ts, hl =>
      have ht : t0 < t1 := (List.pairwise_cons.mp hs).1 t1 (List.mem_cons_self ..)
      obtain ⟨h1, h2⟩ := ih (t1 :: ts) (by simpa using hl) (List.pairwise_cons.mp hs).2
      refine ⟨by simp [testPoints, hlen, h1], ?_⟩
      intro i hi hi1 t htm
      cases i with
      | zero =>
        simp only [testPoints, List.getElem_cons_zero, List.mem_map] at htm
        obtain ⟨τ, hτ, rfl⟩ := htm
        obtain ⟨a, b⟩ := hin _ τ hτ
        have m := (TimeScale.C20_order t0 t1 ht).1.monotone
        have e := TimeScale.C20_ends t0 t1
        simp only [List.getElem_cons_zero, List.getElem_cons_succ]
        exact ⟨by conv_lhs => rw [← e.1]
                  exact m a, by conv_rhs => rw [← e.2.1]
                                exact m b⟩
      | succ i =>
        exact h2 i (by simpa [testPoints] using hi) (by simpa using hi1) t
          (by simpa [testPoints] using htm)

/-- Non-vacuity: a list of points of every length. -/
example : ∃ coll : ℕ → List ℝ, (∀ n, (coll n).length = n) ∧ ∀ n, ∀ τ ∈ coll n, -1 ≤ τ ∧ τ ≤ 1 := by
  refine ⟨fun n => List.replicate n 0, by simp, ?_⟩
  intro n τ h
  rw [(List.mem_replicate.mp h).2]
  norm_num

example : splitErr [2, 3] ['a', 'b', 'c', 'd', 'e'] = [['a', 'b'], ['c', 'd', 'e']] := rfl

end Chords.Adaptive
