import Verif.Props.Conditions
import Mathlib.Tactic.Ring
import Mathlib.Tactic.Linarith
import Mathlib.Algebra.BigOperators.Group.List.Basic

/-! # C178: the start and the controls are what the conditions leave free -/

namespace Chords.Conditions
open Chords.Points Chords.PhScheme Chords.Equi Chords.Props Chords.BuTd Chords.BuTdInterp

/-- Unknowns minus conditions. -/
def free (unknowns conditions : List ℕ) : ℤ := (unknowns.sum : ℤ) - conditions.sum

theorem sum_times (n : ℕ) (l : List ℕ) : (times n l).sum = n * l.sum := by
  unfold times
  induction n with
  | zero => simp
  | succ n ih => rw [List.replicate_succ, List.flatten_cons, List.sum_append, ih]; ring

theorem sum_when (b : Prop) [Decidable b] (l : List ℕ) : (when b l).sum = if b then l.sum else 0 := by
  unfold when
  split_ifs <;> simp

variable {order n_q n_u n_lambdas : ℕ}

/-- C178, equispaced problems: beyond the start, exactly the controls that the scheme does not take from others are free. -/
theorem C178_equi {scheme : String} {N : ℕ} :
    free (equiUnknowns scheme N order n_q n_u n_lambdas) (equiSizes scheme N order n_q n_u (order * n_q + n_lambdas)) =
      order * n_q + (N + 1) * n_u + if contains scheme "hs" = true ∧ contains scheme "parab" = true then (N * n_u : ℤ) else 0 := by
  unfold free equiUnknowns equiSizes
  by_cases h1 : contains scheme "hs" = true <;> by_cases h2 : contains scheme "parab" = true <;>
    simp [sum_times, sum_when, h1, h2] <;> ring

theorem rows_length {scheme : String} (hs : scheme ∈ buImplemented) {N : ℕ} (hN : minPoints scheme ≤ N) (ho : 1 ≤ order) :
    ∃ full, buArrPoints N scheme order = .ok full ∧ tdConstructionPoints N scheme order = .ok full ∧
      full.length = N + (if scheme ∈ gaussLike then 2 else if scheme ∈ lobatoLike then 0 else 1) := by
  obtain ⟨coll, constr, full, s, k1, k2, k3, k4, hfull, k5, k6, hsort, hlast, hlen, hd, hsl, -, -⟩ := constr_length hs ho hN
  refine ⟨full, k4, k5, ?_⟩
  unfold tdConstructionPoints at k5
  rw [k1] at k5
  change (if scheme ∈ gaussLike then _ else _) = _ at k5
  split_ifs at k5 with h1 h2 h3 h4
  all_goals cases k5
  · rw [if_pos h1]
    simp [hlen]
  · rw [if_neg h1, if_neg]
    · simp [hlen]
    · intro h
      revert h2
      simp only [lobatoLike, List.mem_cons, List.not_mem_nil, or_false] at h
      rcases h with rfl | rfl | rfl <;> decide
  · rw [if_neg h1, if_neg]
    · simp [hlen]
    · intro h
      revert h3
      simp only [lobatoLike, List.mem_cons, List.not_mem_nil, or_false] at h
      rcases h with rfl | rfl | rfl <;> decide
  · rw [if_neg h1, if_pos h4]
    simp [hlen]

/-- C178, one interval, bottom-up and top-down: beyond the start and the controls, only the lower derivatives in the rows without collocation, which appear in no
condition, are free. -/
theorem C178_single {scheme : String} (hs : scheme ∈ buImplemented) {N : ℕ} (hN : minPoints scheme ≤ N) (ho : 1 ≤ order) :
    ∃ full, buArrPoints N scheme order = .ok full ∧ tdConstructionPoints N scheme order = .ok full ∧
      free (psUnknowns N full.length order n_q n_u n_lambdas) (buSizes scheme N full.length order n_q (order * n_q + n_lambdas)) =
        order * n_q + N * n_u + (full.length - N) * ((order - 1) * n_q) ∧
      free (tdUnknowns N full.length order n_q n_u n_lambdas) (tdSizes N full.length order n_q (order * n_q + n_lambdas)) =
        order * n_q + N * n_u + (full.length - N) * ((order - 1) * n_q) := by
  obtain ⟨full, k4, k5, hl⟩ := rows_length hs hN ho
  refine ⟨full, k4, k5, ?_⟩
  have hp : 1 ≤ full.length := by
    obtain ⟨_, _, full', _, -, -, -, j, h, -⟩ := constr_length hs ho hN
    rw [k4] at j
    cases j
    rw [h]
    simp
  constructor
  · have e1 : (scheme ∈ gaussLike ++ radauInv ∧ scheme ∈ gaussLike ++ radauLike ∧ scheme ∈ gaussLike) ∨
        (scheme ∈ gaussLike ++ radauInv ∧ scheme ∉ gaussLike ++ radauLike ∧ scheme ∉ gaussLike ∧ scheme ∉ lobatoLike) ∨
        (scheme ∉ gaussLike ++ radauInv ∧ scheme ∈ gaussLike ++ radauLike ∧ scheme ∉ gaussLike ∧ scheme ∉ lobatoLike) ∨
        (scheme ∉ gaussLike ++ radauInv ∧ scheme ∉ gaussLike ++ radauLike ∧ scheme ∉ gaussLike ∧ scheme ∈ lobatoLike) := by
      clear * - hs
      revert scheme
      decide
    obtain ⟨A, hA⟩ : ∃ A, full.length = A + 1 := ⟨_, (Nat.sub_add_cancel hp).symm⟩
    rw [hA] at hl ⊢
    have hl' : (A : ℤ) + 1 = N + (if scheme ∈ gaussLike then 2 else if scheme ∈ lobatoLike then 0 else 1) := by
      have := congrArg (Nat.cast (R := ℤ)) hl
      push_cast at this
      rw [this]
    have hA' : (A : ℤ) = N + (if scheme ∈ gaussLike then 2 else if scheme ∈ lobatoLike then 0 else 1) - 1 := by linarith
    unfold free psUnknowns buSizes
    rcases e1 with ⟨g1, g2, g3⟩ | ⟨g1, g2, g3, g4⟩ | ⟨g1, g2, g3, g4⟩ | ⟨g1, g2, g3, g4⟩ <;>
      simp only [sum_when, sum_times, List.sum_append, List.sum_cons, List.sum_nil, g1, g2, g3, if_true, if_false, Nat.add_sub_cancel] at hA' ⊢ <;>
      first | rw [if_neg g4] at hA' | rw [if_pos g4] at hA' | skip
    all_goals
      push_cast
      rw [hA']
      ring_nf
  · unfold free tdUnknowns psUnknowns tdSizes
    simp only [sum_times, List.sum_append, List.sum_cons, List.sum_nil]
    push_cast
    ring

/-- C178, one interval, node based: Radau schemes leave the start and the controls free, Gauss schemes also the lower derivatives at the end without node, the schemes
with two variables those at both ends. -/
theorem C178_node_partial {scheme : String} {N n : ℕ} (hn : nColToNNodes scheme N = .ok n) (ho : 1 ≤ order) :
    (scheme ∈ radauLike ++ radauInv → free (psUnknowns N (nodeArr scheme n) order n_q n_u n_lambdas) (nodeSizes scheme N n order n_q (order * n_q + n_lambdas)) =
      order * n_q + N * n_u) ∧
    (scheme ∈ gaussLike ++ gaussInv → free (psUnknowns N (nodeArr scheme n) order n_q n_u n_lambdas) (nodeSizes scheme N n order n_q (order * n_q + n_lambdas)) =
      order * n_q + N * n_u + (order - 1) * n_q) ∧
    (scheme ∈ gauss2 → order = 2 → free (psUnknowns N (nodeArr scheme n) order n_q n_u n_lambdas) (nodeSizes scheme N n order n_q (order * n_q + n_lambdas)) =
      order * n_q + N * n_u + 2 * n_q) ∧
    (scheme ∈ lobatoLike ++ ["D2"] → (scheme = "D2" → order = 2) →
      free (psUnknowns N (nodeArr scheme n) order n_q n_u n_lambdas) (nodeSizes scheme N n order n_q (order * n_q + n_lambdas)) = N * n_u) := by
  refine ⟨fun h => ?_, fun h => ?_, fun h h2 => ?_, fun h h2 => ?_⟩
  · have f : scheme ∈ radauInv ++ radauLike ∧ scheme ∉ gaussLike ++ gaussInv ∧ scheme ∉ gauss2 ++ ["D2"] ∧ scheme ∉ gaussInv ∧ scheme ∉ gaussLike := by
      clear * - h
      revert scheme
      decide
    obtain ⟨f1, f2, f3, f4, f5⟩ := f
    have : N + 1 = n := by simpa [nColToNNodes, f1, f2] using hn
    subst this
    simp only [free, psUnknowns, nodeSizes, nodeArr, sum_when, sum_times, List.sum_append, List.sum_cons, List.sum_nil, f2, f3, f4, f5, if_false]
    push_cast
    ring
  · have f : scheme ∉ gauss2 ++ ["D2"] ∧ (scheme ∈ gaussInv ∧ scheme ∉ gaussLike ∨ scheme ∉ gaussInv ∧ scheme ∈ gaussLike) := by
      clear * - h
      revert scheme
      decide
    obtain ⟨f3, f⟩ := f
    have : N + 1 = n := by simpa only [nColToNNodes, h, if_true, Except.ok.injEq] using hn
    subst this
    rcases f with ⟨f4, f5⟩ | ⟨f4, f5⟩ <;>
      simp only [free, psUnknowns, nodeSizes, nodeArr, sum_when, sum_times, List.sum_append, List.sum_cons, List.sum_nil, h, f3, f4, f5, if_false, if_true] <;>
      push_cast <;> ring
  · have f : scheme ∉ radauInv ++ radauLike ∧ scheme ∉ gaussLike ++ gaussInv ∧ scheme ∈ gauss2 ++ ["D2"] ∧ scheme ∉ gaussInv ∧ scheme ∉ gaussLike := by
      clear * - h
      revert scheme
      decide
    obtain ⟨f1, f2, f3, f4, f5⟩ := f
    have : N + 2 = n := by simpa only [nColToNNodes, f1, f2, h, if_true, if_false, Except.ok.injEq] using hn
    subst this h2
    simp only [free, psUnknowns, nodeSizes, nodeArr, sum_when, sum_times, List.sum_append, List.sum_cons, List.sum_nil, f2, f3, f4, f5, if_false, if_true]
    push_cast
    ring
  · have f : nColToNNodes scheme N = .ok N ∧ scheme ∉ gaussLike ++ gaussInv ∧ scheme ∉ gaussInv ∧ scheme ∉ gaussLike ∧ (scheme ∈ gauss2 ++ ["D2"] ↔ scheme = "D2") := by
      clear * - h
      simp only [lobatoLike, List.mem_append, List.mem_cons, List.not_mem_nil, or_false] at h
      rcases h with (rfl | rfl | rfl) | rfl <;> exact ⟨rfl, by decide⟩
    obtain ⟨f1, f2, f4, f5, f6⟩ := f
    rw [hn] at f1
    cases f1
    by_cases hd : scheme = "D2"
    · have f3 := f6.2 hd
      obtain rfl := h2 hd
      simp only [free, psUnknowns, nodeSizes, nodeArr, sum_when, sum_times, List.sum_append, List.sum_cons, List.sum_nil, f2, f3, f4, f5, if_false, if_true]
      push_cast
      ring
    · have f3 : scheme ∉ gauss2 ++ ["D2"] := fun h => hd (f6.1 h)
      simp only [free, psUnknowns, nodeSizes, nodeArr, sum_when, sum_times, List.sum_append, List.sum_cons, List.sum_nil, f2, f3, f4, f5, if_false, if_true]
      push_cast
      ring

private theorem list_finset (f : ℕ → ℕ) (n : ℕ) : ((List.range n).map f).sum = ∑ i ∈ Finset.range n, f i := rfl

private theorem sum_points (points : List ℕ) : points.sum = ∑ i ∈ Finset.range points.length, points.getD i 0 := by
  rw [← list_finset]
  congr 1
  refine List.ext_getElem (by simp) fun i h1 h2 => ?_
  rw [List.getElem_map, List.getElem_range, List.getD_eq_getElem]

/-- What is compared in all segments, if it grows with the points of a segment and the first and the last segment compare more. -/
theorem sum_segs {f : Seg → List ℕ} {a b c d : ℕ} {points : List ℕ} {ext : List ℝ} (hp : points ≠ [])
    (hf : ∀ g, (f g).sum = a * g.n + b + (if g.first = true then c else 0) + (if g.last = true then d else 0)) :
    ((segs points ext).map f).flatten.sum = a * points.sum + b * points.length + c + d := by
  have hl : 0 < points.length := List.length_pos_of_ne_nil hp
  rw [List.sum_flatten, List.map_map, segs, List.map_map, list_finset, sum_points points]
  simp only [Function.comp_apply, hf, decide_eq_true_eq, Finset.sum_add_distrib, ← Finset.mul_sum, Finset.sum_const, Finset.card_range, smul_eq_mul,
    Finset.sum_ite_eq', Finset.mem_range]
  rw [if_pos hl, if_pos (by omega), mul_comm b]

theorem free_ph {mode : Mode} {scheme : String} {nodes : ℕ → ℕ} {points : List ℕ} {ext : List ℝ} {a b c d : ℕ} (hp : points ≠ [])
    (hf : ∀ g, (phSegSizes mode scheme nodes order n_q g).sum = a * g.n + b + (if g.first = true then c else 0) + (if g.last = true then d else 0)) :
    free (phUnknowns mode order n_q n_u n_lambdas points) (phSizes mode scheme nodes order n_q n_u (order * n_q + n_lambdas) points ext) =
      points.sum * n_u + 2 * (points.sum + points.length + 1) * (order * n_q) - points.sum * (order * n_q) -
        (a * points.sum + b * points.length + c + d) + if mode = .td then ((points.sum + points.length * order) * n_q : ℤ) else 0 := by
  have h := sum_segs (ext := ext) hp hf
  have e : (points.map fun n => (n + order) * n_q).sum = (points.sum + points.length * order) * n_q := by
    clear h hp
    induction points with
    | nil => simp
    | cons p l ih => rw [List.map_cons, List.sum_cons, ih, List.sum_cons, List.length_cons]; ring
  unfold free phUnknowns phSizes
  simp only [List.sum_append, h, sum_times, sum_when, e, List.sum_cons, List.sum_nil]
  split_ifs <;> push_cast <;> ring

/-- C178, segments, bottom-up: the start and the controls at the collocation points are free, and nothing else. -/
theorem C178_ph_bu {scheme : String} {nodes : ℕ → ℕ} {points : List ℕ} {ext : List ℝ} (hp : points ≠ []) (ho : 1 ≤ order) :
    free (phUnknowns .bu order n_q n_u n_lambdas points) (phSizes .bu scheme nodes order n_q n_u (order * n_q + n_lambdas) points ext) =
      order * n_q + points.sum * n_u := by
  obtain ⟨o, rfl⟩ : ∃ o, order = o + 1 := ⟨order - 1, by omega⟩
  rw [free_ph (a := (o + 1) * n_q) (b := (o + 1) * n_q + n_q + o * n_q) (c := o * n_q) (d := n_q) hp]
  · rw [if_neg (by decide)]
    push_cast
    ring
  · intro g
    simp only [phSegSizes, phBuSizes, List.sum_append, sum_when, sum_times, List.sum_cons, List.sum_nil, Nat.add_sub_cancel]
    ring

/-- C178, segments, top-down: every inner knot takes the place of one value of each coordinate in the start and the controls. -/
theorem C178_ph_td_refuted {scheme : String} {nodes : ℕ → ℕ} {points : List ℕ} {ext : List ℝ} (hp : points ≠ []) (ho : 1 ≤ order) :
    free (phUnknowns .td order n_q n_u n_lambdas points) (phSizes .td scheme nodes order n_q n_u (order * n_q + n_lambdas) points ext) =
      order * n_q + points.sum * n_u - (points.length - 1) * n_q := by
  obtain ⟨o, rfl⟩ : ∃ o, order = o + 1 := ⟨order - 1, by omega⟩
  rw [free_ph (a := (o + 2) * n_q) (b := 2 * (o + 2) * n_q + o * n_q) (c := o * n_q) (d := 0) hp]
  · rw [if_pos rfl]
    push_cast
    ring
  · intro g
    have e : (List.range (o + 1 + 1)).map (fun ii => [g.n * n_q, n_q] ++ when (ii ≤ o + 1 ∨ g.last = true) [n_q]) =
        List.replicate (o + 1 + 1) [g.n * n_q, n_q, n_q] := by
      refine List.ext_getElem (by simp) fun i h1 h2 => ?_
      rw [List.getElem_map, List.getElem_range, List.getElem_replicate, when, if_pos]
      · rfl
      · rw [List.length_replicate] at h2
        omega
    have e' := sum_times (o + 1 + 1) [g.n * n_q, n_q, n_q]
    unfold times at e'
    simp only [phSegSizes, phTdSizes, List.sum_append, sum_when, e, e', List.sum_cons, List.sum_nil, Nat.add_sub_cancel]
    split_ifs <;> ring

/-- C178, segments, node based. Radau schemes leave the start and the controls free. With the others every inner knot takes as many values as coordinates (Gauss), as
lower derivatives (two variables) or as states (Lobatto), and in Lobatto schemes there is one knot more. -/
theorem C178_ph_node_partial {scheme : String} {nodes : ℕ → ℕ} {points : List ℕ} {ext : List ℝ} (hp : points ≠ []) (ho : 1 ≤ order)
    (hn : ∀ n, nColToNNodes scheme n = .ok (nodes n)) :
    (scheme ∈ radauLike ++ radauInv →
      free (phUnknowns .node order n_q n_u n_lambdas points) (phSizes .node scheme nodes order n_q n_u (order * n_q + n_lambdas) points ext) =
        order * n_q + points.sum * n_u) ∧
    (scheme ∈ gaussLike ++ gaussInv →
      free (phUnknowns .node order n_q n_u n_lambdas points) (phSizes .node scheme nodes order n_q n_u (order * n_q + n_lambdas) points ext) =
        order * n_q + points.sum * n_u - (points.length - 1) * n_q) ∧
    (scheme ∈ gauss2 →
      free (phUnknowns .node order n_q n_u n_lambdas points) (phSizes .node scheme nodes order n_q n_u (order * n_q + n_lambdas) points ext) =
        2 * n_q + points.sum * n_u - (points.length - 1) * ((order - 1) * n_q)) ∧
    (scheme ∈ lobatoLike →
      free (phUnknowns .node order n_q n_u n_lambdas points) (phSizes .node scheme nodes order n_q n_u (order * n_q + n_lambdas) points ext) =
        points.sum * n_u - (points.length - 1) * (order * n_q)) := by
  obtain ⟨o, rfl⟩ : ∃ o, order = o + 1 := ⟨order - 1, by omega⟩
  refine ⟨fun h => ?_, fun h => ?_, fun h => ?_, fun h => ?_⟩
  · have f : (∀ n, nColToNNodes scheme n = .ok (n + 1)) ∧ scheme ∉ gauss2 ∧ scheme ∉ gaussInv ∧ scheme ∉ gaussLike ∧ scheme ∉ lobatoLike ∧
        (scheme ∈ lobatoLike ++ radauLike ∧ scheme ∉ lobatoLike ++ radauInv ∧ scheme ∉ radauInv ∨
          scheme ∉ lobatoLike ++ radauLike ∧ scheme ∈ lobatoLike ++ radauInv ∧ scheme ∈ radauInv) := by
      clear * - h
      simp only [radauLike, radauInv, List.mem_append, List.map_cons, List.map_nil, List.mem_cons, List.not_mem_nil, or_false] at h
      rcases h with (rfl | rfl | rfl) | (rfl | rfl | rfl) <;> exact ⟨fun _ => rfl, by decide⟩
    obtain ⟨f1, f2, f3, f4, f5, f6⟩ := f
    have hn' : ∀ n, nodes n = n + 1 := fun n => Except.ok.inj ((hn n).symm.trans (f1 n))
    rcases f6 with ⟨g1, g2, g3⟩ | ⟨g1, g2, g3⟩
    · rw [free_ph (a := (o + 1) * n_q) (b := 2 * ((o + 1) * n_q)) (c := (o + 1) * n_q) (d := 0) hp]
      · rw [if_neg (by decide)]
        push_cast
        ring
      · intro g
        simp only [phSegSizes, phNodeSizes, List.sum_append, sum_when, List.sum_cons, List.sum_nil, Nat.add_sub_cancel, hn', f2, f3, f4, f5, g1, g2, g3, if_true, if_false, false_and]
        split_ifs <;> ring
    · rw [free_ph (a := (o + 1) * n_q) (b := 2 * ((o + 1) * n_q)) (c := 0) (d := (o + 1) * n_q) hp]
      · rw [if_neg (by decide)]
        push_cast
        ring
      · intro g
        simp only [phSegSizes, phNodeSizes, List.sum_append, sum_when, List.sum_cons, List.sum_nil, Nat.add_sub_cancel, hn', f2, f3, f4, f5, g1, g2, g3, if_true, if_false, true_and]
        split_ifs <;> ring
  · have f : (∀ n, nColToNNodes scheme n = .ok (n + 1)) ∧ scheme ∉ gauss2 ∧ scheme ∉ radauInv ∧ scheme ∉ lobatoLike ∧
        scheme ∉ lobatoLike ++ radauLike ∧ scheme ∉ lobatoLike ++ radauInv ∧
        (scheme ∈ gaussInv ∧ scheme ∉ gaussLike ∨ scheme ∉ gaussInv ∧ scheme ∈ gaussLike) := by
      clear * - h
      simp only [gaussLike, gaussInv, List.mem_append, List.map_cons, List.map_nil, List.mem_cons, List.not_mem_nil, or_false] at h
      rcases h with (rfl | rfl | rfl) | (rfl | rfl | rfl) <;> exact ⟨fun _ => rfl, by decide⟩
    obtain ⟨f1, f2, f3, f4, f5, f6, f7⟩ := f
    have hn' : ∀ n, nodes n = n + 1 := fun n => Except.ok.inj ((hn n).symm.trans (f1 n))
    rcases f7 with ⟨g1, g2⟩ | ⟨g1, g2⟩
    · rw [free_ph (a := (o + 1) * n_q) (b := 2 * ((o + 1) * n_q) + n_q) (c := o * n_q) (d := 0) hp]
      · rw [if_neg (by decide)]
        push_cast
        ring
      · intro g
        simp only [phSegSizes, phNodeSizes, List.sum_append, sum_when, List.sum_cons, List.sum_nil, Nat.add_sub_cancel, hn', f2, f3, f4, f5, f6, g1, g2, if_true, if_false, false_and]
        split_ifs <;> ring
    · rw [free_ph (a := (o + 1) * n_q) (b := 2 * ((o + 1) * n_q) + n_q) (c := 0) (d := o * n_q) hp]
      · rw [if_neg (by decide)]
        push_cast
        ring
      · intro g
        simp only [phSegSizes, phNodeSizes, List.sum_append, sum_when, List.sum_cons, List.sum_nil, Nat.add_sub_cancel, hn', f2, f3, f4, f5, f6, g1, g2, if_true, if_false, false_and]
        split_ifs <;> ring
  · have f : (∀ n, nColToNNodes scheme n = .ok (n + 2)) ∧ scheme ∉ gaussInv ∧ scheme ∉ gaussLike ∧ scheme ∉ radauInv ∧ scheme ∉ lobatoLike ∧
        scheme ∉ lobatoLike ++ radauLike ∧ scheme ∉ lobatoLike ++ radauInv := by
      clear * - h
      simp only [gauss2, gaussLike, List.mem_append, List.map_cons, List.map_nil, List.mem_cons, List.not_mem_nil, or_false] at h
      rcases h with (rfl | rfl | rfl) | rfl <;> exact ⟨fun _ => rfl, by decide⟩
    obtain ⟨f1, f2, f3, f4, f5, f6, f7⟩ := f
    have hn' : ∀ n, nodes n = n + 2 := fun n => Except.ok.inj ((hn n).symm.trans (f1 n))
    rw [free_ph (a := (o + 1) * n_q) (b := 2 * ((o + 1) * n_q) + o * n_q) (c := 0) (d := o * n_q) hp]
    · rw [if_neg (by decide)]
      push_cast
      ring
    · intro g
      simp only [phSegSizes, phNodeSizes, List.sum_append, sum_when, List.sum_cons, List.sum_nil, Nat.add_sub_cancel, hn', h, f2, f3, f4, f5, f6, f7, if_true, if_false, false_and]
      split_ifs <;> ring
  · have f : (∀ n, nColToNNodes scheme n = .ok n) ∧ scheme ∉ gauss2 ∧ scheme ∉ gaussInv ∧ scheme ∉ gaussLike ∧ scheme ∉ radauInv ∧
        scheme ∈ lobatoLike ++ radauLike ∧ scheme ∈ lobatoLike ++ radauInv := by
      clear * - h
      simp only [lobatoLike, List.mem_cons, List.not_mem_nil, or_false] at h
      rcases h with rfl | rfl | rfl <;> exact ⟨fun _ => rfl, by decide⟩
    obtain ⟨f1, f2, f3, f4, f5, f6, f7⟩ := f
    have hn' : ∀ n, nodes n = n := fun n => Except.ok.inj ((hn n).symm.trans (f1 n))
    rw [free_ph (a := (o + 1) * n_q) (b := 3 * ((o + 1) * n_q)) (c := (o + 1) * n_q) (d := 0) hp]
    · rw [if_neg (by decide)]
      push_cast
      ring
    · intro g
      simp only [phSegSizes, phNodeSizes, List.sum_append, sum_when, List.sum_cons, List.sum_nil, Nat.add_sub_cancel, hn', h, f2, f3, f4, f5, f6, f7, if_true, if_false, false_and]
      split_ifs <;> ring

/-- C178 fails for Lobatto schemes: with two coordinates, one control and three or more segments of two points there are more conditions than unknowns. -/
theorem C178_lobatto_refuted {m : ℕ} (hm : 3 ≤ m) (ext : List ℝ) :
    (phUnknowns .node 2 2 1 0 (List.replicate m 2)).sum < (phSizes .node "LGL" id 2 2 1 4 (List.replicate m 2) ext).sum := by
  have h := (C178_ph_node_partial (order := 2) (n_q := 2) (n_u := 1) (n_lambdas := 0) (scheme := "LGL") (nodes := id) (points := List.replicate m 2) (ext := ext)
    (by rw [ne_eq, List.replicate_eq_nil_iff]; omega) (by omega) (fun _ => rfl)).2.2.2 (by decide)
  simp only [free, List.sum_replicate, smul_eq_mul, List.length_replicate] at h
  push_cast at h
  zify
  linarith [show (3 : ℤ) ≤ m by exact_mod_cast hm]

/-- C178 fails for top-down segments: with three coordinates, one control and five or more segments of one point there are more conditions than unknowns. -/
theorem C178_td_refuted {m : ℕ} (hm : 5 ≤ m) (ext : List ℝ) :
    (phUnknowns .td 2 3 1 0 (List.replicate m 1)).sum < (phSizes .td "LG" id 2 3 1 6 (List.replicate m 1) ext).sum := by
  have h := C178_ph_td_refuted (order := 2) (n_q := 3) (n_u := 1) (n_lambdas := 0) (scheme := "LG") (nodes := id) (points := List.replicate m 1) (ext := ext)
    (by rw [ne_eq, List.replicate_eq_nil_iff]; omega) (by omega)
  simp only [free, List.sum_replicate, smul_eq_mul, List.length_replicate] at h
  push_cast at h
  zify
  linarith [show (5 : ℤ) ≤ m by exact_mod_cast hm]

/-- The hypotheses hold of bottom-up problems, in one interval and in segments. -/
example : ∃ full, buArrPoints 3 "LG" 2 = .ok full ∧ free (psUnknowns 3 full.length 2 1 1 0) (buSizes "LG" 3 full.length 2 1 2) = 2 * 1 + 3 * 1 + (full.length - 3) * 1 := by
  obtain ⟨full, h, -, h1, -⟩ := C178_single (scheme := "LG") (N := 3) (n_q := 1) (n_u := 1) (n_lambdas := 0) (order := 2) (by decide) (by decide) (by omega)
  exact ⟨full, h, by simpa using h1⟩

example : free (phUnknowns .bu 2 1 1 0 [3, 4]) (phSizes .bu "LG" id 2 1 1 2 [3, 4] [0, 1, 2]) = 9 := by
  have := C178_ph_bu (order := 2) (n_q := 1) (n_u := 1) (n_lambdas := 0) (scheme := "LG") (nodes := id) (points := [3, 4]) (ext := [0, 1, 2]) (by simp) (by omega)
  simpa using this

/-- And of node based ones. -/
example : free (psUnknowns 3 (nodeArr "LGR" 4) 2 1 1 0) (nodeSizes "LGR" 3 4 2 1 2) = 5 :=
  (C178_node_partial (scheme := "LGR") (N := 3) (n := 4) (order := 2) (n_q := 1) (n_u := 1) (n_lambdas := 0) rfl (by omega)).1 (by decide)

example : free (phUnknowns .node 2 1 1 0 [3, 4]) (phSizes .node "LGR" (· + 1) 2 1 1 2 [3, 4] [0, 1, 2]) = 9 :=
  (C178_ph_node_partial (scheme := "LGR") (nodes := (· + 1)) (points := [3, 4]) (ext := [0, 1, 2]) (order := 2) (n_q := 1) (n_u := 1) (n_lambdas := 0) (by simp) (by omega)
    (fun _ => rfl)).1 (by decide)

end Chords.Conditions
