import Verif.Props.BuTd

/-! # Feasible points of the node based problems, and what the constraints leave free: C72, C73, C74 -/

namespace Chords.Props
open Finset Polynomial Chords.Points Chords.Spec Chords.Bary Chords.Gauss Chords.TimeScale Chords.BuTd

/-! ## C73 -/

/-- The arrays `x` and `x_d` of a node based problem: every column of `x` is sampled from a polynomial of degree below the
number of nodes; `x_d` holds its derivative at every node, and the last block of `x_d` at every row. -/
def IsNodeTrajectory (v : Vars) (order n_q n_nodes : ℕ) (nodes taus : List ℝ) (t0 t1 : ℝ) : Prop :=
  ∃ p : ℕ → ℝ[X], ∀ col < order * n_q, (p col).degree < n_nodes ∧ ∀ i < taus.length,
    v.x i col = (p col).eval (tauToT (arr taus i) t0 t1) ∧
    (arr taus i ∈ nodes ∨ n_q * (order - 1) ≤ col → v.xd i col = (derivative (p col)).eval (tauToT (arr taus i) t0 t1))

/-- Where the rows are with respect to the nodes. -/
theorem node_rows {scheme : String} (hs : scheme ∈ implemented) {N : ℕ} (hN : minPoints scheme ≤ N) :
    ∃ coll n nodes full, collPoints N scheme = .ok coll ∧ nColToNNodes scheme N = .ok n ∧
      nodePoints n scheme = .ok nodes ∧ arrPoints N scheme = .ok full ∧ nodes.length = n ∧ Distinct n (arr nodes) ∧
      full.Pairwise (· < ·) ∧ arr full 0 = -1 ∧ arr full (full.length - 1) = 1 ∧ 1 ≤ n ∧ coll.length = N ∧
      full.length = n + (if scheme ∈ gaussLike ++ gaussInv then 1 else 0) ∧
      (∀ c < n, arr full (nodeOff scheme + c) = arr nodes c) ∧
      (∀ m < N, i0 scheme + m < full.length ∧ arr full (i0 scheme + m) = arr coll m) ∧
      (scheme ∈ gaussLike → scheme ∉ gaussInv ∧ (1 : ℝ) ∉ nodes) ∧ (scheme ∈ gaussInv → scheme ∉ gaussLike ∧ (-1 : ℝ) ∉ nodes) := by
  obtain ⟨coll, n, nodes, full, s, s', h1, h2, h3, h4, -, -, h7, h8, h9, h10, h11, h12, h13, h14, -⟩ := C21_aligned hs hN
  obtain ⟨coll', full', g1, g2, g3, g4⟩ := C32_nodes hs hN
  rw [h1] at g1; rw [h4] at g2
  cases g1; cases g2
  have hN1 : 1 ≤ N := le_trans (minPoints_pos scheme) hN
  have hne : full ≠ [] := by rintro rfl; simp at h12
  have e0 : arr full 0 = -1 := by
    rw [List.head?_eq_getElem?] at h12
    simp [arr, List.getD_eq_getElem?_getD, h12]
  have e1 : arr full (full.length - 1) = 1 := by
    rw [List.getLast?_eq_getElem?] at h13
    simp [arr, List.getD_eq_getElem?_getD, h13]
  have hn1 : 1 ≤ n := by
    unfold nColToNNodes at h2
    split_ifs at h2 <;> cases h2 <;> omega
  refine ⟨coll, n, nodes, full, h1, h2, h3, h4, h7, h7 ▸ distinct_arr h8, h11, e0, e1, hn1, g3, ?_⟩
  have hd : ∀ m < N, i0 scheme + m < full.length ∧ arr full (i0 scheme + m) = arr coll m := by
    intro m hm
    obtain ⟨τ, k1, k2⟩ := g4 m hm
    refine ⟨(List.getElem?_eq_some_iff.1 k2).1, ?_⟩
    simp [arr, List.getD_eq_getElem?_getD, k1, k2]
  unfold arrPoints at h4
  simp only [h2, h3, bind, Except.bind, pure, Except.pure] at h4
  by_cases c1 : scheme ∈ gaussLike
  · rw [if_pos c1] at h4
    cases h4
    have c2 : scheme ∉ gaussInv := by
      simp only [gaussLike, List.mem_cons, List.not_mem_nil, or_false] at c1
      rcases c1 with rfl | rfl | rfl <;> decide
    refine ⟨by simp [h7, c1], fun c hc => ?_, hd, fun _ => ⟨c2, fun h => ?_⟩, fun h => absurd h c2⟩
    · simp [arr, nodeOff, c1, List.getD_eq_getElem?_getD, List.getElem?_append_left (h7.symm ▸ hc : c < nodes.length)]
    · exact absurd ((List.pairwise_append.1 h11).2.2 1 h 1 (by simp)) (lt_irrefl _)
  · rw [if_neg c1] at h4
    by_cases c2 : scheme ∈ gaussInv
    · rw [if_pos c2] at h4
      cases h4
      refine ⟨by simp [h7, c2], fun c hc => ?_, hd, fun h => absurd h c1, fun _ => ⟨c1, fun h => ?_⟩⟩
      · simp [arr, nodeOff, c1, c2, List.getD_eq_getElem?_getD, Nat.add_comm 1 c]
      · exact absurd ((List.pairwise_append.1 h11).2.2 (-1) (by simp) (-1) h) (lt_irrefl _)
    · rw [if_neg c2] at h4
      cases h4
      exact ⟨by simp [h7, c1, c2], fun c hc => by simp [nodeOff, c1, c2], hd, fun h => absurd h c1, fun h => absurd h c2⟩

/-- The differentiation matrix on samples of a polynomial in time. -/
theorem node_deriv {t0 t1 : ℝ} (ht : t0 ≠ t1) {n : ℕ} {t : ℕ → ℝ} (hd : Distinct n t) {p : ℝ[X]} (hp : p.degree < n)
    {y : ℕ → ℝ} (hy : ∀ c < n, y c = p.eval (tauToT (t c) t0 t1)) {i : ℕ} (hi : i < n) :
    2 / (t1 - t0) * ∑ c ∈ range n, dMat n t (vSum n t) i c * y c = (derivative p).eval (tauToT (t i) t0 t1) := by
  have h := dMat_deriv hd (comp_toT_degree t0 t1 hp) (y := y) (fun c hc => by rw [hy c hc, eval_comp, toT_eval]) hi
  unfold matVec at h
  rw [h]
  have hh := sub_ne_zero.2 ht.symm
  have e : derivative (toT t0 t1) = C ((t1 - t0) / 2) := by simp [toT]
  rw [derivative_comp, e, eval_mul, eval_C, eval_comp, toT_eval]
  field_simp

theorem interp_time {t0 t1 : ℝ} (ht : t0 ≠ t1) {n : ℕ} {t : ℕ → ℝ} (hd : Distinct n t) (y : ℕ → ℝ) :
    ∃ p : ℝ[X], p.degree < n ∧ ∀ c < n, p.eval (tauToT (t c) t0 t1) = y c := by
  refine ⟨(Lagrange.interpolate (range n) t y).comp (toTau t0 (t1 - t0)), ?_, fun c hc => ?_⟩
  · exact comp_toTau_degree _ _ (by simpa using Lagrange.degree_interpolate_lt y hd.injOn)
  · rw [eval_comp, toTau_eval ht, Lagrange.eval_interpolate_at_node _ hd.injOn (mem_range.2 hc)]

theorem tauToT_end (t0 t1 : ℝ) : tauToT 1 t0 t1 = t1 := by simp [tauToT]; ring

theorem node_dyn {N : ℕ} {coll full : List ℝ} (hc : coll.length = N) (hf : full.Pairwise (· < ·)) {k : ℕ}
    (hd : ∀ m < N, k + m < full.length ∧ arr full (k + m) = arr coll m) (F : Dyn) (v : Vars) :
    (∀ ii < N, zero (F (v.x (k + ii)) (v.xd (k + ii)) (v.u ii) (v.lam ii))) ↔ Collocated F v full coll := by
  unfold Collocated
  rw [hc]
  refine forall_congr' fun m => forall_congr' fun hm => ?_
  obtain ⟨h1, h2⟩ := hd m hm
  constructor
  · intro h; exact ⟨_, h1, h2, h⟩
  · rintro ⟨i, hi, e, hz⟩
    have := distinct_arr hf _ hi _ h1 (e.trans h2.symm)
    rwa [← this]

/-- C73: an assignment of the variables of a node based problem is feasible exactly if every column of `x` is sampled
from a polynomial of degree below the number of nodes, `x_d` from its derivative (at the nodes; the highest derivative at
every row), and the dynamics hold at the collocation points. -/
theorem C73_feasible {scheme : String} (hs : scheme ∈ implemented) (h2 : scheme ∉ gauss2 ++ ["D2"]) {order : ℕ}
    (ho : 1 ≤ order) (hord : order ≤ 2 ∨ scheme ∉ gaussLike ++ gaussInv) {N : ℕ}
    (hN : minPoints scheme ≤ N) (F : Dyn) (n_q : ℕ) {t0 t1 : ℝ} (ht : t0 ≠ t1) :
    ∃ coll n nodes full C, collPoints N scheme = .ok coll ∧ nColToNNodes scheme N = .ok n ∧
      nodePoints n scheme = .ok nodes ∧ arrPoints N scheme = .ok full ∧
      nodeConstraints F scheme N order n_q t0 t1 = .ok C ∧
      ∀ v, C v ↔ IsNodeTrajectory v order n_q n nodes full t0 t1 ∧ Collocated F v full coll := by
  obtain ⟨coll, n, nodes, full, k1, k2, k3, k4, hlen, hd, hsort, hf0, hfl, hn1, hcl, hflen, hoff, hdyn, hgl, hgi⟩ :=
    node_rows hs hN
  refine ⟨coll, n, nodes, full, ?_⟩
  have hD : matrixDBary n scheme = .ok (dMat n (arr nodes) (vSum n (arr nodes))) := by
    simp [matrixDBary, k3, hlen, bind, Except.bind, pure, Except.pure]
  have hlev : ∀ (v : Vars) (i j : ℕ), v.lev order n_q order i j = v.xd i (n_q * (order - 1) + j) := by
    intro v i j; simp [Vars.lev]
  have hcol : ∀ j < n_q, n_q * (order - 1) + j < order * n_q := by
    intro j hj
    obtain ⟨m, rfl⟩ : ∃ m, order = m + 1 := ⟨order - 1, by omega⟩
    rw [Nat.add_sub_cancel, Nat.add_mul, Nat.one_mul, Nat.mul_comm]; omega
  have hcol' : ∀ col < order * n_q, n_q * (order - 1) ≤ col → ∃ j < n_q, col = n_q * (order - 1) + j := by
    intro col h1 h2
    refine ⟨col - n_q * (order - 1), ?_, by omega⟩
    obtain ⟨m, rfl⟩ : ∃ m, order = m + 1 := ⟨order - 1, by omega⟩
    rw [Nat.add_sub_cancel] at h2 ⊢
    rw [Nat.add_mul, Nat.one_mul, Nat.mul_comm] at h1; omega
  have hoffle : ∀ c < n, nodeOff scheme + c < full.length := by
    intro c hc
    rw [hflen]
    unfold nodeOff
    split_ifs with a1 a2 a3 <;> simp_all <;> omega
  -- what the polynomials say at the node rows
  have hnode : ∀ c < n, arr full (nodeOff scheme + c) ∈ nodes := by
    intro c hc
    rw [hoff c hc]
    simp only [arr, List.getD_eq_getElem?_getD, List.getElem?_eq_getElem (hlen.symm ▸ hc : c < nodes.length),
      Option.getD_some]
    exact List.getElem_mem _
  have hscheme : ∀ v : Vars, (∀ i < n, ∀ col < order * n_q, v.xd (nodeOff scheme + i) col
      = 2 / (t1 - t0) * ∑ c ∈ range n, dMat n (arr nodes) (vSum n (arr nodes)) i c * v.x (nodeOff scheme + c) col) ↔
      ∃ p : ℕ → ℝ[X], ∀ col < order * n_q, (p col).degree < n ∧ ∀ c < n,
        v.x (nodeOff scheme + c) col = (p col).eval (tauToT (arr nodes c) t0 t1) ∧
        v.xd (nodeOff scheme + c) col = (derivative (p col)).eval (tauToT (arr nodes c) t0 t1) := by
    intro v
    constructor
    · intro h
      choose p hp using fun col => interp_time ht hd (fun c => v.x (nodeOff scheme + c) col)
      refine ⟨p, fun col hcol => ⟨(hp col).1, fun c hc => ⟨((hp col).2 c hc).symm, ?_⟩⟩⟩
      rw [h c hc col hcol, node_deriv ht hd (hp col).1 (fun c hc => ((hp col).2 c hc).symm) hc]
    · rintro ⟨p, hp⟩ i hi col hcol
      rw [((hp col hcol).2 i hi).2, node_deriv ht hd (hp col hcol).1 (fun c hc => ((hp col hcol).2 c hc).1) hi]
  have hfin : ∀ (x : ℝ) (f : (ℕ → ℝ) → ℝ), (∀ p : ℝ[X], p.degree < n → ∀ y : ℕ → ℝ,
      (∀ i < n, y i = p.eval (arr nodes i)) → f y = p.eval x) → ∀ p : ℝ[X], p.degree < n → ∀ y : ℕ → ℝ,
      (∀ i < n, y i = p.eval (tauToT (arr nodes i) t0 t1)) → f y = p.eval (tauToT x t0 t1) := by
    intro x f hf p hp y hy
    rw [hf (p.comp (toT t0 t1)) (comp_toT_degree t0 t1 hp) y (fun i hi => by rw [hy i hi, eval_comp, toT_eval]),
      eval_comp, toT_eval]
  have hrowcases : ∀ i < full.length, (∃ c < n, i = nodeOff scheme + c) ∨ (scheme ∈ gaussInv ∧ i = 0) ∨
      (scheme ∈ gaussLike ∧ i = full.length - 1) := by
    intro i hi
    by_cases a1 : scheme ∈ gaussLike
    · rw [hflen, if_pos (by simp [a1])] at hi
      by_cases hin : i < n
      · exact Or.inl ⟨i, hin, by simp [nodeOff, a1]⟩
      · exact Or.inr (Or.inr ⟨a1, by rw [hflen, if_pos (by simp [a1])]; omega⟩)
    · by_cases a2 : scheme ∈ gaussInv
      · rw [hflen, if_pos (by simp [a2])] at hi
        by_cases hin : i = 0
        · exact Or.inr (Or.inl ⟨a2, hin⟩)
        · exact Or.inl ⟨i - 1, by omega, by simp [nodeOff, a1, a2]; omega⟩
      · rw [hflen, if_neg (by simp [a1, a2])] at hi
        exact Or.inl ⟨i, hi, by simp [nodeOff, a1, a2]⟩
  -- degree of a derivative
  have hdd : ∀ p : ℝ[X], p.degree < n → (derivative p).degree < n := fun p hp => by
    simpa using iter_degree_lt 1 hp
  by_cases c2 : scheme ∈ gaussLike
  · obtain ⟨c1, hnot⟩ := hgl c2
    have hord2 : order ≤ 2 := by
      rcases hord with h | h
      · exact h
      · exact absurd (List.mem_append_left _ c2) h
    obtain ⟨n', nodes', f, g, e1, e2, e3, e4, e5⟩ := C25_x hs hord2 hN
    rw [k2] at e1; cases e1
    rw [k3] at e2; cases e2
    have hg := hfin 1 g (fun p hp y hy => (e5 p hp y hy).2)
    simp only [nodeConstraints, h2, k2, k4, hD, e4, c1, c2, lift, bind, Except.bind, pure, Except.pure, if_true, if_false,
      false_and]
    refine ⟨_, k1, trivial, k3, trivial, rfl, fun v => ?_⟩
    simp only [true_and]
    rw [hscheme, node_dyn hcl hsort hdyn, ← and_assoc]
    refine and_congr ⟨?_, ?_⟩ Iff.rfl
    · rintro ⟨⟨p, hp⟩, q1, q2⟩
      refine ⟨p, fun col hc => ⟨(hp col hc).1, fun i hi => ?_⟩⟩
      rcases hrowcases i hi with ⟨c, hcn, rfl⟩ | ⟨h, -⟩ | ⟨-, rfl⟩
      · rw [hoff c hcn]
        exact ⟨((hp col hc).2 c hcn).1, fun _ => ((hp col hc).2 c hcn).2⟩
      · exact absurd h c1
      · rw [hfl]
        refine ⟨?_, fun h => ?_⟩
        · rw [q1 col hc, hg (p col) (hp col hc).1 _ (fun i hi => ((hp col hc).2 i hi).1)]
        · rcases h with h | h
          · exact absurd h hnot
          · obtain ⟨j, hj, rfl⟩ := hcol' col hc h
            have := q2 j hj
            simp only [hlev] at this
            rw [this, hg (derivative (p _)) (hdd _ (hp _ hc).1) _ (fun i hi => ((hp _ hc).2 i hi).2)]
    · rintro ⟨p, hp⟩
      have hx : ∀ col < order * n_q, ∀ c < n, v.x (nodeOff scheme + c) col
          = (p col).eval (tauToT (arr nodes c) t0 t1) ∧ v.xd (nodeOff scheme + c) col
          = (derivative (p col)).eval (tauToT (arr nodes c) t0 t1) := by
        intro col hc c hcn
        obtain ⟨a1, a2⟩ := (hp col hc).2 _ (hoffle c hcn)
        have a2 := a2 (Or.inl (hnode c hcn))
        rw [hoff c hcn] at a1 a2
        exact ⟨a1, a2⟩
      have hlast : full.length - 1 < full.length := by rw [hflen]; omega
      refine ⟨⟨p, fun col hc => ⟨(hp col hc).1, hx col hc⟩⟩, fun col hc => ?_, fun j hj => ?_⟩
      · rw [hg (p col) (hp col hc).1 _ (fun i hi => (hx col hc i hi).1), ((hp col hc).2 _ hlast).1, hfl]
      · simp only [hlev]
        rw [hg (derivative (p _)) (hdd _ (hp _ (hcol j hj)).1) _ (fun i hi => (hx _ (hcol j hj) i hi).2),
          ((hp _ (hcol j hj)).2 _ hlast).2 (Or.inr (by omega)), hfl]
  · by_cases c1 : scheme ∈ gaussInv
    · obtain ⟨-, hnot⟩ := hgi c1
      have hord2 : order ≤ 2 := by
        rcases hord with h | h
        · exact h
        · exact absurd (List.mem_append_right _ c1) h
      obtain ⟨n', nodes', f, g, e1, e2, e3, e4, e5⟩ := C25_x hs hord2 hN
      rw [k2] at e1; cases e1
      rw [k3] at e2; cases e2
      have hg := hfin (-1) f (fun p hp y hy => (e5 p hp y hy).1)
      simp only [nodeConstraints, h2, k2, k4, hD, e3, c1, c2, lift, bind, Except.bind, pure, Except.pure, if_true,
        if_false, false_and]
      refine ⟨_, k1, trivial, k3, trivial, rfl, fun v => ?_⟩
      simp only [true_and]
      rw [hscheme, node_dyn hcl hsort hdyn, ← and_assoc]
      refine and_congr ⟨?_, ?_⟩ Iff.rfl
      · rintro ⟨⟨p, hp⟩, q1, q2⟩
        refine ⟨p, fun col hc => ⟨(hp col hc).1, fun i hi => ?_⟩⟩
        rcases hrowcases i hi with ⟨c, hcn, rfl⟩ | ⟨-, rfl⟩ | ⟨h, -⟩
        · rw [hoff c hcn]
          exact ⟨((hp col hc).2 c hcn).1, fun _ => ((hp col hc).2 c hcn).2⟩
        · rw [hf0]
          refine ⟨?_, fun h => ?_⟩
          · rw [q1 col hc, hg (p col) (hp col hc).1 _ (fun i hi => ((hp col hc).2 i hi).1)]
          · rcases h with h | h
            · exact absurd h hnot
            · obtain ⟨j, hj, rfl⟩ := hcol' col hc h
              have := q2 j hj
              simp only [hlev] at this
              rw [this, hg (derivative (p _)) (hdd _ (hp _ hc).1) _ (fun i hi => ((hp _ hc).2 i hi).2)]
        · exact absurd h c2
      · rintro ⟨p, hp⟩
        have hx : ∀ col < order * n_q, ∀ c < n, v.x (nodeOff scheme + c) col
            = (p col).eval (tauToT (arr nodes c) t0 t1) ∧ v.xd (nodeOff scheme + c) col
            = (derivative (p col)).eval (tauToT (arr nodes c) t0 t1) := by
          intro col hc c hcn
          obtain ⟨a1, a2⟩ := (hp col hc).2 _ (hoffle c hcn)
          have a2 := a2 (Or.inl (hnode c hcn))
          rw [hoff c hcn] at a1 a2
          exact ⟨a1, a2⟩
        have hfirst : 0 < full.length := by rw [hflen]; omega
        refine ⟨⟨p, fun col hc => ⟨(hp col hc).1, hx col hc⟩⟩, fun col hc => ?_, fun j hj => ?_⟩
        · rw [hg (p col) (hp col hc).1 _ (fun i hi => (hx col hc i hi).1), ((hp col hc).2 _ hfirst).1, hf0]
        · simp only [hlev]
          rw [hg (derivative (p _)) (hdd _ (hp _ (hcol j hj)).1) _ (fun i hi => (hx _ (hcol j hj) i hi).2),
            ((hp _ (hcol j hj)).2 _ hfirst).2 (Or.inr (by omega)), hf0]
    · simp only [nodeConstraints, h2, k2, k4, hD, c1, c2, lift, bind, Except.bind, pure, Except.pure, if_false, false_and]
      refine ⟨_, k1, trivial, k3, trivial, rfl, fun v => ?_⟩
      simp only [true_and]
      rw [hscheme, node_dyn hcl hsort hdyn]
      refine and_congr ⟨?_, ?_⟩ Iff.rfl
      · rintro ⟨p, hp⟩
        refine ⟨p, fun col hc => ⟨(hp col hc).1, fun i hi => ?_⟩⟩
        rcases hrowcases i hi with ⟨c, hcn, rfl⟩ | ⟨h, -⟩ | ⟨h, -⟩
        · rw [hoff c hcn]
          exact ⟨((hp col hc).2 c hcn).1, fun _ => ((hp col hc).2 c hcn).2⟩
        · exact absurd h c1
        · exact absurd h c2
      · rintro ⟨p, hp⟩
        refine ⟨p, fun col hc => ⟨(hp col hc).1, fun c hcn => ?_⟩⟩
        obtain ⟨a1, a2⟩ := (hp col hc).2 _ (hoffle c hcn)
        have a2 := a2 (Or.inl (hnode c hcn))
        rw [hoff c hcn] at a1 a2
        exact ⟨a1, a2⟩

example : "LGR_inv" ∈ implemented ∧ "LGR_inv" ∉ gauss2 ++ ["D2"] ∧ "LGR_inv" ∉ gaussLike ++ gaussInv ∧ minPoints "LGR_inv" ≤ 3 := by
  decide

/-- C73 for the schemes with a second order differentiation: `q`, `v` and `a` are samples of one polynomial and its first
two derivatives. -/
theorem C73_second {scheme : String} (h2 : scheme ∈ gauss2 ++ ["D2"]) {N : ℕ} (hN : minPoints scheme ≤ N) (F : Dyn)
    (n_q : ℕ) {t0 t1 : ℝ} (ht : t0 ≠ t1) :
    ∃ coll n full C, collPoints N scheme = .ok coll ∧ nColToNNodes scheme N = .ok n ∧ arrPoints N scheme = .ok full ∧
      nodeConstraints F scheme N 2 n_q t0 t1 = .ok C ∧
      ∀ v, C v ↔ IsTrajectory v 2 n_q n full t0 t1 ∧ Collocated F v full coll := by
  have hs : scheme ∈ implemented ∧ scheme ∉ gaussLike ∧ scheme ∉ gaussInv := by
    rw [gauss2_eq] at h2
    simp only [List.cons_append, List.nil_append, List.mem_cons, List.not_mem_nil, or_false] at h2
    rcases h2 with rfl | rfl | rfl | rfl | rfl <;> decide
  obtain ⟨hs, c2, c1⟩ := hs
  obtain ⟨coll, n, nodes, full, k1, k2, k3, k4, hlen, hd, hsort, hf0, hfl, hn1, hcl, hflen, hoff, hdyn, hgl, hgi⟩ :=
    node_rows hs hN
  have hD : matrixDBary n scheme = .ok (dMat n (arr nodes) (vSum n (arr nodes))) := by
    simp [matrixDBary, k3, hlen, bind, Except.bind, pure, Except.pure]
  have ho : nodeOff scheme = 0 := by simp [nodeOff, c1, c2]
  rw [if_neg (by simp [c1, c2]), add_zero] at hflen
  refine ⟨coll, n, full, ?_⟩
  simp only [nodeConstraints, h2, k2, k4, hD, c1, c2, ho, lift, bind, Except.bind, pure, Except.pure, if_true, if_false,
    ne_eq, not_true_eq_false, and_false]
  refine ⟨_, k1, trivial, trivial, rfl, fun v => ?_⟩
  simp only [true_and, zero_add]
  rw [node_dyn hcl hsort hdyn]
  refine and_congr ⟨?_, ?_⟩ Iff.rfl
  · rintro ⟨q1, q2⟩
    choose p hp using fun j => interp_time ht hd (fun c => v.lev 2 n_q 0 c j)
    refine ⟨p, fun j hj => ⟨(hp j).1, fun k hk i hi => ?_⟩⟩
    have hin : i < n := hflen ▸ hi
    have e0 := hoff i hin
    rw [ho, zero_add] at e0
    have d1 : ∀ i < n, v.lev 2 n_q 1 i j = (derivative (p j)).eval (tauToT (arr nodes i) t0 t1) := by
      intro i hi
      rw [q1 i hi j hj, node_deriv ht hd (hp j).1 (fun c hc => ((hp j).2 c hc).symm) hi]
    rw [e0]
    interval_cases k
    · exact ((hp j).2 i hin).symm
    · exact d1 i hin
    · rw [q2 i hin j hj]
      have := node_deriv ht hd (p := derivative (p j)) (by simpa using iter_degree_lt 1 (hp j).1)
        (y := fun c => v.lev 2 n_q 1 c j) d1 hin
      simpa using this
  · rintro ⟨Q, hQ⟩
    have hv : ∀ j < n_q, ∀ k ≤ 2, ∀ i < n, v.lev 2 n_q k i j = (derivative^[k] (Q j)).eval (tauToT (arr nodes i) t0 t1) := by
      intro j hj k hk i hi
      have e0 := hoff i hi
      rw [ho, zero_add] at e0
      rw [← e0]
      exact (hQ j hj).2 k hk i (hflen.symm ▸ hi)
    refine ⟨fun i hi j hj => ?_, fun i hi j hj => ?_⟩
    · rw [node_deriv ht hd (hQ j hj).1 (y := fun c => v.lev 2 n_q 0 c j) (fun c hc => hv j hj 0 (by omega) c hc) hi,
        hv j hj 1 (by omega) i hi]
      rfl
    · rw [node_deriv ht hd (p := derivative (Q j)) (by simpa using iter_degree_lt 1 (hQ j hj).1)
        (y := fun c => v.lev 2 n_q 1 c j) (fun c hc => hv j hj 1 (by omega) c hc) hi, hv j hj 2 (by omega) i hi]
      rfl

example : "D2" ∈ gauss2 ++ ["D2"] ∧ minPoints "D2" ≤ 4 := by decide

/-- C73: the second order schemes refuse other orders, and the Gauss schemes orders above 2. -/
theorem C73_errors (F : Dyn) (scheme : String) (N n_q : ℕ) (t0 t1 : ℝ) :
    (∀ order, scheme ∈ gauss2 ++ ["D2"] → order ≠ 2 →
      nodeConstraints F scheme N order n_q t0 t1 = .error .assertion) ∧
    (∀ order, 2 < order → scheme ∈ gaussLike ++ gaussInv → 1 ≤ N →
      nodeConstraints F scheme N order n_q t0 t1 = .error (.points .valueError)) := by
  refine ⟨fun order h1 h2 => by simp only [nodeConstraints]; rw [if_pos ⟨h1, h2⟩], fun order h1 h2 h3 => ?_⟩
  have hs : scheme ∈ implemented ∧ scheme ∉ gauss2 ++ ["D2"] ∧ minPoints scheme = 1 := by
    rw [gaussInv_eq] at h2
    simp only [gaussLike, List.cons_append, List.nil_append, List.mem_cons, List.not_mem_nil, or_false] at h2
    rcases h2 with rfl | rfl | rfl | rfl | rfl | rfl <;> decide
  obtain ⟨hs, hn2, hm⟩ := hs
  obtain ⟨coll, n, nodes, full, k1, k2, k3, k4, hlen, hd, hsort, hf0, hfl, hn1, hcl, hflen, hoff, hdyn, hgl, hgi⟩ :=
    node_rows hs (hm.symm ▸ h3)
  have hD : matrixDBary n scheme = .ok (dMat n (arr nodes) (vSum n (arr nodes))) := by
    simp [matrixDBary, k3, hlen, bind, Except.bind, pure, Except.pure]
  obtain ⟨e1, e2, -⟩ := C25_errors scheme n order
  by_cases c1 : scheme ∈ gaussInv
  · simp only [nodeConstraints, hn2, k2, k4, hD, e1 h1 hn1 c1, c1, lift, bind, Except.bind, pure, Except.pure, if_true,
      if_false, false_and]
  · have c2 : scheme ∈ gaussLike := by
      rcases List.mem_append.1 h2 with h | h
      · exact h
      · exact absurd h c1
    simp only [nodeConstraints, hn2, k2, k4, hD, e2 h1 hn1 c2, c1, c2, lift, bind, Except.bind, pure, Except.pure, if_true,
      if_false, false_and]

/-! ## C72 -/

/-- C72, the part that holds: in a feasible point of a bottom-up or top-down problem the last block of `x_d` is the
derivative of the last block of `x` at every row. Missing: the other blocks, see below. -/
theorem C72_partial {v : Vars} {order n_q deg : ℕ} (ho : 1 ≤ order) {taus : List ℝ} {t0 t1 : ℝ}
    (h : IsTrajectory v order n_q deg taus t0 t1) :
    ∀ j < n_q, ∃ p : ℝ[X], ∀ i < taus.length, v.x i (n_q * (order - 1) + j) = p.eval (tauToT (arr taus i) t0 t1) ∧
      v.xd i (n_q * (order - 1) + j) = (derivative p).eval (tauToT (arr taus i) t0 t1) := by
  obtain ⟨Q, hQ⟩ := h
  intro j hj
  refine ⟨derivative^[order - 1] (Q j), fun i hi => ⟨?_, ?_⟩⟩
  · rw [← (hQ j hj).2 (order - 1) (by omega) i hi, Vars.lev, if_pos (by omega)]
  · rw [← Function.iterate_succ_apply' (derivative (R := ℝ)), show (order - 1).succ = order by omega,
      ← (hQ j hj).2 order le_rfl i hi, Vars.lev, if_neg (by omega)]

/-- The restrictions of `q'' = u`: `x_d = (v, u)`. -/
def doubleIntegrator : Dyn := fun x xd u _ => [xd 0 - x 1, xd 1 - u 0]

/-- C72 is false of the bottom-up problems: with one degree of freedom, `q'' = u` and two LG points, an assignment in which
`q` and `v` are zero everywhere is feasible although the derivative of `q` at the start is given as 1. -/
theorem C72_refuted : ∃ C v, buConstraints doubleIntegrator "LG" 2 2 1 0 1 = .ok C ∧ C v ∧ (∀ i c, v.x i c = 0) ∧
    v.xd 0 0 = 1 := by
  obtain ⟨coll, full, C, h1, h2, h3, h4⟩ := C30_feasible (scheme := "LG") (by decide) (order := 2) (by norm_num) (N := 2)
    (by decide) (Or.inl le_rfl) doubleIntegrator 1 (t0 := 0) (t1 := 1) (by norm_num)
  refine ⟨C, ⟨fun _ _ => 0, fun i c => if i = 0 ∧ c = 0 then 1 else 0, fun _ _ => 0, fun _ _ => 0⟩, h3, ?_,
    fun _ _ => rfl, by simp⟩
  rw [h4]
  refine ⟨⟨fun _ => 0, fun j hj => ⟨by rw [degree_zero]; exact WithBot.bot_lt_coe _, fun k hk i hi => ?_⟩⟩, fun m hm => ?_⟩
  · obtain rfl : j = 0 := by omega
    simp [Vars.lev]
  · obtain ⟨c, n, f, s, k1, k2, k3, k4, hfull, -, k6, -, -, hlen, -, hsl, -⟩ :=
      constr_length (scheme := "LG") (by decide) (order := 2) (by norm_num) (N := 2) (by decide)
    rw [h1] at k1; cases k1
    rw [h2] at k4; cases k4
    obtain ⟨r1, r2⟩ := rows_spec hsl hm
    refine ⟨_, r1, r2, ?_⟩
    have hne : (dynRows full.length s).getD m 0 ≠ 0 := by
      intro h
      rw [h] at r2
      have e0 : arr full 0 = -1 := by rw [hfull]; rfl
      obtain ⟨L, l1, l2, l3, l4, l5, -⟩ := C21_points (scheme := "LG") (by decide) (order := 2) (by norm_num) (N := 2)
        (by decide)
      rw [k2] at l1; cases l1
      have hmem : arr coll m ∈ coll := by
        simp only [arr, List.getD_eq_getElem?_getD, List.getElem?_eq_getElem hm, Option.getD_some]
        exact List.getElem_mem _
      rw [← r2, e0] at hmem
      exact absurd (l5.1 hmem) (by decide)
    obtain ⟨row, hrow⟩ : ∃ row, row = (dynRows full.length s).getD m 0 := ⟨_, rfl⟩
    rw [← hrow] at hne ⊢
    simp [zero, doubleIntegrator, hne]

/-! ## C74 -/

/-- C74, the part that holds: with a second order scheme, bottom-up or top-down, the `v` array of a feasible point is the
derivative of the `q` array at every row. -/
theorem C74_partial {v : Vars} {n_q deg : ℕ} {taus : List ℝ} {t0 t1 : ℝ} (h : IsTrajectory v 2 n_q deg taus t0 t1) :
    ∀ j < n_q, ∃ q : ℝ[X], q.degree < deg ∧ ∀ i < taus.length, v.x i j = q.eval (tauToT (arr taus i) t0 t1) ∧
      v.x i (n_q + j) = (derivative q).eval (tauToT (arr taus i) t0 t1) := by
  obtain ⟨Q, hQ⟩ := h
  intro j hj
  refine ⟨Q j, (hQ j hj).1, fun i hi => ⟨?_, ?_⟩⟩
  · have := (hQ j hj).2 0 (by omega) i hi
    simpa [Vars.lev] using this
  · have := (hQ j hj).2 1 (by omega) i hi
    simpa [Vars.lev] using this

/-- C74 is false of the first order node based schemes: with `q'' = u` and one LG point on [-1, 1] the assignment `q = 0`,
`v = t`, `u = 1` is feasible. -/
theorem C74_refuted : ∃ full C v, arrPoints 1 "LG" = .ok full ∧ nodeConstraints doubleIntegrator "LG" 1 2 1 (-1) 1 = .ok C ∧
    C v ∧ ∀ i < full.length, v.x i 0 = 0 ∧ v.x i 1 = tauToT (arr full i) (-1) 1 := by
  obtain ⟨coll, n, nodes, full, C, h1, h2, h3, h4, h5, h6⟩ := C73_feasible (scheme := "LG") (by decide) (by decide)
    (order := 2) (by norm_num) (Or.inl le_rfl) (N := 1) (by decide) doubleIntegrator 1 (t0 := -1) (t1 := 1) (by norm_num)
  have hcoll : coll = [0] := by
    have hr : realRoots (legendre 1) = [(0 : ℝ)] := by
      rw [realRoots_eq (m := 1) (s := fun _ => (0 : ℝ)) (by simp [legendre]) (by simp [legendre]) (fun i j _ _ => by omega)
        (fun i _ => by simp [legendre])]
      rfl
    simp [collPoints, LG, hr] at h1
    exact h1.symm
  refine ⟨full, C, ⟨fun i c => if c = 0 then 0 else tauToT (arr full i) (-1) 1, fun _ c => if c = 0 then 0 else 1,
    fun _ _ => 1, fun _ _ => 0⟩, h4, h5, ?_, fun i _ => by simp⟩
  rw [h6]
  have hn : n = 2 := by simp [nColToNNodes, gaussLike] at h2; exact h2.symm
  subst hn
  refine ⟨⟨fun c => if c = 0 then 0 else X, fun col hcol => ⟨?_, fun i hi => ⟨?_, fun _ => ?_⟩⟩⟩, fun m hm => ?_⟩
  · dsimp only
    split_ifs
    · rw [degree_zero]; exact WithBot.bot_lt_coe _
    · rw [degree_X]; norm_num
  · simp only; split_ifs <;> simp
  · simp only; split_ifs <;> simp
  · subst hcoll
    obtain rfl : m = 0 := by simpa using hm
    obtain ⟨coll', n', nodes', full', a1, a2, a3, a4, -, -, -, -, -, -, -, -, -, a5, -⟩ :=
      node_rows (scheme := "LG") (by decide) (N := 1) (by decide)
    rw [h1] at a1; cases a1
    rw [h4] at a4; cases a4
    obtain ⟨b1, b2⟩ := a5 0 (by omega)
    refine ⟨_, b1, b2, ?_⟩
    have b3 : arr full (i0 "LG" + 0) = 0 := b2
    obtain ⟨row, hrow⟩ : ∃ row, row = i0 "LG" + 0 := ⟨_, rfl⟩
    rw [← hrow] at b3 ⊢
    simp [zero, doubleIntegrator, tauToT, b3]

end Chords.Props
