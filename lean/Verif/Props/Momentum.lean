import Verif.Props.TimeUnit

/-! # C193: the momentum changes by the impulse of the controls -/

namespace Chords.Momentum
open Finset Polynomial Chords.Points Chords.Bary Chords.BuTd Chords.Equi Chords.PhScheme Chords.Problem Chords.Spec Chords.Props Chords.TimeScale Chords.Units Chords.Gauss

/-- A linear law of the system: whenever its equations hold, the combination with coefficients `c` of the highest derivatives is the combination with
coefficients `b` of the controls, plus `d`. With masses as `c` this is the law of the total momentum. -/
def LinearLaw (F : Dyn) (order n_q n_u : ℕ) (c b : ℕ → ℝ) (d : ℝ) : Prop :=
  ∀ x xd u lam, zero (F x xd u lam) → ∑ j ∈ range n_q, c j * xd (n_q * (order - 1) + j) = ∑ m ∈ range n_u, b m * u m + d

/-- The polynomials of degree below the number of collocation points through the controls. -/
def ControlPoly (v : Vars) (N n_u : ℕ) (coll : List ℝ) (t0 t1 : ℝ) (U : ℕ → ℝ[X]) : Prop :=
  ∀ m < n_u, (U m).degree < N ∧ ∀ i < N, (U m).eval (tauToT (arr coll i) t0 t1) = v.u i m

/-- Between any two instants the momentum of the velocities `V` changes by the integral of the controls `U`. -/
def Balance (n_q n_u : ℕ) (c b : ℕ → ℝ) (d : ℝ) (V U : ℕ → ℝ[X]) : Prop :=
  ∀ s t, ∑ j ∈ range n_q, c j * ((V j).eval t - (V j).eval s) = ∫ r in s..t, (∑ m ∈ range n_u, b m * (U m).eval r + d)

section
variable {F : Dyn} {order n_q n_u N : ℕ} {c b : ℕ → ℝ} {d t0 t1 : ℝ} {v : Vars} {full coll : List ℝ} {V U : ℕ → ℝ[X]}

theorem tauToT_inj (ht : t0 ≠ t1) {x y : ℝ} (h : tauToT x t0 t1 = tauToT y t0 t1) : x = y := by
  unfold tauToT at h
  have : t1 - t0 ≠ 0 := sub_ne_zero.2 ht.symm
  have h' : (t1 - t0) * (x - y) = 0 := by linarith
  rcases mul_eq_zero.1 h' with h | h
  · exact absurd h this
  · linarith

/-- A law that holds at all collocation points holds at all instants. -/
theorem law_core (hN : 1 ≤ N) (ht : t0 ≠ t1) (hd : Distinct N (arr coll)) (hV : ∀ j < n_q, (derivative (V j)).degree < N) (hU : ∀ m < n_u, (U m).degree < N)
    (hval : ∀ i < N, ∑ j ∈ range n_q, c j * (derivative (V j)).eval (tauToT (arr coll i) t0 t1) = ∑ m ∈ range n_u, b m * (U m).eval (tauToT (arr coll i) t0 t1) + d) :
    Balance n_q n_u c b d V U := by
  have key : ∑ j ∈ range n_q, C (c j) * derivative (V j) = ∑ m ∈ range n_u, C (b m) * U m + C d := by
    have hcard : ((range N).card : WithBot ℕ) = N := by simp
    have deg : ∀ (n : ℕ) (a : ℕ → ℝ) (p : ℕ → ℝ[X]), (∀ j < n, (p j).degree < N) → (∑ j ∈ range n, C (a j) * p j).degree < N := by
      intro n a p hp
      refine lt_of_le_of_lt (degree_sum_le _ _) ?_
      rw [Finset.sup_lt_iff (by exact_mod_cast WithBot.bot_lt_coe N)]
      intro j hj
      rw [C_mul']
      exact lt_of_le_of_lt (degree_smul_le _ _) (hp j (mem_range.1 hj))
    refine Polynomial.eq_of_degrees_lt_of_eval_index_eq (range N) (v := fun m => tauToT (arr coll m) t0 t1) ?_ ?_ ?_ ?_
    · intro i hi k hk e
      exact hd i (mem_range.1 hi) k (mem_range.1 hk) (tauToT_inj ht e)
    · rw [hcard]
      exact deg _ _ _ hV
    · rw [hcard]
      refine lt_of_le_of_lt (degree_add_le _ _) (max_lt (deg _ _ _ hU) ?_)
      exact lt_of_le_of_lt degree_C_le (by exact_mod_cast hN)
    · intro m hm
      simp only [eval_finsetSum, eval_mul, eval_C, eval_add]
      exact hval m (mem_range.1 hm)
  intro s t
  have h1 : ∀ r, HasDerivAt (fun r => (∑ j ∈ range n_q, C (c j) * V j).eval r) (∑ m ∈ range n_u, b m * (U m).eval r + d) r := by
    intro r
    have := (∑ j ∈ range n_q, C (c j) * V j).hasDerivAt r
    rw [derivative_sum, sum_congr rfl fun j _ => derivative_C_mul (c j) (V j), key] at this
    simpa [eval_finsetSum] using this
  rw [intervalIntegral.integral_eq_sub_of_hasDerivAt (fun r _ => h1 r)]
  · simp only [eval_finsetSum, eval_mul, eval_C]
    rw [← sum_sub_distrib]
    exact sum_congr rfl fun j _ => by ring
  · refine Continuous.intervalIntegrable ?_ _ _
    exact (continuous_finset_sum _ fun m _ => continuous_const.mul (U m).continuous).add continuous_const

theorem law_everywhere (hN : 1 ≤ N) (ht : t0 ≠ t1) (hl : coll.length = N) (hd : Distinct N (arr coll)) (law : LinearLaw F order n_q n_u c b d)
    (hV : ∀ j < n_q, (derivative (V j)).degree < N)
    (hx : ∀ j < n_q, ∀ i < full.length, v.xd i (n_q * (order - 1) + j) = (derivative (V j)).eval (tauToT (arr full i) t0 t1))
    (hc : Collocated F v full coll) (hU : ControlPoly v N n_u coll t0 t1 U) : Balance n_q n_u c b d V U := by
  refine law_core hN ht hd hV (fun m hm => (hU m hm).1) fun m hm => ?_
  obtain ⟨i, hi, e, hz⟩ := hc m (by omega)
  have := law _ _ _ _ hz
  rw [sum_congr rfl fun j hj => by rw [hx j (mem_range.1 hj) i hi], e] at this
  rw [this]
  congr 1
  exact sum_congr rfl fun k hk => by rw [(hU k (mem_range.1 hk)).2 m hm]

theorem degree_iterate {Q : ℝ[X]} {k N : ℕ} (hN : 1 ≤ N) (h : Q.degree < (k + N : ℕ)) : (derivative^[k] Q).degree < N := by
  have h1 : Q.natDegree < k + N := by
    rcases eq_or_ne Q 0 with rfl | h0
    · simp; omega
    · rw [degree_eq_natDegree h0] at h
      exact_mod_cast h
  have := natDegree_iterate_derivative Q k
  exact lt_of_le_of_lt degree_le_natDegree (by exact_mod_cast (by omega : (derivative^[k] Q).natDegree < N))

theorem traj_law (hN : 1 ≤ N) (ho : 1 ≤ order) (ht : t0 ≠ t1) (hl : coll.length = N) (hd : Distinct N (arr coll)) (law : LinearLaw F order n_q n_u c b d) {deg : ℕ}
    (hdeg : deg ≤ order + N) (h : IsTrajectory v order n_q deg full t0 t1) (hc : Collocated F v full coll) :
    ∃ Q : ℕ → ℝ[X], (∀ j < n_q, (Q j).degree < deg ∧ ∀ k ≤ order, ∀ i < full.length, v.lev order n_q k i j = (derivative^[k] (Q j)).eval (tauToT (arr full i) t0 t1)) ∧
      ∀ U, ControlPoly v N n_u coll t0 t1 U → Balance n_q n_u c b d (fun j => derivative^[order - 1] (Q j)) U := by
  obtain ⟨Q, hQ⟩ := h
  have e : ∀ j, derivative (derivative^[order - 1] (Q j)) = derivative^[order] (Q j) := fun j => by
    rw [← Function.iterate_succ_apply' derivative, Nat.succ_eq_add_one, Nat.sub_add_cancel ho]
  refine ⟨Q, hQ, fun U hU => law_everywhere hN ht hl hd law (fun j hj => ?_) (fun j hj i hi => ?_) hc hU⟩
  · rw [e]
    exact degree_iterate hN ((hQ j hj).1.trans_le (by exact_mod_cast hdeg))
  · rw [e, ← (hQ j hj).2 order le_rfl i hi]
    simp [Vars.lev]

theorem ntraj_law (hN : 1 ≤ N) (ho : 1 ≤ order) (ht : t0 ≠ t1) (hl : coll.length = N) (hd : Distinct N (arr coll)) (law : LinearLaw F order n_q n_u c b d) {n : ℕ} {nodes : List ℝ}
    (hn : n ≤ N + 1) (h : IsNodeTrajectory v order n_q n nodes full t0 t1) (hc : Collocated F v full coll) :
    ∃ p : ℕ → ℝ[X], (∀ col < order * n_q, (p col).degree < n ∧ ∀ i < full.length, v.x i col = (p col).eval (tauToT (arr full i) t0 t1)) ∧
      ∀ U, ControlPoly v N n_u coll t0 t1 U → Balance n_q n_u c b d (fun j => p (n_q * (order - 1) + j)) U := by
  obtain ⟨p, hp⟩ := h
  have hj : ∀ j < n_q, n_q * (order - 1) + j < order * n_q := by
    intro j hj
    obtain ⟨k, rfl⟩ : ∃ k, order = k + 1 := ⟨order - 1, by omega⟩
    rw [Nat.add_sub_cancel, Nat.add_mul, Nat.mul_comm]
    omega
  refine ⟨p, fun col hcol => ⟨(hp col hcol).1, fun i hi => ((hp col hcol).2 i hi).1⟩, fun U hU => law_everywhere hN ht hl hd law (fun j h => ?_) (fun j h i hi => ?_) hc hU⟩
  · exact degree_iterate (k := 1) hN ((hp _ (hj j h)).1.trans_le (by exact_mod_cast (by omega)))
  · exact ((hp _ (hj j h)).2 i hi).2 (.inr (by omega))
end

/-- There are such polynomials for all controls. -/
theorem controlPoly_exists {N : ℕ} {coll : List ℝ} (hd : Distinct N (arr coll)) {t0 t1 : ℝ} (ht : t0 ≠ t1) (v : Vars) (n_u : ℕ) : ∃ U, ControlPoly v N n_u coll t0 t1 U := by
  have hi : Set.InjOn (fun i => tauToT (arr coll i) t0 t1) (range N : Set ℕ) := fun i hi k hk e =>
    hd i (mem_range.1 hi) k (mem_range.1 hk) (tauToT_inj ht e)
  refine ⟨fun m => Lagrange.interpolate (range N) (fun i => tauToT (arr coll i) t0 t1) (fun i => v.u i m), fun m _ => ⟨?_, fun i h => ?_⟩⟩
  · simpa using Lagrange.degree_interpolate_lt (fun i => v.u i m) hi
  · exact Lagrange.eval_interpolate_at_node (fun i => v.u i m) hi (mem_range.2 h)

/-! ## Problems of one interval -/

section
variable {order n_q n_u N : ℕ} {F : Dyn} {c b : ℕ → ℝ} {d t0 t1 : ℝ} {S : String}

/-- C193, bottom-up problems. -/
theorem C193_bu (hs : S ∈ buImplemented) (ho : 1 ≤ order) (hN : minPoints S ≤ N) (h1 : 2 ≤ N ∨ S ∉ gaussLike) (law : LinearLaw F order n_q n_u c b d) (ht : t0 ≠ t1) :
    ∃ coll full P, buCollPoints N S order = .ok coll ∧ buArrPoints N S order = .ok full ∧ buConstraints F S N order n_q t0 t1 = .ok P ∧ ∀ v, P v →
      ∃ Q : ℕ → ℝ[X], (∀ j < n_q, (Q j).degree < (order + N : ℕ) ∧ ∀ k ≤ order, ∀ i < full.length,
          v.lev order n_q k i j = (derivative^[k] (Q j)).eval (tauToT (arr full i) t0 t1)) ∧
        ∀ U, ControlPoly v N n_u coll t0 t1 U → Balance n_q n_u c b d (fun j => derivative^[order - 1] (Q j)) U := by
  obtain ⟨coll, full, P, k1, k2, hP, hv⟩ := C30_feasible hs ho hN h1 F n_q ht
  obtain ⟨_, _, _, _, k1', -, -, -, -, -, -, -, -, hl, hd, -⟩ := constr_length hs ho hN
  obtain rfl := Except.ok.inj (k1.symm.trans k1')
  refine ⟨coll, full, P, k1, k2, hP, fun v h => ?_⟩
  exact traj_law ((minPoints_pos S).trans hN) ho ht hl hd law le_rfl ((hv v).1 h).1 ((hv v).1 h).2

/-- C193, top-down problems. -/
theorem C193_td (hs : S ∈ buImplemented) (ho : 1 ≤ order) (hN : minPoints S ≤ N) (law : LinearLaw F order n_q n_u c b d) (ht : t0 ≠ t1) :
    ∃ coll full P, buCollPoints N S order = .ok coll ∧ tdConstructionPoints N S order = .ok full ∧ tdConstraints F S N order n_q t0 t1 = .ok P ∧ ∀ v q, P v q →
      ∃ Q : ℕ → ℝ[X], (∀ j < n_q, (Q j).degree < (order + N : ℕ) ∧ ∀ k ≤ order, ∀ i < full.length,
          v.lev order n_q k i j = (derivative^[k] (Q j)).eval (tauToT (arr full i) t0 t1)) ∧
        ∀ U, ControlPoly v N n_u coll t0 t1 U → Balance n_q n_u c b d (fun j => derivative^[order - 1] (Q j)) U := by
  obtain ⟨coll, full, _, P, k1, k2, -, hP, hv, -⟩ := C31_feasible hs ho hN F n_q ht
  obtain ⟨_, _, _, _, k1', -, -, -, -, -, -, -, -, hl, hd, -⟩ := constr_length hs ho hN
  obtain rfl := Except.ok.inj (k1.symm.trans k1')
  refine ⟨coll, full, P, k1, k2, hP, fun v q h => ?_⟩
  have h := (hv v).1 ⟨q, h⟩
  exact traj_law ((minPoints_pos S).trans hN) ho ht hl hd law le_rfl h.1 h.2

private theorem nodes_le {n : ℕ} (h2 : S ∉ gauss2 ++ ["D2"]) (h : nColToNNodes S N = .ok n) : n ≤ N + 1 := by
  simp only [List.mem_append, not_or] at h2
  unfold nColToNNodes at h
  split_ifs at h <;> first | (exact absurd ‹_› h2.1) | (have := Except.ok.inj h; omega) | skip

/-- C193, node based problems: the velocities are the last columns of `x`. -/
theorem C193_node (hs : S ∈ implemented) (h2 : S ∉ gauss2 ++ ["D2"]) (ho : 1 ≤ order) (hord : order ≤ 2 ∨ S ∉ gaussLike ++ gaussInv) (hN : minPoints S ≤ N)
    (law : LinearLaw F order n_q n_u c b d) (ht : t0 ≠ t1) :
    ∃ coll full P, collPoints N S = .ok coll ∧ arrPoints N S = .ok full ∧ nodeConstraints F S N order n_q t0 t1 = .ok P ∧ ∀ v, P v →
      ∃ p : ℕ → ℝ[X], (∀ col < order * n_q, (p col).degree < (N + 1 : ℕ) ∧ ∀ i < full.length, v.x i col = (p col).eval (tauToT (arr full i) t0 t1)) ∧
        ∀ U, ControlPoly v N n_u coll t0 t1 U → Balance n_q n_u c b d (fun j => p (n_q * (order - 1) + j)) U := by
  obtain ⟨coll, n, nodes, full, P, k1, k2, k3, k4, hP, hv⟩ := C73_feasible hs h2 ho hord hN F n_q ht
  obtain ⟨_, m1, hl, hd⟩ := Gauss.coll_distinct hs (order := 2) (by norm_num) hN
  obtain rfl := Except.ok.inj (k1.symm.trans m1)
  refine ⟨coll, full, P, k1, k4, hP, fun v h => ?_⟩
  obtain ⟨p, hp, hb⟩ := ntraj_law ((minPoints_pos S).trans hN) ho ht hl hd law (nodes_le h2 k2) ((hv v).1 h).1 ((hv v).1 h).2
  exact ⟨p, fun col hcol => ⟨(hp col hcol).1.trans_le (by exact_mod_cast nodes_le h2 k2), (hp col hcol).2⟩, hb⟩

/-- C193, node based problems with the schemes that differentiate twice. -/
theorem C193_node_second (h2 : S ∈ gauss2 ++ ["D2"]) (hN : minPoints S ≤ N) (law : LinearLaw F 2 n_q n_u c b d) (ht : t0 ≠ t1) :
    ∃ coll full P, collPoints N S = .ok coll ∧ arrPoints N S = .ok full ∧ nodeConstraints F S N 2 n_q t0 t1 = .ok P ∧ ∀ v, P v →
      ∃ Q : ℕ → ℝ[X], (∀ j < n_q, (Q j).degree < (2 + N : ℕ) ∧ ∀ k ≤ 2, ∀ i < full.length,
          v.lev 2 n_q k i j = (derivative^[k] (Q j)).eval (tauToT (arr full i) t0 t1)) ∧
        ∀ U, ControlPoly v N n_u coll t0 t1 U → Balance n_q n_u c b d (fun j => derivative (Q j)) U := by
  obtain ⟨coll, n, full, P, k1, k2, k3, hP, hv⟩ := C73_second h2 hN F n_q ht
  have hs : S ∈ implemented ∧ n ≤ 2 + N := by
    rw [gauss2_eq] at h2
    simp only [List.cons_append, List.nil_append, List.mem_cons, List.not_mem_nil, or_false] at h2
    rcases h2 with rfl | rfl | rfl | rfl | rfl <;> refine ⟨by decide, ?_⟩ <;>
      simp [nColToNNodes, gaussLike, gaussInv_eq, gauss2_eq, radauLike, radauInv_eq, lobatoLike, otherSchemes] at k2 <;> omega
  obtain ⟨_, m1, hl, hd⟩ := Gauss.coll_distinct hs.1 (order := 2) (by norm_num) hN
  obtain rfl := Except.ok.inj (k1.symm.trans m1)
  refine ⟨coll, full, P, k1, k3, hP, fun v h => ?_⟩
  obtain ⟨Q, hQ, hb⟩ := traj_law ((minPoints_pos S).trans hN) (by norm_num) ht hl hd law hs.2 ((hv v).1 h).1 ((hv v).1 h).2
  exact ⟨Q, fun j hj => ⟨(hQ j hj).1.trans_le (by exact_mod_cast hs.2), (hQ j hj).2⟩, hb⟩
end

/-! ## Equispaced problems -/

/-- The mean over a step of the line, or of the parabola, through the values. -/
noncomputable def mean (s : Shape) (u uc un : ℝ) : ℝ :=
  match s with
  | .line => (u + un) / 2
  | .parab θ => (3 * θ - 1) / (6 * θ) * u + 1 / (6 * θ * (1 - θ)) * uc + (2 - 3 * θ) / (6 * (1 - θ)) * un

theorem mean_sum (s : Shape) (n : ℕ) (a u uc un : ℕ → ℝ) : mean s (∑ j ∈ range n, a j * u j) (∑ j ∈ range n, a j * uc j) (∑ j ∈ range n, a j * un j) =
    ∑ j ∈ range n, a j * mean s (u j) (uc j) (un j) := by
  cases s with
  | line =>
    simp only [mean]
    rw [← sum_add_distrib, sum_div]
    exact sum_congr rfl fun j _ => by ring
  | parab θ =>
    simp only [mean]
    rw [mul_sum, mul_sum, mul_sum, ← sum_add_distrib, ← sum_add_distrib]
    exact sum_congr rfl fun j _ => by ring

theorem mean_add {s : Shape} (hs : ∀ θ, s = .parab θ → θ ≠ 0 ∧ θ ≠ 1) (u uc un d : ℝ) : mean s (u + d) (uc + d) (un + d) = mean s u uc un + d := by
  cases s with
  | line => simp only [mean]; ring
  | parab θ =>
    obtain ⟨h0, h1⟩ := hs θ rfl
    have h1' : 1 - θ ≠ 0 := sub_ne_zero.2 h1.symm
    simp only [mean]
    field_simp
    ring

/-- Over a step the last derivative below the highest one changes by the mean of the highest one. -/
theorem reached_mean {s : Shape} (hs : ∀ θ, s = .parab θ → θ ≠ 0 ∧ θ ≠ 1) {M : ℕ} {x xn xc : ℕ → ℝ} {a an ac h : ℝ} (hr : Reached s (M + 1) x xn xc a an ac h) (hh : h ≠ 0) :
    xn M - x M = h * mean s a ac an := by
  have key : ∀ {f g : ℝ → ℝ} {p q r : ℝ}, (∀ t, HasDerivAt f (g t) t) → (∀ t, g t = p + q * t + r * t ^ 2) → f h - f 0 = h * (p + q * h / 2 + r * h ^ 2 / 3) := by
    intro f g p q r hf hg
    have h1 : ∀ t, HasDerivAt (fun t => f t - (p * t + q * t ^ 2 / 2 + r * t ^ 3 / 3)) 0 t := by
      intro t
      have h2 : HasDerivAt (fun t : ℝ => p * t + q * t ^ 2 / 2 + r * t ^ 3 / 3) (p + q * t + r * t ^ 2) t := by
        have := ((((hasDerivAt_id t).const_mul p).add ((((hasDerivAt_id t).pow 2).const_mul q).div_const 2))).add ((((hasDerivAt_id t).pow 3).const_mul r).div_const 3)
        refine this.congr_deriv ?_
        simp only [id]
        push_cast
        ring
      exact ((hf t).sub h2).congr_deriv (by rw [hg]; ring)
    have := is_const_of_deriv_eq_zero (fun t => (h1 t).differentiableAt) (fun t => (h1 t).deriv) h 0
    linarith
  obtain ⟨c, c1, c2, -⟩ := hr
  rw [← c2 M (by omega)]
  cases s with
  | line =>
    obtain ⟨b, hb⟩ := c1.top_line
    have e := c1.top_end
    rw [hb] at e
    simp only [smul_eq_mul] at e hb
    rw [← c1.start M (by omega), key (c1.motion M) (p := a) (q := b) (r := 0) (fun t => by rw [hb]; ring)]
    simp only [mean]
    rw [← e]
    ring
  | parab θ =>
    obtain ⟨h0, h1⟩ := hs θ rfl
    have h1' : 1 - θ ≠ 0 := sub_ne_zero.2 h1.symm
    obtain ⟨b, d, hb⟩ := c1.top_parabola
    have e := c1.top_end
    have e' := c1.top_mid
    rw [hb] at e e'
    simp only [smul_eq_mul] at e e' hb
    rw [← c1.start M (by omega), key (c1.motion M) (p := a) (q := b) (r := d) (fun t => by rw [hb]; ring)]
    simp only [mean]
    rw [← e, ← e']
    field_simp
    ring

section
variable {scheme : String} {s : Shape} {order N n_q n_u : ℕ} {t0 t1 : ℝ} {F : Dyn} {c b : ℕ → ℝ} {d : ℝ}

/-- The schemes of equispaced problems, with the line or the parabola that they use. -/
def UsesShape (order : ℕ) (scheme : String) (s : Shape) : Prop :=
  SchemeIs (some order) scheme s order ∨ scheme = "trapz" ∧ s = .line ∨ (scheme = "hs" ∨ scheme = "hs_parab") ∧ s = .parab (1 / 2) ∨
    order = 2 ∧ scheme = "hsj_parab_mod" ∧ s = .parab (2 / 5)

theorem UsesShape.fraction (h : UsesShape order scheme s) (θ : ℝ) (e : s = .parab θ) : θ ≠ 0 ∧ θ ≠ 1 := by
  subst e
  rcases h with h | ⟨-, h⟩ | ⟨-, h⟩ | ⟨-, -, h⟩
  · cases h <;> norm_num
  · cases h
  · cases h; norm_num
  · cases h; norm_num

/-- C193, equispaced problems: over each step the momentum changes by the length of the step times the mean of the controls, on the line or the parabola of the scheme. -/
theorem C193_equispaced (hs : UsesShape order scheme s) (ho : 1 ≤ order) (hN : 0 < N) (law : LinearLaw F order n_q n_u c b d) (ht : t0 ≠ t1) :
    ∃ P, equiConstraints F scheme N order n_q n_u t0 t1 = .ok P ∧ ∀ v w, P v w → ∀ i < N,
      ∑ j ∈ range n_q, c j * (v.lev order n_q (order - 1) (i + 1) j - v.lev order n_q (order - 1) i j) =
        (t1 - t0) / N * (∑ m ∈ range n_u, b m * mean s (v.u i m) (w.u i m) (v.u (i + 1) m) + d) := by
  have hh : (t1 - t0) / N ≠ 0 := div_ne_zero (sub_ne_zero.2 ht.symm) (Nat.cast_ne_zero.2 hN.ne')
  have hf := hs.fraction
  have lev : ∀ (v : Vars) i, zero (F (v.x i) (v.xd i) (v.u i) (v.lam i)) → ∑ j ∈ range n_q, c j * v.lev order n_q order i j = ∑ m ∈ range n_u, b m * v.u i m + d := by
    intro v i h
    rw [← law _ _ _ _ h]
    exact sum_congr rfl fun j _ => by simp [Vars.lev]
  have fin : ∀ (v w : Vars) i, i < N → (∀ j < n_q, v.lev order n_q (order - 1) (i + 1) j - v.lev order n_q (order - 1) i j =
        (t1 - t0) / N * mean s (v.lev order n_q order i j) (w.lev order n_q order i j) (v.lev order n_q order (i + 1) j)) →
      (∀ i ≤ N, zero (F (v.x i) (v.xd i) (v.u i) (v.lam i))) → (s ≠ .line → ∀ i < N, zero (F (w.x i) (w.xd i) (w.u i) (w.lam i))) →
      ∑ j ∈ range n_q, c j * (v.lev order n_q (order - 1) (i + 1) j - v.lev order n_q (order - 1) i j) =
        (t1 - t0) / N * (∑ m ∈ range n_u, b m * mean s (v.u i m) (w.u i m) (v.u (i + 1) m) + d) := by
    intro v w i hi h1 h2 h3
    rw [← mean_sum, ← mean_add hf, ← lev v i (h2 i hi.le), ← lev v (i + 1) (h2 _ hi)]
    have e : mean s (∑ j ∈ range n_q, c j * v.lev order n_q order i j) (∑ m ∈ range n_u, b m * w.u i m + d) (∑ j ∈ range n_q, c j * v.lev order n_q order (i + 1) j) =
        mean s (∑ j ∈ range n_q, c j * v.lev order n_q order i j) (∑ j ∈ range n_q, c j * w.lev order n_q order i j) (∑ j ∈ range n_q, c j * v.lev order n_q order (i + 1) j) := by
      cases s with
      | line => rfl
      | parab θ => rw [lev w i (h3 (by simp) i hi)]
    rw [e, mean_sum, mul_sum]
    exact sum_congr rfl fun j hj => by rw [h1 j (mem_range.1 hj)]; ring
  have mot : ∀ {scheme : String}, SchemeIs (some order) scheme s order → ∃ P, equiConstraints F scheme N order n_q n_u t0 t1 = .ok P ∧ ∀ v w, P v w → ∀ i < N,
      ∑ j ∈ range n_q, c j * (v.lev order n_q (order - 1) (i + 1) j - v.lev order n_q (order - 1) i j) =
        (t1 - t0) / N * (∑ m ∈ range n_u, b m * mean s (v.u i m) (w.u i m) (v.u (i + 1) m) + d) := by
    intro scheme hs
    obtain ⟨P, hP, hv⟩ := C91_motion F hs N n_q n_u hN ht
    refine ⟨P, hP, fun v w h i hi => ?_⟩
    obtain ⟨h1, h2, h3⟩ := (hv v w).1 h
    refine fin v w i hi (fun j hj => ?_) h2 (fun hl => ?_)
    · obtain ⟨M, rfl⟩ : ∃ M, order = M + 1 := ⟨order - 1, by omega⟩
      have := reached_mean hf (h1 i hi j hj) hh
      exact this
    · cases s with
      | line => exact absurd rfl hl
      | parab θ => exact (h3 θ rfl).1
  have lvl : (scheme = "trapz" ∧ s = .line ∨ (scheme = "hs" ∨ scheme = "hs_parab") ∧ s = .parab (1 / 2)) → ∃ P, equiConstraints F scheme N order n_q n_u t0 t1 = .ok P ∧
      ∀ v w, P v w → ∀ i < N, ∑ j ∈ range n_q, c j * (v.lev order n_q (order - 1) (i + 1) j - v.lev order n_q (order - 1) i j) =
        (t1 - t0) / N * (∑ m ∈ range n_u, b m * mean s (v.u i m) (w.u i m) (v.u (i + 1) m) + d) := by
    intro hs
    obtain ⟨P, hP, hv⟩ := C91_levels F hs N order n_q n_u hN ht
    refine ⟨P, hP, fun v w h i hi => ?_⟩
    obtain ⟨h1, h2, h3⟩ := (hv v w).1 h
    refine fin v w i hi (fun j hj => ?_) h2 (fun hl => (h3 hl).1)
    have := reached_mean hf (M := 0) (h1 i hi j hj (order - 1) (by omega)) hh
    rwa [Nat.sub_add_cancel ho] at this
  rcases hs with hs | hs | hs | ⟨rfl, rfl, rfl⟩
  · exact mot hs
  · exact lvl (.inl hs)
  · exact lvl (.inr hs)
  · rw [C91_hsj_parab_mod]
    exact mot .hsj_parab

/-- C193: without forces the momentum is the same at all samples. -/
theorem C193_conserved (hs : UsesShape order scheme s) (ho : 1 ≤ order) (hN : 0 < N) (law : LinearLaw F order n_q n_u c (fun _ => 0) 0) (ht : t0 ≠ t1) :
    ∃ P, equiConstraints F scheme N order n_q n_u t0 t1 = .ok P ∧ ∀ v w, P v w → ∀ i ≤ N,
      ∑ j ∈ range n_q, c j * v.lev order n_q (order - 1) i j = ∑ j ∈ range n_q, c j * v.lev order n_q (order - 1) 0 j := by
  obtain ⟨P, hP, hv⟩ := C193_equispaced hs ho hN law ht
  refine ⟨P, hP, fun v w h i => ?_⟩
  induction i with
  | zero => exact fun _ => rfl
  | succ i ih =>
    intro hi
    have := hv v w h i (by omega)
    simp only [zero_mul, sum_const_zero, add_zero, mul_zero, mul_sub, sum_sub_distrib] at this
    rw [← ih (by omega)]
    linarith
end

/-! ## Problems with several segments -/

section
variable {order n_q n_u : ℕ} {F : Dyn} {c b : ℕ → ℝ} {d : ℝ} {S : String} {points : List ℕ} {coll : ℕ → List ℝ} {ext : List ℝ}

/-- The polynomials of degree below the number of collocation points through the controls of segment `s`. -/
def SegControl (v : Vars) (n_u : ℕ) (points : List ℕ) (coll : ℕ → List ℝ) (T : ℕ → ℝ) (s : ℕ) (U : ℕ → ℝ[X]) : Prop :=
  ∀ m < n_u, (U m).degree < points.getD s 0 ∧ ∀ i < points.getD s 0, (U m).eval (tauToT (arr (coll (points.getD s 0)) i) (T s) (T (s + 1))) = v.u (colRow points s i) m

/-- From the start of segment `s` to its end the momentum at the rows of the knots changes by the integral of the controls of the segment. -/
def SegBalance (v : Vars) (order n_q n_u : ℕ) (c b : ℕ → ℝ) (d : ℝ) (points : List ℕ) (T : ℕ → ℝ) (s : ℕ) (U : ℕ → ℝ[X]) : Prop :=
  ∑ j ∈ range n_q, c j * (v.lev order n_q (order - 1) (knotRow points (s + 1)) j - v.lev order n_q (order - 1) (knotRow points s) j) =
    ∫ r in (T s)..(T (s + 1)), (∑ m ∈ range n_u, b m * (U m).eval r + d)

theorem SegControl.sum {v : Vars} {T : ℕ → ℝ} {s : ℕ} {U : ℕ → ℝ[X]} (h : SegControl v n_u points coll T s U) (b : ℕ → ℝ) {i : ℕ} (hi : i < points.getD s 0) :
    ∑ m ∈ range n_u, b m * (U m).eval (tauToT (arr (coll (points.getD s 0)) i) (T s) (T (s + 1))) = ∑ m ∈ range n_u, b m * v.u (colRow points s i) m :=
  sum_congr rfl fun m hm => by rw [(h m (mem_range.1 hm)).2 i hi]

private theorem seg_mem {s : ℕ} (h : s < points.length) : points.getD s 0 ∈ points := by
  rw [List.getD_eq_getElem?_getD, List.getElem?_eq_getElem h]
  exact List.getElem_mem _

private theorem segPoly_law (ho : 1 ≤ order) (law : LinearLaw F order n_q n_u c b d) {T : ℕ → ℝ} {s : ℕ} (hs : s < points.length) (hp : 1 ≤ points.getD s 0)
    (hd : Distinct (points.getD s 0) (arr (coll (points.getD s 0)))) (ht : T s ≠ T (s + 1)) {v : Vars} {Q : ℕ → ℝ[X]} (h : SegPoly v order n_q points coll T s Q)
    (hc : PhCollocated F v points) {U : ℕ → ℝ[X]} (hU : SegControl v n_u points coll T s U) : SegBalance v order n_q n_u c b d points T s U := by
  have e : ∀ j, derivative (derivative^[order - 1] (Q j)) = derivative^[order] (Q j) := fun j => by
    rw [← Function.iterate_succ_apply' derivative, Nat.succ_eq_add_one, Nat.sub_add_cancel ho]
  have := law_core (V := fun j => derivative^[order - 1] (Q j)) (c := c) (b := b) (d := d) hp ht hd
    (fun j hj => by rw [e]; exact degree_iterate hp (h j hj).1) (fun m hm => (hU m hm).1) (fun i hi => by
      rw [hU.sum b hi, ← law _ _ _ _ (hc s hs i hi)]
      exact sum_congr rfl fun j hj => by
        rw [e, ← (h j (mem_range.1 hj)).2.2 order le_rfl i hi]
        simp [Vars.lev]) (T s) (T (s + 1))
  unfold SegBalance
  rw [← this]
  exact sum_congr rfl fun j hj => by
    rw [((h j (mem_range.1 hj)).2.1 (order - 1) (by omega)).1, ((h j (mem_range.1 hj)).2.1 (order - 1) (by omega)).2]

private theorem seg_distinct (hs : S ∈ implemented) (ho : 1 ≤ order) {p : ℕ} (hN : minPoints S ≤ p) {l : List ℝ} (hl : collPoints p S order = .ok l) : Distinct p (arr l) := by
  obtain ⟨_, m1, -, hd⟩ := Gauss.coll_distinct hs ho hN
  obtain rfl := Except.ok.inj (hl.symm.trans m1)
  exact hd

/-- C193, bottom-up problems with several segments. -/
theorem C193_segments_bu (hs : S ∈ buImplemented) (ho : 1 ≤ order) (h0 : points ≠ []) (hN : ∀ p ∈ points, minPoints S ≤ p) (h1 : (∀ p ∈ points, 2 ≤ p) ∨ S ∉ gaussLike)
    (hcoll : ∀ p ∈ points, collPoints p S order = .ok (coll p)) (hl : ext.length = points.length + 1) (ht : ∀ s < points.length, ext.getD s 0 ≠ ext.getD (s + 1) 0)
    (law : LinearLaw F order n_q n_u c b d) :
    ∃ P, phConstraints F .bu S order n_q n_u points ext = .ok P ∧ ∀ v q, P v q → ∀ s < points.length, ∀ U,
      SegControl v n_u points coll (fun s => ext.getD s 0) s U → SegBalance v order n_q n_u c b d points (fun s => ext.getD s 0) s U := by
  obtain ⟨P, hP, hv⟩ := C99_feasible hs ho F n_q n_u h0 hN h1 hcoll hl ht
  refine ⟨P, hP, fun v q h s hs' U hU => ?_⟩
  obtain ⟨⟨Q, k1⟩, -, k3, -⟩ := (hv v q).1 h
  have hm := seg_mem hs'
  exact segPoly_law ho law hs' ((minPoints_pos S).trans (hN _ hm)) (seg_distinct (bu_imp hs).1 ho (hN _ hm) (hcoll _ hm)) (ht s hs') (k1 s hs').1 k3 hU

/-- C193, top-down problems with several segments. -/
theorem C193_segments_td (hs : S ∈ buImplemented) (ho : 1 ≤ order) (h0 : points ≠ []) (hN : ∀ p ∈ points, minPoints S ≤ p)
    (hcoll : ∀ p ∈ points, collPoints p S order = .ok (coll p)) (hl : ext.length = points.length + 1) (ht : ∀ s < points.length, ext.getD s 0 ≠ ext.getD (s + 1) 0)
    (law : LinearLaw F order n_q n_u c b d) :
    ∃ P, phConstraints F .td S order n_q n_u points ext = .ok P ∧ ∀ v q, P v q → ∀ s < points.length, ∀ U,
      SegControl v n_u points coll (fun s => ext.getD s 0) s U → SegBalance v order n_q n_u c b d points (fun s => ext.getD s 0) s U := by
  obtain ⟨P, hP, hv⟩ := C100_feasible hs ho F n_q n_u h0 hN hcoll hl ht
  refine ⟨P, hP, fun v q h s hs' U hU => ?_⟩
  obtain ⟨⟨Q, k1⟩, -, k3, -⟩ := (hv v).1 ⟨q, h⟩
  have hm := seg_mem hs'
  exact segPoly_law ho law hs' ((minPoints_pos S).trans (hN _ hm)) (seg_distinct (bu_imp hs).1 ho (hN _ hm) (hcoll _ hm)) (ht s hs') (k1 s hs').1 k3 hU

/-- C193, node based problems with several segments. -/
theorem C193_segments_node (hs : S ∈ implemented) (h2 : S ∉ gauss2 ++ ["D2"]) (ho : 1 ≤ order) (hord : order ≤ 2 ∨ S ∉ gaussLike ++ gaussInv) (h0 : points ≠ [])
    (hN : ∀ p ∈ points, minPoints S ≤ p) (hcoll : ∀ p ∈ points, collPoints p S = .ok (coll p)) (hl : ext.length = points.length + 1)
    (ht : ∀ s < points.length, ext.getD s 0 ≠ ext.getD (s + 1) 0) (law : LinearLaw F order n_q n_u c b d) :
    ∃ P, phConstraints F .node S order n_q n_u points ext = .ok P ∧ ∀ v q, P v q → ∀ s < points.length, ∀ U,
      SegControl v n_u points coll (fun s => ext.getD s 0) s U → SegBalance v order n_q n_u c b d points (fun s => ext.getD s 0) s U := by
  have a1 : ∀ p, ∃ l, p ∈ points → collPoints p S order = .ok l := fun p => by
    by_cases hp : p ∈ points
    · obtain ⟨l, m1, -⟩ := Gauss.coll_distinct hs ho (hN p hp)
      exact ⟨l, fun _ => m1⟩
    · exact ⟨[], fun h => absurd h hp⟩
  have a2 : ∀ p, ∃ n, p ∈ points → nColToNNodes S p = .ok n := fun p => by
    by_cases hp : p ∈ points
    · obtain ⟨-, n, -, -, -, e, -⟩ := node_rows hs (hN p hp)
      exact ⟨n, fun _ => e⟩
    · exact ⟨0, fun h => absurd h hp⟩
  choose coll' hcoll' using a1
  choose n hn using a2
  obtain ⟨P, hP, hv⟩ := C101_feasible hs ho hord F n_q n_u h0 hN hcoll' hcoll hn hl ht
  refine ⟨P, hP, fun v q h s hs' U hU => ?_⟩
  obtain ⟨⟨R, k1⟩, -, k3, -⟩ := (hv v q).1 h
  have hm := seg_mem hs'
  have hp := (minPoints_pos S).trans (hN _ hm)
  have hle := nodes_le h2 (hn _ hm)
  have hD : S ≠ "D2" := fun e => h2 (by simp [e])
  have hj : ∀ j < n_q, n_q * (order - 1) + j < order * n_q := by
    intro j hj
    obtain ⟨k, rfl⟩ : ∃ k, order = k + 1 := ⟨order - 1, by omega⟩
    rw [Nat.add_sub_cancel, Nat.add_mul, Nat.mul_comm]
    omega
  have := law_core (V := fun j => R s (n_q * (order - 1) + j)) (c := c) (b := b) (d := d) hp (ht s hs') (seg_distinct hs (by norm_num) (hN _ hm) (hcoll _ hm))
    (fun j h => degree_iterate (k := 1) hp ((k1 s hs' _ (hj j h)).1.trans_le (by exact_mod_cast (by omega)))) (fun m hm => (hU m hm).1) (fun i hi => by
      rw [hU.sum b hi, ← law _ _ _ _ (k3 s hs' i hi)]
      exact sum_congr rfl fun j h => by rw [((k1 s hs' _ (hj j (mem_range.1 h))).2.1 i hi).2]) (ext.getD s 0) (ext.getD (s + 1) 0)
  unfold SegBalance
  rw [← this]
  exact sum_congr rfl fun j h => by
    rw [← ((k1 s hs' _ (hj j (mem_range.1 h))).2.2.1 hD).1, ← ((k1 s hs' _ (hj j (mem_range.1 h))).2.2.1 hD).2]
    simp [Vars.lev, (by omega : order - 1 < order)]
end

/-! ## Examples -/

/-- Two bodies of masses 1 and 3 with a hardening spring between them; the control pushes the first one. -/
def springPair : Dyn := fun x xd u _ => [xd 0 - x 2, xd 1 - x 3, xd 2 - (x 1 - x 0) ^ 3 - u 0, 3 * xd 3 + (x 1 - x 0) ^ 3]

/-- The momentum changes by the impulse of the control. -/
theorem springPair_law : LinearLaw springPair 2 2 1 (fun j => if j = 0 then 1 else 3) (fun _ => 1) 0 := by
  intro x xd u lam h
  simp only [zero, springPair, List.mem_cons, List.not_mem_nil, or_false, forall_eq_or_imp, forall_eq] at h
  simp [sum_range_succ]
  linarith [h.2.2.1, h.2.2.2]

/-- In each kind of problem. -/
example : (∃ coll full P, buCollPoints 3 "LG" 2 = .ok coll ∧ buArrPoints 3 "LG" 2 = .ok full ∧ buConstraints springPair "LG" 3 2 2 0 1 = .ok P ∧ ∀ v, P v →
      ∃ Q : ℕ → ℝ[X], (∀ j < 2, (Q j).degree < (2 + 3 : ℕ) ∧ ∀ k ≤ 2, ∀ i < full.length, v.lev 2 2 k i j = (derivative^[k] (Q j)).eval (tauToT (arr full i) 0 1)) ∧
        ∀ U, ControlPoly v 3 1 coll 0 1 U → Balance 2 1 (fun j => if j = 0 then 1 else 3) (fun _ => 1) 0 (fun j => derivative^[2 - 1] (Q j)) U) ∧
    (∃ P, equiConstraints springPair "hsj" 4 2 2 1 0 1 = .ok P ∧ ∀ v w, P v w → ∀ i < 4,
      ∑ j ∈ range 2, (if j = 0 then 1 else 3) * (v.lev 2 2 (2 - 1) (i + 1) j - v.lev 2 2 (2 - 1) i j) =
        (1 - 0) / (4 : ℕ) * (∑ m ∈ range 1, 1 * mean (.parab (2 / 5)) (v.u i m) (w.u i m) (v.u (i + 1) m) + 0)) ∧
    ∃ P, phConstraints springPair .bu "LGR" 2 2 1 [2, 3] [0, 1, 3] = .ok P ∧ ∀ v q, P v q → ∀ s < 2, ∀ U,
      SegControl v 1 [2, 3] LGR (fun s => [0, 1, 3].getD s 0) s U →
        SegBalance v 2 2 1 (fun j => if j = 0 then 1 else 3) (fun _ => 1) 0 [2, 3] (fun s => [0, 1, 3].getD s 0) s U :=
  ⟨C193_bu (by decide) (by norm_num) (by decide) (.inl (by norm_num)) springPair_law (by norm_num),
    C193_equispaced (.inl .hsj) (by norm_num) (by norm_num) springPair_law (by norm_num),
    C193_segments_bu (by decide) (by norm_num) (points := [2, 3]) (by simp) (by decide) (.inl (by decide)) (coll := fun p => LGR p)
      (fun p _ => by simp [collPoints]) (ext := [0, 1, 3]) (by simp)
      (by intro s hs; simp only [List.length_cons, List.length_nil] at hs; interval_cases s <;> norm_num) springPair_law⟩

/-- With the weights of "hsj". -/
example (u uc un : ℝ) : mean (.parab (2 / 5)) u uc un = (3 * u + 25 * uc + 8 * un) / 36 := by
  norm_num [mean]
  ring

end Chords.Momentum
