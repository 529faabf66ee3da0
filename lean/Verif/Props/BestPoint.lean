import Verif.Props.OneOptimum
import Mathlib.Analysis.InnerProductSpace.PiL2
import Mathlib.Topology.Algebra.Module.FiniteDimension
import Mathlib.Analysis.Normed.Module.FiniteDimension

/-! # C187: with linear dynamics there is a best point -/

namespace Chords.Blend
open Finset Polynomial Chords.Points Chords.Bary Chords.BuTd Chords.Equi Chords.PhScheme Chords.Problem Chords.Spec Chords.Props Chords.Gauss Chords.TimeScale Mix

variable {V W : Type} [Mix V] [Mix W]

/-- There is a best point. `C` are the conditions that the problem states and `J` its cost; `K` are linear equations that the user adds,
such as boundary conditions. If all of them can be met, then some point meets them at the least cost. -/
def HasBest (C : V → Prop) (J : V → ℝ) : Prop :=
  ∀ K : V → Prop, (∀ s v w, K v → K w → K (mix s v w)) → (∃ v, C v ∧ K v) → ∃ v, C v ∧ K v ∧ ∀ z, C z → K z → J v ≤ J z

/-- A sum of squares of affine functions. -/
def SumSq (J : V → ℝ) : Prop := ∃ (n : ℕ) (g : Fin n → V → ℝ), (∀ i, Aff (g i)) ∧ ∀ v, J v = ∑ i, g i v ^ 2

theorem Aff.sumSq {f : V → ℝ} (h : Aff f) : SumSq fun v => f v ^ 2 := ⟨1, fun _ => f, fun _ => h, fun v => by simp⟩

theorem sumSq_zero : SumSq fun _ : V => 0 := ⟨0, fun _ _ => 0, fun _ => aff_const 0, fun v => by simp⟩

theorem SumSq.add {J J' : V → ℝ} (h : SumSq J) (h' : SumSq J') : SumSq fun v => J v + J' v := by
  obtain ⟨n, g, h1, h2⟩ := h
  obtain ⟨m, k, k1, k2⟩ := h'
  refine ⟨n + m, Fin.append g k, fun i => ?_, fun v => ?_⟩
  · refine Fin.addCases (fun i => ?_) (fun i => ?_) i
    · rw [Fin.append_left]; exact h1 i
    · rw [Fin.append_right]; exact k1 i
  · simp only [Fin.sum_univ_add, h2, k2, Fin.append_left, Fin.append_right]

theorem SumSq.mul_left {J : V → ℝ} {c : ℝ} (hc : 0 ≤ c) (h : SumSq J) : SumSq fun v => c * J v := by
  obtain ⟨n, g, h1, h2⟩ := h
  refine ⟨n, fun i v => Real.sqrt c * g i v, fun i => (h1 i).mul_left _, fun v => ?_⟩
  simp only [h2, Finset.mul_sum, mul_pow, Real.sq_sqrt hc]

theorem SumSq.div {J : V → ℝ} {c : ℝ} (hc : 0 ≤ c) (h : SumSq J) : SumSq fun v => J v / c := by
  have := h.mul_left (inv_nonneg.2 hc)
  simpa only [div_eq_inv_mul] using this

theorem SumSq.sum {ι : Type} {J : ι → V → ℝ} (S : Finset ι) (h : ∀ i ∈ S, SumSq (J i)) : SumSq fun v => ∑ i ∈ S, J i v := by
  classical
  induction S using Finset.induction_on with
  | empty => simpa using sumSq_zero
  | insert a S ha ih =>
    simp only [Finset.sum_insert ha]
    exact (h a (Finset.mem_insert_self ..)).add (ih fun i hi => h i (Finset.mem_insert_of_mem hi))

theorem hasBest {C : V → Prop} (hC : Keeps C) {J : V → ℝ} (hJ : SumSq J) : HasBest C J := by
  intro K hK ⟨v0, c0, k0⟩
  obtain ⟨n, g, hg, hJ⟩ := hJ
  obtain ⟨B, hB⟩ : ∃ B : Set (EuclideanSpace ℝ (Fin n)), B = {y | ∃ v, C v ∧ K v ∧ ∀ i, y i = g i v} := ⟨_, rfl⟩
  have mixB : ∀ (s : ℝ) y z, y ∈ B → z ∈ B → s • y + (1 - s) • z ∈ B := by
    subst hB
    rintro s y z ⟨v, cv, kv, hy⟩ ⟨w, cw, kw, hz⟩
    refine ⟨mix s v w, hC.out s v w cv cw, hK s v w kv kw, fun i => ?_⟩
    rw [(hg i).out, mix_real, ← hy, ← hz]
    simp
  let A : AffineSubspace ℝ (EuclideanSpace ℝ (Fin n)) :=
    { carrier := B
      smul_vsub_vadd_mem' := by
        intro c p1 p2 p3 h1 h2 h3
        have e := mixB (1 / 2) _ _ (mixB (2 * c) _ _ h1 h3) (mixB (-(2 * c)) _ _ h2 h3)
        convert e using 1
        simp only [vsub_eq_sub, vadd_eq_add]
        module }
  have cl : IsClosed B := A.closed_of_finiteDimensional
  have ne : B.Nonempty := by
    subst hB
    exact ⟨WithLp.toLp 2 fun i => g i v0, v0, c0, k0, fun i => rfl⟩
  obtain ⟨y, yB, hy⟩ := cl.exists_infDist_eq_dist ne 0
  have hmin : ∀ z ∈ B, ‖y‖ ≤ ‖z‖ := fun z hz => by
    have := Metric.infDist_le_dist_of_mem (x := 0) hz
    rw [hy, dist_zero_left, dist_zero_left] at this
    exact this
  have hyB := yB
  rw [hB] at hyB
  obtain ⟨v, cv, kv, hv⟩ := hyB
  refine ⟨v, cv, kv, fun z cz kz => ?_⟩
  have h1 := hmin (WithLp.toLp 2 fun i => g i z) (by rw [hB]; exact ⟨z, cz, kz, fun i => rfl⟩)
  have h2 := pow_le_pow_left₀ (norm_nonneg _) h1 2
  rw [EuclideanSpace.real_norm_sq_eq, EuclideanSpace.real_norm_sq_eq] at h2
  rw [hJ, hJ]
  simpa only [hv] using h2

/-! ## Problems of one interval -/

theorem best_ps {scheme : String} (hs : scheme ∈ implemented) {order : ℕ} (ho : 1 ≤ order) (hj : scheme ∈ jacobiSchemes → order ≤ 2) {N : ℕ}
    (hN : minPoints scheme ≤ N) (n_arr : ℕ) {t0 t1 : ℝ} (ht : t0 ≤ t1) (m : ℕ) {f : V → Vars} (hf : Aff f) {C : V → Prop} (hC : Keeps C) :
    ∃ J : V → ℝ, (∀ v, PsCost.uSqCost scheme N n_arr order t0 t1 m (f v).u = .ok (J v)) ∧ HasBest C J := by
  obtain ⟨coll, w, h1, h2, h3, -⟩ := C184_weights hs ho hj hN
  have hc : ∀ a, PsCost.uSqCost scheme N n_arr order t0 t1 m a = .ok ((t1 - t0) * ∑ c ∈ range m, ∑ i ∈ range N, w i * a i c ^ 2) := fun a => by
    simp only [PsCost.uSqCost, PsCost.quadCost, PsCost.quadIntCas, if_true, h2, bind, Except.bind, pure, Except.pure]
  exact ⟨_, fun v => hc _, hasBest hC (.mul_left (sub_nonneg.2 ht) (.sum _ fun c _ => .sum _ fun i hi =>
    .mul_left (h3 i (mem_range.1 hi)).1 (((aff_u.comp hf).at i).at c).sumSq))⟩

/-- C187, node based problems with the Jacobi schemes up to order two: if the conditions can be met there is a best point. -/
theorem C187_node_partial {F : Dyn} (hF : LinearDyn F) {scheme : String} (hs : scheme ∈ implemented) {order : ℕ} (ho : 1 ≤ order)
    (hj : scheme ∈ jacobiSchemes → order ≤ 2) {N : ℕ} (hN : minPoints scheme ≤ N) {t0 t1 : ℝ} (ht : t0 ≤ t1) (n_q n_u n_arr : ℕ)
    {C : Vars → Prop} (hC : nodeConstraints F scheme N order n_q t0 t1 = .ok C) :
    ∃ J : Vars → ℝ, (∀ v, PsCost.uSqCost scheme N n_arr order t0 t1 n_u v.u = .ok (J v)) ∧ HasBest C J :=
  best_ps hs ho hj hN n_arr ht n_u aff_id (keeps_node hF hC)

theorem best_bu {scheme : String} (hs : scheme ∈ implemented) {N : ℕ} (hN : minPoints scheme ≤ N) {t0 t1 : ℝ} (ht : t0 ≤ t1) (m : ℕ)
    {f : V → Vars} (hf : Aff f) {C : V → Prop} (hC : Keeps C) :
    ∃ J : V → ℝ, (∀ v, PsCost.buUSqCost scheme N t0 t1 m (f v).u = .ok (J v)) ∧ HasBest C J := by
  obtain ⟨J, h1, h2⟩ := best_ps hs (order := 2) (by omega) (fun _ => le_rfl) hN 0 ht m hf hC
  refine ⟨J, fun v => ?_, h2⟩
  rw [← h1 v]
  simp only [PsCost.buUSqCost, PsCost.uSqCost, PsCost.quadCost, if_true, bind, Except.bind]

/-- C187, bottom-up problems of any order and scheme: if the conditions can be met there is a best point. -/
theorem C187_bu {F : Dyn} (hF : LinearDyn F) {scheme : String} (hs : scheme ∈ implemented) (order : ℕ) {N : ℕ}
    (hN : minPoints scheme ≤ N) {t0 t1 : ℝ} (ht : t0 ≤ t1) (n_q n_u : ℕ) {C : Vars → Prop}
    (hC : buConstraints F scheme N order n_q t0 t1 = .ok C) :
    ∃ J : Vars → ℝ, (∀ v, PsCost.buUSqCost scheme N t0 t1 n_u v.u = .ok (J v)) ∧ HasBest C J :=
  best_bu hs hN ht n_u aff_id (keeps_bu hF hC)

/-- C187, top-down problems of any order and scheme. -/
theorem C187_td {F : Dyn} (hF : LinearDyn F) {scheme : String} (hs : scheme ∈ implemented) (order : ℕ) {N : ℕ}
    (hN : minPoints scheme ≤ N) {t0 t1 : ℝ} (ht : t0 ≤ t1) (n_q n_u : ℕ) {C : Vars → (ℕ → ℕ → ℝ) → Prop}
    (hC : tdConstraints F scheme N order n_q t0 t1 = .ok C) :
    ∃ J : Vars × (ℕ → ℕ → ℝ) → ℝ, (∀ p, PsCost.buUSqCost scheme N t0 t1 n_u p.1.u = .ok (J p)) ∧ HasBest (fun p => C p.1 p.2) J :=
  best_bu hs hN ht n_u aff_fst (keeps_td hF hC)

/-! ## Segmented problems -/

theorem sumSq_segments {m : ℕ} {f : V → ℕ → Fin m → ℝ} (hf : ∀ i j, Aff fun v => f v i j) {w : ℕ → ℕ → ℝ} (ps : List ℕ)
    (hw : ∀ p ∈ ps, ∀ i < p, 0 ≤ w p i) (h : List ℝ) (hh : ∀ d ∈ h, 0 ≤ d) (off : ℕ) :
    SumSq fun v => Ph.segmentSquares w (f v) off ps h := by
  induction ps generalizing off h with
  | nil => exact sumSq_zero
  | cons p ps ih =>
    cases h with
    | nil => exact sumSq_zero
    | cons d h =>
      exact .add (.mul_left (hh d (by simp)) (.sum _ fun j _ => .sum _ fun i hi =>
        .mul_left (hw p (by simp) i (mem_range.1 hi)) (hf _ j).sumSq)) (ih (fun p hp => hw p (by simp [hp])) h (fun d hd => hh d (by simp [hd])) _)

/-- C187, segmented problems of any mode, order and scheme. -/
theorem C187_segments {F : Dyn} (hF : LinearDyn F) {scheme : String} (hs : scheme ∈ implemented) {W : Ph.Weights}
    (hW : ∀ p, minPoints scheme ≤ p → ∃ w, getWeights p scheme 2 "u" = .ok w ∧ ∀ i < p, W p scheme 2 "u" i = w i)
    (mode : Mode) (order n_q n_u : ℕ) {points : List ℕ} {ext : List ℝ}
    (hp : ∀ p ∈ points, minPoints scheme ≤ p) (hh : ∀ d ∈ Ph.hArr ext, 0 ≤ d)
    {C : Vars → (ℕ → ℕ → ℕ → ℝ) → Prop} (hC : phConstraints F mode scheme order n_q n_u points ext = .ok C) :
    ∃ J : Vars × (ℕ → ℕ → ℕ → ℝ) → ℝ, (∀ p, Ph.uSqCost W scheme points (Ph.hArr ext) (fun i (j : Fin n_u) => p.1.u i j) = .ok (J p)) ∧
      HasBest (fun p => C p.1 p.2) J := by
  obtain ⟨rows, hrows⟩ : ∃ rows : ℕ → ℕ, ∀ i < points.sum, ((Ph.segRows 1 points).map (·.1)).flatten[i]? = some (rows i) := by
    refine ⟨fun i => ((Ph.segRows 1 points).map (·.1)).flatten.getD i 0, fun i hi => ?_⟩
    have hl : ((Ph.segRows 1 points).map (·.1)).flatten.length = points.sum := by
      rw [List.length_flatten, List.map_map]
      exact congrArg List.sum (Ph.C33_rows points).2.1
    simp only [List.getD_eq_getElem?_getD]
    rw [List.getElem?_eq_getElem (by omega)]
    rfl
  refine ⟨_, fun p => Ph.C35_u_sq_cost W scheme points _ _ rows hrows, hasBest (keeps_ph hF hC)
    (sumSq_segments (f := fun (p : Vars × (ℕ → ℕ → ℕ → ℝ)) i (j : Fin n_u) => p.1.u (rows i) j)
      (fun i j => ((aff_u.comp aff_fst).at _).at _) points ?_ _ hh _)⟩
  intro p hpp i hi
  obtain ⟨w, w1, w2⟩ := hW p (hp p hpp)
  obtain ⟨_, w', -, h2, h3, -⟩ := C184_weights hs (order := 2) (by omega) (fun _ => le_rfl) (hp p hpp)
  rw [w1] at h2
  obtain rfl := Except.ok.inj h2
  change 0 ≤ W p scheme 2 "u" i
  rw [w2 i hi]
  exact (h3 i hi).1

/-! ## Equispaced problems -/

/-- C187, equispaced problems with any scheme. -/
theorem C187_equispaced {F : Dyn} (hF : LinearDyn F) (scheme : String) (N order n_q n_u : ℕ) {t0 t1 : ℝ} (ht : t0 ≤ t1)
    {C : Vars → Vars → Prop} (hC : equiConstraints F scheme N order n_q n_u t0 t1 = .ok C) :
    HasBest (fun p => C p.1.1 p.1.2 ∧ Costs.uSqConstraint scheme N (stored n_u p))
      (fun p => Costs.uSqCost scheme (t1 - t0) N (stored n_u p)) := by
  have qu : ∀ a b (j : Fin n_u), SumSq (fun p => Costs.sum1 (Costs.sqArr (stored n_u p).u) a b j) := fun a b j =>
    .sum _ fun i _ => (aff_stored_u i j).sumSq
  have qc : ∀ a b (j : Fin n_u), SumSq (fun p => Costs.sum1 (Costs.sqArr (if scheme = "hsj_parab_mod" then (stored n_u p).u_j else (stored n_u p).u_c)) a b j) :=
    fun a b j => by
      split
      · exact .sum _ fun i _ => (aff_stored_j i j).sumSq
      · exact .sum _ fun i _ => (aff_stored_c i j).sumSq
  refine hasBest (.and ((keeps_equi hF hC).comp aff_fst) (keeps_stored scheme N n_u)) ?_
  unfold Costs.uSqCost
  split
  · dsimp only
    split
    · exact .mul_left (sub_nonneg.2 ht) (.sum _ fun j _ => .div (by positivity) (.add (.add (.mul_left (by norm_num) (qc ..))
        (.mul_left (by norm_num) (qu ..))) (.mul_left (by norm_num) (qu ..))))
    · exact .mul_left (sub_nonneg.2 ht) (.sum _ fun j _ => .div (by positivity) (.add (.add (.mul_left (by norm_num) (qc ..)) (qu ..)) (qu ..)))
  · exact .mul_left (sub_nonneg.2 ht) (.sum _ fun j _ => .div (by positivity) (.add (qu ..) (qu ..)))

/-! ## Examples -/

/-- From rest at 0 to rest at 1 in a unit of time: the conditions of the double integrator and those at both ends can be met. The points are
the ends, and `q = 3 t² - 2 t³`. -/
example : ∃ C, buConstraints doubleIntegrator "LGL" 2 2 1 0 1 = .ok C ∧ LinearDyn doubleIntegrator ∧
    (∀ s v w, (v.x 0 0 = 0 ∧ v.x 0 1 = 0 ∧ v.x 1 0 = 1 ∧ v.x 1 1 = 0) → (w.x 0 0 = 0 ∧ w.x 0 1 = 0 ∧ w.x 1 0 = 1 ∧ w.x 1 1 = 0) →
      ((mix s v w : Vars).x 0 0 = 0 ∧ (mix s v w).x 0 1 = 0 ∧ (mix s v w).x 1 0 = 1 ∧ (mix s v w).x 1 1 = 0)) ∧
    ∃ v : Vars, C v ∧ v.x 0 0 = 0 ∧ v.x 0 1 = 0 ∧ v.x 1 0 = 1 ∧ v.x 1 1 = 0 := by
  obtain ⟨coll, full, C, h1, h2, h3, h4⟩ := C30_feasible (scheme := "LGL") (by decide) (order := 2) (by norm_num) (N := 2)
    (by decide) (Or.inl le_rfl) doubleIntegrator 1 (t0 := 0) (t1 := 1) (by norm_num)
  refine ⟨C, h3, linear_doubleIntegrator, fun s v w ⟨a1, a2, a3, a4⟩ ⟨b1, b2, b3, b4⟩ => ?_, ?_⟩
  · have e : ∀ i j, (mix s v w).x i j = s * v.x i j + (1 - s) * w.x i j := fun i j => rfl
    rw [e, e, e, e, a1, a2, a3, a4, b1, b2, b3, b4]
    refine ⟨by ring, by ring, by ring, by ring⟩
  · have hb : buCollPoints 2 "LGL" 2 = .ok [-1, 1] := by simp [buCollPoints, LGL, realRoots, legendre]
    have hc : coll = [-1, 1] := Except.ok.inj (h1.symm.trans hb)
    have hf : full = [-1, 1] := by
      have : buArrPoints 2 "LGL" 2 = .ok [-1, 1] := by
        rw [buArrPoints, buConstructionPoints, hb]
        rfl
      exact Except.ok.inj (h2.symm.trans this)
    refine ⟨⟨fun i c => if c = 0 then (i : ℝ) else 0, fun i c => if c = 0 then 0 else 6 - 12 * i, fun i _ => 6 - 12 * i, fun _ _ => 0⟩, ?_,
      by simp, by simp, by simp, by simp⟩
    rw [h4, hf, hc]
    refine ⟨⟨fun _ => Polynomial.C 3 * X ^ 2 - Polynomial.C 2 * X ^ 3, fun j hj => ⟨?_, fun k hk i hi => ?_⟩⟩, fun m hm => ⟨m, ?_, ?_, ?_⟩⟩
    · refine lt_of_le_of_lt (b := ((3 : ℕ) : WithBot ℕ)) ?_ (by norm_num)
      have h : (Polynomial.C 3 * X ^ 2 - Polynomial.C 2 * X ^ 3 : ℝ[X]).natDegree ≤ 3 := by compute_degree
      exact degree_le_of_natDegree_le h
    · obtain rfl : j = 0 := by omega
      simp only [List.length_cons, List.length_nil] at hi
      interval_cases i <;> interval_cases k <;> norm_num [Vars.lev, tauToT, arr]
    · simpa using hm
    · rfl
    · simp [zero, doubleIntegrator]

/-! ## Jacobi schemes of a higher order -/

/-- The restrictions of `q''' = u`: `x_d = (v, a, u)`. -/
def tripleIntegrator : Dyn := fun x xd u _ => [xd 0 - x 1, xd 1 - x 2, xd 2 - u 0]

theorem linear_tripleIntegrator : LinearDyn tripleIntegrator := by
  intro s x x' xd xd' u u' l l' h k r hr
  have h1 := h (xd 0 - x 1) (by simp [tripleIntegrator])
  have h2 := h (xd 1 - x 2) (by simp [tripleIntegrator])
  have h3 := h (xd 2 - u 0) (by simp [tripleIntegrator])
  have k1 := k (xd' 0 - x' 1) (by simp [tripleIntegrator])
  have k2 := k (xd' 1 - x' 2) (by simp [tripleIntegrator])
  have k3 := k (xd' 2 - u' 0) (by simp [tripleIntegrator])
  simp only [tripleIntegrator, List.mem_cons, List.not_mem_nil, or_false] at hr
  rcases hr with rfl | rfl | rfl
  · linear_combination s * h1 + (1 - s) * k1
  · linear_combination s * h2 + (1 - s) * k2
  · linear_combination s * h3 + (1 - s) * k3

/-- C187 is false for node based problems with Jacobi-Radau points of order three: two of them and the triple integrator, from rest
at the origin. There are feasible points with a cost below any number. -/
theorem C187_refuted : ∃ C, nodeConstraints tripleIntegrator "JGR" 2 3 1 0 1 = .ok C ∧ ∀ b : ℝ, ∃ (v : Vars) (r : ℝ), C v ∧ (∀ c < 3, v.x 0 c = 0) ∧
    PsCost.uSqCost "JGR" 2 3 3 0 1 1 v.u = .ok r ∧ r < b := by
  obtain ⟨coll, n, nodes, full, C, h1, hn, hnod, h2, h3, h4⟩ := C73_feasible (scheme := "JGR") (by decide) (by decide) (order := 3) (by norm_num)
    (Or.inr (by decide)) (N := 2) (by decide) tripleIntegrator 1 (t0 := 0) (t1 := 1) (by norm_num)
  have hj : JGR 2 2 = [-1, 0] := by rw [JGR_two]; norm_num
  have hb : collPoints 2 "JGR" = .ok [-1, 0] := by rw [← hj]; simp [collPoints]
  have hc : coll = [-1, 0] := Except.ok.inj (h1.symm.trans hb)
  have hn3 : n = 3 := by
    have : nColToNNodes "JGR" 2 = .ok 3 := rfl
    exact Except.ok.inj (hn.symm.trans this)
  have hf : full = [-1, 0, 1] := by
    have : arrPoints 2 "JGR" = .ok [-1, 0, 1] := by
      have e : nColToNNodes "JGR" 2 = .ok 3 := rfl
      have e' : nodePoints 3 "JGR" = .ok [-1, 0, 1] := by
        rw [nodePoints, if_neg (by decide), if_pos (by decide)]
        change (collPoints 2 "JGR" 2 >>= _) = _
        rw [hb]
        rfl
      rw [arrPoints, e]
      change (nodePoints 3 "JGR" >>= _) = _
      rw [e']
      rfl
    exact Except.ok.inj (h2.symm.trans this)
  refine ⟨C, h3, fun b => ?_⟩
  obtain ⟨a, r, r1, r2⟩ := C184_negative_refuted (order := 3) le_rfl 3 (t0 := 0) (t1 := 1) (by norm_num) b
  refine ⟨⟨fun i c => if c = 0 then a * ((i : ℝ) / 2) ^ 2 / 16 else if c = 1 then a * ((i : ℝ) / 2) ^ 2 / 4 else a * ((i : ℝ) / 2 - ((i : ℝ) / 2) ^ 2),
    fun i c => if c = 0 then a * ((i : ℝ) / 2) / 8 else if c = 1 then a * ((i : ℝ) / 2) / 2 else a * (1 - i), fun m _ => if m = 0 then a else 0, fun _ _ => 0⟩, r, ?_, ?_, r1, r2⟩
  · rw [h4, hf, hc, hn3]
    refine ⟨⟨fun c => if c = 0 then Polynomial.C (a / 16) * X ^ 2 else if c = 1 then Polynomial.C (a / 4) * X ^ 2 else
      Polynomial.C a * X - Polynomial.C a * X ^ 2, fun j hj => ⟨?_, fun i hi => ⟨?_, fun _ => ?_⟩⟩⟩, fun m hm => ⟨m, ?_, ?_, ?_⟩⟩
    · refine lt_of_le_of_lt (b := ((2 : ℕ) : WithBot ℕ)) ?_ (by norm_num)
      refine degree_le_of_natDegree_le ?_
      interval_cases j
      · simp only [if_true]; compute_degree
      · simp only [one_ne_zero, if_true, if_false]; compute_degree
      · simp; compute_degree
    · simp only [List.length_cons, List.length_nil] at hi
      interval_cases i <;> interval_cases j <;> norm_num [tauToT, arr] <;> ring
    · simp only [List.length_cons, List.length_nil] at hi
      interval_cases i <;> interval_cases j <;> norm_num [tauToT, arr] <;> ring
    · simp only [List.length_cons, List.length_nil] at hm ⊢
      omega
    · simp only [List.length_cons, List.length_nil] at hm
      interval_cases m <;> rfl
    · simp only [List.length_cons, List.length_nil] at hm
      interval_cases m <;> norm_num [zero, tripleIntegrator] <;> ring_nf <;> simp
  · intro c hc
    interval_cases c <;> simp

end Chords.Blend
