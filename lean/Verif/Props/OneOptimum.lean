import Verif.Props.Blend
import Verif.Props.CostPos
import Verif.Props.NodePs
import Verif.Props.PhScheme
import Verif.Props.Equi
import Mathlib.Tactic.ComputeDegree
import Mathlib.Tactic.IntervalCases

/-! # C186: for linear dynamics no optimum is only local -/

namespace Chords.Blend
open Finset Polynomial Chords.Points Chords.Bary Chords.BuTd Chords.Equi Chords.PhScheme Chords.Problem Chords.Spec Chords.Props Chords.Gauss Chords.TimeScale Mix

variable {V W : Type} [Mix V] [Mix W]

/-- No optimum is only local, and all the optima are the `same`. `C` are the conditions that the problem states and `J` its cost; `K` stands
for what the user adds to it, such as boundary conditions and bounds, as long as the points in between two that meet it meet it.
From every point that is not the best one the cost goes down along the straight way to any cheaper one, all of which is feasible;
and two best points are the `same`. -/
def OneOptimum (C : V → Prop) (J : V → ℝ) (same : V → V → Prop) : Prop :=
  ∀ K : V → Prop, (∀ s v w, 0 ≤ s → s ≤ 1 → K v → K w → K (mix s v w)) →
    (∀ v w, C v → K v → C w → K w → J w < J v → ∀ s, 0 < s → s ≤ 1 → C (mix s w v) ∧ K (mix s w v) ∧ J (mix s w v) < J v) ∧
    ∀ v w, (C v ∧ K v ∧ ∀ z, C z → K z → J v ≤ J z) → (C w ∧ K w ∧ ∀ z, C z → K z → J w ≤ J z) → same v w

/-- A function that is quadratic along straight lines; `D` is how much it bends. -/
structure Quad (J : V → ℝ) (D : V → V → ℝ) : Prop where
  out : ∀ s v w, J (mix s v w) = s * J v + (1 - s) * J w - s * (1 - s) * D v w

theorem Aff.sq {f : V → ℝ} (h : Aff f) : Quad (fun v => f v ^ 2) fun v w => (f v - f w) ^ 2 := ⟨fun s v w => by
  simp only [h.out, mix_real]
  ring⟩

theorem quad_zero : Quad (fun _ : V => 0) fun _ _ => 0 := ⟨fun s v w => by ring⟩

theorem Quad.add {J J' : V → ℝ} {D D' : V → V → ℝ} (h : Quad J D) (h' : Quad J' D') :
    Quad (fun v => J v + J' v) fun v w => D v w + D' v w := ⟨fun s v w => by
  simp only [h.out, h'.out]
  ring⟩

theorem Quad.mul_left {J : V → ℝ} {D : V → V → ℝ} (c : ℝ) (h : Quad J D) : Quad (fun v => c * J v) fun v w => c * D v w := ⟨fun s v w => by
  simp only [h.out]
  ring⟩

theorem Quad.div {J : V → ℝ} {D : V → V → ℝ} (h : Quad J D) (c : ℝ) : Quad (fun v => J v / c) fun v w => D v w / c := ⟨fun s v w => by
  simp only [h.out]
  ring⟩

theorem Quad.sum {ι : Type} {J : ι → V → ℝ} {D : ι → V → V → ℝ} (S : Finset ι) (h : ∀ i ∈ S, Quad (J i) (D i)) :
    Quad (fun v => ∑ i ∈ S, J i v) fun v w => ∑ i ∈ S, D i v w := ⟨fun s v w => by
  simp only [Finset.mul_sum]
  rw [← Finset.sum_add_distrib, ← Finset.sum_sub_distrib]
  exact Finset.sum_congr rfl fun i hi => (h i hi).out s v w⟩

theorem oneOptimum {C : V → Prop} (hC : Keeps C) {J : V → ℝ} {D : V → V → ℝ} (hJ : Quad J D) (hD : ∀ v w, 0 ≤ D v w) {same : V → V → Prop}
    (h0 : ∀ v w, C v → C w → D v w = 0 → same v w) : OneOptimum C J same := by
  intro K hK
  constructor
  · intro v w hv kv hw kw hl s s0 s1
    refine ⟨hC.out s w v hw hv, hK s w v s0.le s1 kw kv, ?_⟩
    rw [hJ.out]
    have h1 := mul_nonneg (mul_nonneg s0.le (sub_nonneg.2 s1)) (hD w v)
    nlinarith
  · intro v w ⟨hv, kv, bv⟩ ⟨hw, kw, bw⟩
    refine h0 v w hv hw (le_antisymm ?_ (hD v w))
    have h1 := bv _ (hC.out (1 / 2) v w hv hw) (hK (1 / 2) v w (by norm_num) (by norm_num) kv kw)
    have h2 := bw v hv kv
    rw [hJ.out] at h1
    linarith

/-! ## Problems of one interval -/

/-- The cost of the controls with given weights. -/
theorem quad_cost {f : V → Vars} (hf : Aff f) (T : ℝ) (N m : ℕ) (w : ℕ → ℝ) :
    Quad (fun v => T * ∑ c ∈ range m, ∑ i ∈ range N, w i * (f v).u i c ^ 2)
      fun v v' => T * ∑ c ∈ range m, ∑ i ∈ range N, w i * ((f v).u i c - (f v').u i c) ^ 2 :=
  .mul_left _ (.sum _ fun c _ => .sum _ fun i _ => .mul_left _ ((((aff_u.comp hf).at i).at c).sq))

theorem one_ps {scheme : String} (hs : scheme ∈ implemented) {order : ℕ} (ho : 1 ≤ order) (hj : scheme ∈ jacobiSchemes → order ≤ 2) {N : ℕ}
    (hN : minPoints scheme ≤ N) (n_arr : ℕ) {t0 t1 : ℝ} (ht : t0 < t1) (m : ℕ) {f : V → Vars} (hf : Aff f) {C : V → Prop} (hC : Keeps C) :
    ∃ J : V → ℝ, (∀ v, PsCost.uSqCost scheme N n_arr order t0 t1 m (f v).u = .ok (J v)) ∧ OneOptimum C J fun v w =>
      ∀ i < N, ¬(scheme = "JGR" ∧ order = 2 ∧ Even N ∧ i = 0) → ∀ c < m, (f v).u i c = (f w).u i c := by
  obtain ⟨coll, w, h1, h2, h3, -⟩ := C184_weights hs ho hj hN
  have hc : ∀ a, PsCost.uSqCost scheme N n_arr order t0 t1 m a = .ok ((t1 - t0) * ∑ c ∈ range m, ∑ i ∈ range N, w i * a i c ^ 2) := fun a => by
    simp only [PsCost.uSqCost, PsCost.quadCost, PsCost.quadIntCas, if_true, h2, bind, Except.bind, pure, Except.pure]
  have z : ∀ a : ℕ → ℕ → ℝ, 0 ≤ (t1 - t0) * ∑ c ∈ range m, ∑ i ∈ range N, w i * a i c ^ 2 ∧
      ((t1 - t0) * ∑ c ∈ range m, ∑ i ∈ range N, w i * a i c ^ 2 = 0 ↔
        ∀ i < N, ¬(scheme = "JGR" ∧ order = 2 ∧ Even N ∧ i = 0) → ∀ c < m, a i c = 0) := by
    intro a
    obtain ⟨v, k1, k2, k3⟩ := C184_pseudospectral_partial hs ho hj hN n_arr ht m a
    rw [hc] at k1
    obtain rfl := Except.ok.inj k1
    exact ⟨k2, k3⟩
  refine ⟨_, fun v => hc _, oneOptimum hC (quad_cost hf _ N m w) (fun v v' => (z fun i c => (f v).u i c - (f v').u i c).1) ?_⟩
  intro v v' _ _ h0 i hi hn c hcm
  exact sub_eq_zero.1 ((z fun i c => (f v).u i c - (f v').u i c).2.1 h0 i hi hn c hcm)

/-- C186, node based problems with the Jacobi schemes up to order two: no optimum is only local, and the best controls are the same at
every collocation point, but for the first one of "JGR" of order two with an even number of them. -/
theorem C186_node_partial {F : Dyn} (hF : LinearDyn F) {scheme : String} (hs : scheme ∈ implemented) {order : ℕ} (ho : 1 ≤ order)
    (hj : scheme ∈ jacobiSchemes → order ≤ 2) {N : ℕ} (hN : minPoints scheme ≤ N) {t0 t1 : ℝ} (ht : t0 < t1) (n_q n_u n_arr : ℕ)
    {C : Vars → Prop} (hC : nodeConstraints F scheme N order n_q t0 t1 = .ok C) :
    ∃ J : Vars → ℝ, (∀ v, PsCost.uSqCost scheme N n_arr order t0 t1 n_u v.u = .ok (J v)) ∧ OneOptimum C J fun v w =>
      ∀ i < N, ¬(scheme = "JGR" ∧ order = 2 ∧ Even N ∧ i = 0) → ∀ c < n_u, v.u i c = w.u i c :=
  one_ps hs ho hj hN n_arr ht n_u aff_id (keeps_node hF hC)

theorem one_bu {scheme : String} (hs : scheme ∈ implemented) {N : ℕ} (hN : minPoints scheme ≤ N) {t0 t1 : ℝ} (ht : t0 < t1) (m : ℕ)
    {f : V → Vars} (hf : Aff f) {C : V → Prop} (hC : Keeps C) :
    ∃ J : V → ℝ, (∀ v, PsCost.buUSqCost scheme N t0 t1 m (f v).u = .ok (J v)) ∧ OneOptimum C J fun v w =>
      ∀ i < N, ¬(scheme = "JGR" ∧ Even N ∧ i = 0) → ∀ c < m, (f v).u i c = (f w).u i c := by
  obtain ⟨J, h1, h2⟩ := one_ps hs (order := 2) (by omega) (fun _ => le_rfl) hN 0 ht m hf hC
  refine ⟨J, fun v => ?_, by simpa using h2⟩
  rw [← h1 v]
  simp only [PsCost.buUSqCost, PsCost.uSqCost, PsCost.quadCost, if_true, bind, Except.bind]

/-- C186, bottom-up problems of any order: no optimum is only local, and the best controls are the same at every collocation point, but
for the first one of "JGR" with an even number of them. -/
theorem C186_bu_partial {F : Dyn} (hF : LinearDyn F) {scheme : String} (hs : scheme ∈ implemented) (order : ℕ) {N : ℕ}
    (hN : minPoints scheme ≤ N) {t0 t1 : ℝ} (ht : t0 < t1) (n_q n_u : ℕ) {C : Vars → Prop}
    (hC : buConstraints F scheme N order n_q t0 t1 = .ok C) :
    ∃ J : Vars → ℝ, (∀ v, PsCost.buUSqCost scheme N t0 t1 n_u v.u = .ok (J v)) ∧ OneOptimum C J fun v w =>
      ∀ i < N, ¬(scheme = "JGR" ∧ Even N ∧ i = 0) → ∀ c < n_u, v.u i c = w.u i c :=
  one_bu hs hN ht n_u aff_id (keeps_bu hF hC)

/-- C186, top-down problems of any order. A point has the variables `q_constr` too. -/
theorem C186_td_partial {F : Dyn} (hF : LinearDyn F) {scheme : String} (hs : scheme ∈ implemented) (order : ℕ) {N : ℕ}
    (hN : minPoints scheme ≤ N) {t0 t1 : ℝ} (ht : t0 < t1) (n_q n_u : ℕ) {C : Vars → (ℕ → ℕ → ℝ) → Prop}
    (hC : tdConstraints F scheme N order n_q t0 t1 = .ok C) :
    ∃ J : Vars × (ℕ → ℕ → ℝ) → ℝ, (∀ p, PsCost.buUSqCost scheme N t0 t1 n_u p.1.u = .ok (J p)) ∧ OneOptimum (fun p => C p.1 p.2) J fun v w =>
      ∀ i < N, ¬(scheme = "JGR" ∧ Even N ∧ i = 0) → ∀ c < n_u, v.1.u i c = w.1.u i c :=
  one_bu hs hN ht n_u aff_fst (keeps_td hF hC)

/-! ## Segmented problems -/

theorem quad_segments {m : ℕ} {f : V → ℕ → Fin m → ℝ} (hf : ∀ i j, Aff fun v => f v i j) (w : ℕ → ℕ → ℝ) (off : ℕ) (ps : List ℕ) (h : List ℝ) :
    Quad (fun v => Ph.segmentSquares w (f v) off ps h) fun v v' => Ph.segmentSquares w (fun i j => f v i j - f v' i j) off ps h := by
  induction ps generalizing off h with
  | nil => exact quad_zero
  | cons p ps ih =>
    cases h with
    | nil => exact quad_zero
    | cons d h => exact .add (.mul_left _ (.sum _ fun j _ => .sum _ fun i _ => .mul_left _ (hf _ j).sq)) (ih ..)

/-- C186, segmented problems of any mode and order: no optimum is only local, and the best controls are the same at every collocation
point, but for the first one of "JGR" in the segments with an even number of them. `rows` are the rows of the collocation points. -/
theorem C186_segments_partial {F : Dyn} (hF : LinearDyn F) {scheme : String} (hs : scheme ∈ implemented) {W : Ph.Weights}
    (hW : ∀ p, minPoints scheme ≤ p → ∃ w, getWeights p scheme 2 "u" = .ok w ∧ ∀ i < p, W p scheme 2 "u" i = w i)
    (mode : Mode) (order n_q n_u : ℕ) {points : List ℕ} {ext : List ℝ} (hlen : points.length = (Ph.hArr ext).length)
    (hp : ∀ p ∈ points, minPoints scheme ≤ p) (hh : ∀ d ∈ Ph.hArr ext, 0 < d)
    (rows : ℕ → ℕ) (hrows : ∀ i < points.sum, ((Ph.segRows 1 points).map (·.1)).flatten[i]? = some (rows i))
    {C : Vars → (ℕ → ℕ → ℕ → ℝ) → Prop} (hC : phConstraints F mode scheme order n_q n_u points ext = .ok C) :
    ∃ J : Vars × (ℕ → ℕ → ℕ → ℝ) → ℝ, (∀ p, Ph.uSqCost W scheme points (Ph.hArr ext) (fun i (j : Fin n_u) => p.1.u i j) = .ok (J p)) ∧
      OneOptimum (fun p => C p.1 p.2) J fun v w =>
        ∀ k < points.length, ∀ i < points.getD k 0, ¬(scheme = "JGR" ∧ Even (points.getD k 0) ∧ i = 0) →
          ∀ j < n_u, v.1.u (rows ((points.take k).sum + i)) j = w.1.u (rows ((points.take k).sum + i)) j := by
  have z : ∀ a : ℕ → Fin n_u → ℝ, 0 ≤ Ph.segmentSquares (fun p i => W p scheme 2 "u" i) (fun i => a (rows i)) 0 points (Ph.hArr ext) ∧
      (Ph.segmentSquares (fun p i => W p scheme 2 "u" i) (fun i => a (rows i)) 0 points (Ph.hArr ext) = 0 ↔
        ∀ k < points.length, ∀ i < points.getD k 0, ¬(scheme = "JGR" ∧ Even (points.getD k 0) ∧ i = 0) →
        ∀ j, a (rows ((points.take k).sum + i)) j = 0) := by
    intro a
    obtain ⟨v, k1, k2, k3⟩ := C184_segments_partial hs hW hlen hp hh a rows hrows
    rw [Ph.C35_u_sq_cost W scheme points _ a rows hrows] at k1
    obtain rfl := Except.ok.inj k1
    exact ⟨k2, k3⟩
  refine ⟨_, fun p => Ph.C35_u_sq_cost W scheme points _ _ rows hrows, oneOptimum (keeps_ph hF hC)
    (quad_segments (f := fun (p : Vars × (ℕ → ℕ → ℕ → ℝ)) i (j : Fin n_u) => p.1.u (rows i) j)
      (fun i j => ((aff_u.comp aff_fst).at _).at _) _ _ _ _)
    (fun v v' => (z fun i j => v.1.u i j - v'.1.u i j).1) ?_⟩
  intro v v' _ _ h0 k hk i hi hn j hj
  exact sub_eq_zero.1 ((z fun i j => v.1.u i j - v'.1.u i j).2.1 h0 k hk i hi hn ⟨j, hj⟩)

/-! ## Equispaced problems -/

/-- The stored arrays of controls: those of the variables, those of the centres, and the third one of "hsj_parab_mod". -/
def stored (n_u : ℕ) (p : (Vars × Vars) × (ℕ → ℕ → ℝ)) : Costs.Controls n_u :=
  ⟨fun i j => p.1.1.u i j, fun i j => p.1.2.u i j, fun i j => p.2 i j⟩

theorem aff_stored_u (i j : ℕ) : Aff fun p : (Vars × Vars) × (ℕ → ℕ → ℝ) => p.1.1.u i j := ((aff_u.comp (aff_fst.comp aff_fst)).at i).at j
theorem aff_stored_c (i j : ℕ) : Aff fun p : (Vars × Vars) × (ℕ → ℕ → ℝ) => p.1.2.u i j := ((aff_u.comp (aff_snd.comp aff_fst)).at i).at j
theorem aff_stored_j (i j : ℕ) : Aff fun p : (Vars × Vars) × (ℕ → ℕ → ℝ) => p.2 i j := (aff_snd.at i).at j

theorem keeps_stored (scheme : String) (N n_u : ℕ) : Keeps fun p => Costs.uSqConstraint scheme N (stored n_u p) := by
  unfold Costs.uSqConstraint
  split
  · exact .all fun i => .all fun _ => .all fun j => .eq (aff_stored_c _ _) (.div (.add (.sub (.mul_left _ (aff_stored_j _ _))
      (.mul_left _ (aff_stored_u _ _))) (.mul_left _ (aff_stored_u _ _))) _)
  · exact keeps_true

theorem pyIn_contains (a s : String) : pyIn a s = contains s a := by
  rw [Bool.eq_iff_iff, pyIn, pyInList_iff, contains, decide_eq_true_iff]
  constructor
  · rintro ⟨x, y, h⟩
    exact ⟨x, y, h.symm⟩
  · rintro ⟨x, y, h⟩
    exact ⟨x, y, h.symm⟩

/-- C186, equispaced problems with any scheme: no optimum is only local, and the best controls are the same at the grid points and at
the centres. -/
theorem C186_equispaced {F : Dyn} (hF : LinearDyn F) (scheme : String) {N : ℕ} (hN : 0 < N) (order n_q n_u : ℕ) {t0 t1 : ℝ} (ht : t0 < t1)
    {C : Vars → Vars → Prop} (hC : equiConstraints F scheme N order n_q n_u t0 t1 = .ok C) :
    OneOptimum (fun p => C p.1.1 p.1.2 ∧ Costs.uSqConstraint scheme N (stored n_u p))
      (fun p => Costs.uSqCost scheme (t1 - t0) N (stored n_u p)) fun v w =>
      (∀ i ≤ N, ∀ j < n_u, v.1.1.u i j = w.1.1.u i j) ∧
      (contains scheme "hs" = true → ∀ i < N, ∀ j < n_u, v.1.2.u i j = w.1.2.u i j) := by
  have au := aff_stored_u
  have ac := aff_stored_c
  have aj := aff_stored_j
  have hk := keeps_stored scheme N n_u
  obtain ⟨diff, hdiff⟩ : ∃ diff : (Vars × Vars) × (ℕ → ℕ → ℝ) → (Vars × Vars) × (ℕ → ℕ → ℝ) → Costs.Controls n_u,
      diff = fun p r => ⟨fun i j => p.1.1.u i j - r.1.1.u i j, fun i j => p.1.2.u i j - r.1.2.u i j, fun i j => p.2 i j - r.2 i j⟩ := ⟨_, rfl⟩
  have qu : ∀ a b (j : Fin n_u), Quad (fun p => Costs.sum1 (Costs.sqArr (stored n_u p).u) a b j)
      fun p r => Costs.sum1 (Costs.sqArr (diff p r).u) a b j := fun a b j => by
    rw [hdiff]; exact .sum _ fun i _ => (au i j).sq
  have qc : ∀ a b (j : Fin n_u), Quad (fun p => Costs.sum1 (Costs.sqArr (if scheme = "hsj_parab_mod" then (stored n_u p).u_j else (stored n_u p).u_c)) a b j)
      fun p r => Costs.sum1 (Costs.sqArr (if scheme = "hsj_parab_mod" then (diff p r).u_j else (diff p r).u_c)) a b j := fun a b j => by
    rw [hdiff]
    split
    · exact .sum _ fun i _ => (aj i j).sq
    · exact .sum _ fun i _ => (ac i j).sq
  have hJ : Quad (fun p => Costs.uSqCost scheme (t1 - t0) N (stored n_u p)) fun p r => Costs.uSqCost scheme (t1 - t0) N (diff p r) := by
    unfold Costs.uSqCost
    split
    · dsimp only
      split
      · exact .mul_left _ (.sum _ fun j _ => .div (.add (.add (.mul_left _ (qc ..)) (.mul_left _ (qu ..))) (.mul_left _ (qu ..))) _)
      · exact .mul_left _ (.sum _ fun j _ => .div (.add (.add (.mul_left _ (qc ..)) (qu ..)) (qu ..)) _)
    · exact .mul_left _ (.sum _ fun j _ => .div (.add (qu ..) (qu ..)) _)
  have z := fun p r => Costs.C184_equispaced scheme (sub_pos.2 ht) hN (diff p r)
  refine oneOptimum (.and ((keeps_equi hF hC).comp aff_fst) hk) hJ (fun p r => (z p r).1) ?_
  rintro v w ⟨cv, kv⟩ ⟨cw, kw⟩ h0
  obtain ⟨h1, h2⟩ := (z v w).2.1 h0
  have hu : ∀ i ≤ N, ∀ j < n_u, v.1.1.u i j = w.1.1.u i j := fun i hi j hj => by
    have := h1 i hi ⟨j, hj⟩
    rw [hdiff] at this
    exact sub_eq_zero.1 this
  refine ⟨hu, fun hhs i hi j hj => ?_⟩
  obtain ⟨f, hf, hC⟩ := Exc.bind_ok hC
  obtain rfl := Except.ok.inj hC
  by_cases hp : contains scheme "parab" = true
  · have hp' : pyIn "parab" scheme = true := by rw [pyIn_contains, hp]
    have hm := h2 hp' i hi ⟨j, hj⟩
    rw [hdiff] at hm
    by_cases hmod : scheme = "hsj_parab_mod"
    · have e : v.2 i j = w.2 i j := by
        rw [Costs.middle, if_pos hmod] at hm
        exact sub_eq_zero.1 hm
      have hb : (pyIn "parab" scheme && (scheme == "hsj_parab_mod")) = true := by rw [hp', hmod]; rfl
      rw [Costs.uSqConstraint, if_pos hb] at kv kw
      have k1 : v.1.2.u i j = (24 * v.2 i j - 2 * v.1.1.u (i + 1) j + 3 * v.1.1.u i j) / 25 := kv i hi ⟨j, hj⟩
      have k2 : w.1.2.u i j = (24 * w.2 i j - 2 * w.1.1.u (i + 1) j + 3 * w.1.1.u i j) / 25 := kw i hi ⟨j, hj⟩
      rw [k1, k2, e, hu i hi.le j hj, hu (i + 1) hi j hj]
    · rw [Costs.middle, if_neg hmod] at hm
      exact sub_eq_zero.1 hm
  · have hp' : contains scheme "parab" = false := by simpa using hp
    rw [(cv.2.2 hhs).2 hp' i hi j hj, (cw.2.2 hhs).2 hp' i hi j hj, hu i hi.le j hj, hu (i + 1) hi j hj]

/-! ## Examples -/

theorem linear_doubleIntegrator : LinearDyn doubleIntegrator := by
  intro s x x' xd xd' u u' l l' h k r hr
  have h1 := h (xd 0 - x 1) (by simp [doubleIntegrator])
  have h2 := h (xd 1 - u 0) (by simp [doubleIntegrator])
  have k1 := k (xd' 0 - x' 1) (by simp [doubleIntegrator])
  have k2 := k (xd' 1 - u' 0) (by simp [doubleIntegrator])
  simp only [doubleIntegrator, List.mem_cons, List.not_mem_nil, or_false] at hr
  rcases hr with rfl | rfl
  · linear_combination s * h1 + (1 - s) * k1
  · linear_combination s * h2 + (1 - s) * k2

/-- Conditions that a user may add: a given start and a bound for a control. -/
example (s : ℝ) (v w : Vars) (s0 : 0 ≤ s) (s1 : s ≤ 1) (hv : v.x 0 0 = 3 ∧ |v.u 0 0| ≤ 1) (hw : w.x 0 0 = 3 ∧ |w.u 0 0| ≤ 1) :
    (mix s v w).x 0 0 = 3 ∧ |(mix s v w).u 0 0| ≤ 1 := by
  obtain ⟨h1, h2⟩ := abs_le.1 hv.2
  obtain ⟨h3, h4⟩ := abs_le.1 hw.2
  constructor
  · change s * v.x 0 0 + (1 - s) * w.x 0 0 = 3
    rw [hv.1, hw.1]
    ring
  · change |s * v.u 0 0 + (1 - s) * w.u 0 0| ≤ 1
    rw [abs_le]
    constructor <;> nlinarith

/-- Dynamics with a square are not linear. -/
example : ¬ LinearDyn fun x xd _ _ => [xd 1 - x 0 ^ 2] := by
  intro h
  have := h (1 / 2) (fun _ => 0) (fun _ => 2) (fun _ => 0) (fun _ => 4) (fun _ => 0) (fun _ => 0) (fun _ => 0) (fun _ => 0)
    (by simp [zero]) (by norm_num [zero]) ((1 / 2 * 0 + (1 - 1 / 2) * 4 : ℝ) - (1 / 2 * 0 + (1 - 1 / 2) * 2) ^ 2) (by simp)
  norm_num at this

/-- The double integrator with three points of Gauss, in each kind of problem of one interval. -/
example : LinearDyn doubleIntegrator ∧ "LG" ∈ implemented ∧ ("LG" ∈ jacobiSchemes → 2 ≤ 2) ∧ minPoints "LG" ≤ 3 ∧ (0 : ℝ) < 1 ∧
    (∃ C, nodeConstraints doubleIntegrator "LG" 3 2 1 0 1 = .ok C) ∧ (∃ C, buConstraints doubleIntegrator "LG" 3 2 1 0 1 = .ok C) ∧
    ∃ C, tdConstraints doubleIntegrator "LG" 3 2 1 0 1 = .ok C := by
  refine ⟨linear_doubleIntegrator, by decide, fun _ => le_rfl, by decide, by norm_num, ?_, ?_, ?_⟩
  · obtain ⟨_, _, _, _, C, -, -, -, -, h, -⟩ := C73_feasible (scheme := "LG") (by decide) (by decide) (order := 2) (by norm_num) (Or.inl le_rfl)
      (N := 3) (by decide) doubleIntegrator 1 (t0 := 0) (t1 := 1) (by norm_num)
    exact ⟨C, h⟩
  · obtain ⟨_, _, C, -, -, h, -⟩ := C30_feasible (scheme := "LG") (by decide) (order := 2) (by norm_num) (N := 3)
      (by decide) (Or.inl (by norm_num)) doubleIntegrator 1 (t0 := 0) (t1 := 1) (by norm_num)
    exact ⟨C, h⟩
  · obtain ⟨_, _, _, C, -, -, -, h, -⟩ := C31_feasible (scheme := "LG") (by decide) (order := 2) (by norm_num) (N := 3)
      (by decide) doubleIntegrator 1 (t0 := 0) (t1 := 1) (by norm_num)
    exact ⟨C, h⟩

/-- Two segments with two points each. -/
example : ∃ C, phConstraints doubleIntegrator .bu "LGR" 2 1 1 [2, 2] [0, 1, 3] = .ok C ∧ ∀ d ∈ Ph.hArr [0, 1, 3], (0 : ℝ) < d := by
  obtain ⟨C, h, -⟩ := C99_feasible (scheme := "LGR") (by decide) (order := 2) (by norm_num) doubleIntegrator 1 1 (points := [2, 2]) (by simp)
    (by decide) (Or.inl (by decide)) (coll := fun p => LGR p) (fun p _ => by simp [collPoints]) (ext := [0, 1, 3]) (by simp)
    (by intro s hs; simp only [List.length_cons, List.length_nil] at hs; interval_cases s <;> norm_num)
  exact ⟨C, h, by norm_num [Ph.hArr]⟩

/-- Equispaced problems have their conditions whatever the numbers are. -/
example : ∃ C, equiConstraints doubleIntegrator "hsj_parab_mod" 4 2 1 1 0 1 = .ok C := ⟨_, rfl⟩

/-! ## What is wrong with Jacobi-Radau points -/

/-- C186 is false for "JGR" with an even number of points. Two of them and the double integrator, from rest at the origin and with
the default order: for every number there is a feasible point with that control at the start and with cost zero, which nothing is
below; and where they end is as different. -/
theorem C186_refuted : ∃ C, buConstraints doubleIntegrator "JGR" 2 2 1 0 1 = .ok C ∧ ∀ a : ℝ, ∃ v : Vars, C v ∧ v.x 0 0 = 0 ∧ v.x 0 1 = 0 ∧
    v.u 0 0 = a ∧ v.x 2 0 = a / 6 ∧ PsCost.buUSqCost "JGR" 2 0 1 1 v.u = .ok 0 ∧
    ∀ w : Vars, ∃ r, PsCost.buUSqCost "JGR" 2 0 1 1 w.u = .ok r ∧ 0 ≤ r := by
  obtain ⟨coll, full, C, h1, h2, h3, h4⟩ := C30_feasible (scheme := "JGR") (by decide) (order := 2) (by norm_num) (N := 2)
    (by decide) (Or.inl le_rfl) doubleIntegrator 1 (t0 := 0) (t1 := 1) (by norm_num)
  have hj : JGR 2 2 = [-1, 0] := by rw [JGR_two]; norm_num
  have hb : buCollPoints 2 "JGR" 2 = .ok [-1, 0] := by rw [← hj]; simp [buCollPoints]
  have hc : coll = [-1, 0] := Except.ok.inj (h1.symm.trans hb)
  have hf : full = [-1, 0, 1] := by
    have : buArrPoints 2 "JGR" 2 = .ok [-1, 0, 1] := by
      rw [buArrPoints, buConstructionPoints, hb]
      rfl
    exact Except.ok.inj (h2.symm.trans this)
  refine ⟨C, h3, fun a => ?_⟩
  refine ⟨⟨fun i c => if c = 0 then a * (((i : ℝ) / 2) ^ 2 / 2 - ((i : ℝ) / 2) ^ 3 / 3) else a * ((i : ℝ) / 2 - ((i : ℝ) / 2) ^ 2),
    fun i c => if c = 0 then a * ((i : ℝ) / 2 - ((i : ℝ) / 2) ^ 2) else a * (1 - i), fun m _ => a * (1 - m), fun _ _ => 0⟩, ?_, by simp, by simp,
    by simp, by norm_num; ring, ?_, fun w => ?_⟩
  · rw [h4, hf, hc]
    refine ⟨⟨fun _ => Polynomial.C (a / 2) * X ^ 2 - Polynomial.C (a / 3) * X ^ 3, fun j hj => ⟨?_, fun k hk i hi => ?_⟩⟩,
      fun m hm => ⟨m, ?_, ?_, ?_⟩⟩
    · refine lt_of_le_of_lt (b := ((3 : ℕ) : WithBot ℕ)) ?_ (by norm_num)
      have h : (Polynomial.C (a / 2) * X ^ 2 - Polynomial.C (a / 3) * X ^ 3 : ℝ[X]).natDegree ≤ 3 := by compute_degree
      exact degree_le_of_natDegree_le h
    · obtain rfl : j = 0 := by omega
      simp only [List.length_cons, List.length_nil] at hi
      have e : tauToT (arr [-1, 0, 1] i) 0 1 = (i : ℝ) / 2 := by
        interval_cases i <;> norm_num [tauToT, arr]
      rw [e]
      interval_cases k
      · simp [Vars.lev]
        ring
      · simp [Vars.lev]
        ring
      · simp [Vars.lev]
        ring
    · simp only [List.length_cons, List.length_nil] at hm ⊢
      omega
    · simp only [List.length_cons, List.length_nil] at hm
      interval_cases m <;> rfl
    · simp [zero, doubleIntegrator]
  · obtain ⟨r, r1, r2, r3⟩ := C184_bu_partial (scheme := "JGR") (by decide) (N := 2) (by decide) (t0 := 0) (t1 := 1) (by norm_num) 1
      (fun m _ => a * (1 - m))
    rw [r1, r3.2]
    intro i hi hn c hc
    have : i = 1 := by
      have : i ≠ 0 := fun h => hn ⟨rfl, by decide, h⟩
      omega
    simp [this]
  · obtain ⟨r, r1, r2, -⟩ := C184_bu_partial (scheme := "JGR") (by decide) (N := 2) (by decide) (t0 := 0) (t1 := 1) (by norm_num) 1 w.u
    exact ⟨r, r1, r2⟩

end Chords.Blend
