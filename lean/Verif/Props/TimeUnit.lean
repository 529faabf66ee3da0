import Verif.Props.PhNode
import Verif.Props.NodePs
import Verif.Props.Solvable
import Verif.Model.Costs
import Verif.Model.PsCost

/-! # C190: the unit and the origin of time do not matter -/

namespace Chords.Units
open Finset Polynomial Chords.Points Chords.Bary Chords.BuTd Chords.Equi Chords.PhScheme Chords.Problem Chords.Spec Chords.Props Chords.TimeScale

/-- The arrays with another unit of time, of which the old one has `κ`: a derivative of order `k` is divided by `κ ^ k`. -/
noncomputable def rescaled (κ : ℝ) (n_q : ℕ) (v : Vars) : Vars :=
  ⟨fun i c => v.x i c / κ ^ (c / n_q), fun i c => v.xd i c / κ ^ (c / n_q + 1), v.u, v.lam⟩

/-- The same system, described with the other unit of time. -/
noncomputable def rescaledDyn (κ : ℝ) (n_q : ℕ) (F : Dyn) : Dyn := fun x xd u l =>
  F (fun c => x c * κ ^ (c / n_q)) (fun c => xd c * κ ^ (c / n_q + 1)) u l

variable {κ : ℝ} {n_q : ℕ}

theorem rescaled_inv (hκ : κ ≠ 0) (v : Vars) : rescaled κ⁻¹ n_q (rescaled κ n_q v) = v := by
  have h : ∀ (a : ℝ) (k : ℕ), a / κ ^ k / κ⁻¹ ^ k = a := fun a k => by
    have := pow_ne_zero k hκ
    rw [inv_pow]
    field_simp
  cases v
  simp only [rescaled, h]

theorem rescaledDyn_inv (hκ : κ ≠ 0) (F : Dyn) : rescaledDyn κ⁻¹ n_q (rescaledDyn κ n_q F) = F := by
  have h : ∀ (a : ℝ) (k : ℕ), a * κ ^ k * κ⁻¹ ^ k = a := fun a k => by
    have := pow_ne_zero k hκ
    rw [inv_pow]
    field_simp
  have h' : ∀ (a : ℝ) (k : ℕ), a * κ⁻¹ ^ k * κ ^ k = a := fun a k => by
    have := pow_ne_zero k hκ
    rw [inv_pow]
    field_simp
  funext x xd u l
  simp only [rescaledDyn, h']

theorem rescaled_zero (hκ : κ ≠ 0) (F : Dyn) (v : Vars) (i m k : ℕ) :
    rescaledDyn κ n_q F ((rescaled κ n_q v).x i) ((rescaled κ n_q v).xd i) ((rescaled κ n_q v).u m) ((rescaled κ n_q v).lam k) =
      F (v.x i) (v.xd i) (v.u m) (v.lam k) := by
  have h : ∀ (a : ℝ) (k : ℕ), a / κ ^ k * κ ^ k = a := fun a k => div_mul_cancel₀ _ (pow_ne_zero k hκ)
  simp only [rescaledDyn, rescaled, h]

theorem rescaled_lev {order k j : ℕ} (v : Vars) (i : ℕ) (ho : 1 ≤ order) (hk : k ≤ order) (hj : j < n_q) :
    (rescaled κ n_q v).lev order n_q k i j = v.lev order n_q k i j / κ ^ k := by
  have hq : 0 < n_q := by omega
  have e : ∀ k, (n_q * k + j) / n_q = k := fun k => by rw [Nat.mul_add_div hq, Nat.div_eq_of_lt hj, add_zero]
  unfold Vars.lev
  split
  · simp only [rescaled, e]
  · simp only [rescaled, e]
    rw [show order - 1 + 1 = k by omega]

/-! ## Equispaced problems -/

theorem Motion.rescale {c : ℕ → ℝ → ℝ} (hκ : κ ≠ 0) (h : Motion c) : Motion fun k t => c k (t / κ) / κ ^ k := by
  intro k t
  have := ((h k (t / κ)).comp t ((hasDerivAt_id t).div_const κ)).div_const (κ ^ k)
  refine this.congr_deriv ?_
  dsimp only
  rw [pow_succ]
  field_simp

theorem Reached.rescale {s : Shape} {M : ℕ} {x xn xc : ℕ → ℝ} {a an ac h : ℝ} (hκ : κ ≠ 0) (hr : Reached s M x xn xc a an ac h) :
    Reached s M (fun p => x p / κ ^ p) (fun p => xn p / κ ^ p) (fun p => xc p / κ ^ p) (a / κ ^ M) (an / κ ^ M) (ac / κ ^ M) (κ * h) := by
  obtain ⟨c, c1, c2, c3⟩ := hr
  have e : κ * h / κ = h := by field_simp
  refine ⟨fun k t => c k (t / κ) / κ ^ k, ?_, fun p hp => ?_, fun θ hθ p hp => ?_⟩
  · cases s with
    | line =>
      obtain ⟨b, hb⟩ := c1.top_line
      refine ⟨Motion.rescale hκ c1.motion, fun p hp => by simp [c1.start p hp], ⟨b / κ / κ ^ M, fun t => ?_⟩, ?_⟩
      · rw [hb]
        simp only [smul_eq_mul]
        ring
      · rw [e, c1.top_end]
    | parab θ =>
      obtain ⟨b, d, hb⟩ := c1.top_parabola
      refine ⟨Motion.rescale hκ c1.motion, fun p hp => by simp [c1.start p hp], ⟨b / κ / κ ^ M, d / κ ^ 2 / κ ^ M, fun t => ?_⟩, ?_, ?_⟩
      · rw [hb]
        simp only [smul_eq_mul]
        ring
      · rw [show θ * (κ * h) / κ = θ * h by field_simp, c1.top_mid]
      · rw [e, c1.top_end]
  · dsimp only
    rw [e, c2 p hp]
  · dsimp only
    rw [show θ * (κ * h) / κ = θ * h by field_simp, c3 θ hθ p hp]

theorem Reached.mul {s : Shape} {M : ℕ} {x xn xc : ℕ → ℝ} {a an ac h : ℝ} (l : ℝ) (hr : Reached s M x xn xc a an ac h) :
    Reached s M (fun p => l * x p) (fun p => l * xn p) (fun p => l * xc p) (l * a) (l * an) (l * ac) h := by
  obtain ⟨c, c1, c2, c3⟩ := hr
  refine ⟨fun k t => l * c k t, ?_, fun p hp => by dsimp only; rw [c2 p hp], fun θ hθ p hp => by dsimp only; rw [c3 θ hθ p hp]⟩
  cases s with
  | line =>
    obtain ⟨b, hb⟩ := c1.top_line
    refine ⟨fun k t => (c1.motion k t).const_mul l, fun p hp => by rw [c1.start p hp], ⟨l * b, fun t => ?_⟩, by rw [c1.top_end]⟩
    rw [hb]
    simp only [smul_eq_mul]
    ring
  | parab θ =>
    obtain ⟨b, d, hb⟩ := c1.top_parabola
    refine ⟨fun k t => (c1.motion k t).const_mul l, fun p hp => by rw [c1.start p hp], ⟨l * b, l * d, fun t => ?_⟩, by rw [c1.top_mid], by rw [c1.top_end]⟩
    rw [hb]
    simp only [smul_eq_mul]
    ring

private theorem dur (κ b t0 t1 : ℝ) (N : ℕ) : (κ * t1 + b - (κ * t0 + b)) / N = κ * ((t1 - t0) / N) := by ring

private theorem back (hκ : κ ≠ 0) (b t : ℝ) : κ⁻¹ * (κ * t + b) + -(b / κ) = t := by field_simp; ring

section
variable {F : Dyn} {scheme : String} {s : Shape} {order N n_u : ℕ} {t0 t1 : ℝ}

private theorem motion_half {κ b t0 t1 : ℝ} (hκ : κ ≠ 0) (F : Dyn) (hs : SchemeIs (some order) scheme s order) (ho : 1 ≤ order) (hN : 0 < N) (ht : t0 ≠ t1)
    {P P' : Vars → Vars → Prop} (hP : equiConstraints F scheme N order n_q n_u t0 t1 = .ok P)
    (hP' : equiConstraints (rescaledDyn κ n_q F) scheme N order n_q n_u (κ * t0 + b) (κ * t1 + b) = .ok P') {v c : Vars} (h : P v c) :
    P' (rescaled κ n_q v) (rescaled κ n_q c) := by
  obtain ⟨Q, hQ, hv⟩ := C91_motion F hs N n_q n_u hN ht
  obtain rfl := Except.ok.inj (hP.symm.trans hQ)
  obtain ⟨Q', hQ', hv'⟩ := C91_motion (rescaledDyn κ n_q F) hs N n_q n_u hN (t_start := κ * t0 + b) (t_end := κ * t1 + b)
    (fun e => ht (mul_left_cancel₀ hκ (add_right_cancel e)))
  obtain rfl := Except.ok.inj (hP'.symm.trans hQ')
  obtain ⟨h1, h2, h3⟩ := (hv v c).1 h
  refine (hv' _ _).2 ⟨fun i hi j hj => ?_, fun i hi => by rw [rescaled_zero hκ]; exact h2 i hi, fun θ hθ => ⟨fun i hi => by
    rw [rescaled_zero hκ]; exact (h3 θ hθ).1 i hi, (h3 θ hθ).2⟩⟩
  rw [dur]
  simp only [rescaled_lev _ _ ho le_rfl hj]
  refine Conv.reached_congr ?_ ?_ ?_ (Reached.rescale hκ (h1 i hi j hj)) <;> exact fun p hp => (rescaled_lev _ _ ho hp.le hj).symm

private theorem levels_half {κ b t0 t1 : ℝ} (hκ : κ ≠ 0) (F : Dyn)
    (hs : scheme = "trapz" ∧ s = .line ∨ (scheme = "hs" ∨ scheme = "hs_parab") ∧ s = .parab (1 / 2)) (ho : 1 ≤ order) (hN : 0 < N) (ht : t0 ≠ t1)
    {P P' : Vars → Vars → Prop} (hP : equiConstraints F scheme N order n_q n_u t0 t1 = .ok P)
    (hP' : equiConstraints (rescaledDyn κ n_q F) scheme N order n_q n_u (κ * t0 + b) (κ * t1 + b) = .ok P') {v c : Vars} (h : P v c) :
    P' (rescaled κ n_q v) (rescaled κ n_q c) := by
  obtain ⟨Q, hQ, hv⟩ := C91_levels F hs N order n_q n_u hN ht
  obtain rfl := Except.ok.inj (hP.symm.trans hQ)
  obtain ⟨Q', hQ', hv'⟩ := C91_levels (rescaledDyn κ n_q F) hs N order n_q n_u hN (t_start := κ * t0 + b) (t_end := κ * t1 + b)
    (fun e => ht (mul_left_cancel₀ hκ (add_right_cancel e)))
  obtain rfl := Except.ok.inj (hP'.symm.trans hQ')
  obtain ⟨h1, h2, h3⟩ := (hv v c).1 h
  refine (hv' _ _).2 ⟨fun i hi j hj p hp => ?_, fun i hi => by rw [rescaled_zero hκ]; exact h2 i hi, fun hl => ⟨fun i hi => by
    rw [rescaled_zero hκ]; exact (h3 hl).1 i hi, (h3 hl).2⟩⟩
  rw [dur]
  simp only [rescaled_lev _ _ ho hp.le hj, rescaled_lev _ _ ho (show p + 1 ≤ order by omega) hj]
  have := Reached.mul (1 / κ ^ p) (Reached.rescale hκ (h1 i hi j hj p hp))
  have e : ∀ y : ℝ, 1 / κ ^ p * (y / κ ^ 1) = y / κ ^ (p + 1) := fun y => by rw [pow_one, pow_succ]; field_simp
  rw [e, e, e] at this
  refine Conv.reached_congr ?_ ?_ ?_ this <;>
  · intro q hq
    obtain rfl : q = 0 := by omega
    rw [pow_zero, div_one, one_div_mul_eq_div]

/-- The schemes of equispaced problems, for problems of an order. -/
def Usable (scheme : String) (order : ℕ) : Prop := (∃ s, SchemeIs (some order) scheme s order) ∨ scheme ∈ ["trapz", "hs", "hs_parab"] ∨
  scheme = "hsj_parab_mod" ∧ order = 2

private theorem usable_ok {order : ℕ} (hs : Usable scheme order) (F : Dyn) (hN : 0 < N) (ht : t0 ≠ t1) :
    ∃ P, equiConstraints F scheme N order n_q n_u t0 t1 = .ok P := by
  obtain ⟨s, hs⟩ | hs | ⟨rfl, rfl⟩ := hs
  · obtain ⟨P, h, -⟩ := C91_motion F hs N n_q n_u hN ht
    exact ⟨P, h⟩
  · simp only [List.mem_cons, List.not_mem_nil, or_false] at hs
    obtain rfl | hs := hs
    · obtain ⟨P, h, -⟩ := C91_levels F (.inl ⟨rfl, rfl⟩) N order n_q n_u hN ht
      exact ⟨P, h⟩
    · obtain ⟨P, h, -⟩ := C91_levels F (.inr ⟨hs, rfl⟩) N order n_q n_u hN ht
      exact ⟨P, h⟩
  · obtain ⟨P, h, -⟩ := C91_motion F .hsj_parab N n_q n_u hN ht
    exact ⟨P, h⟩

private theorem usable_half {order : ℕ} {κ b t0 t1 : ℝ} (hκ : κ ≠ 0) (F : Dyn) (hs : Usable scheme order) (ho : 1 ≤ order) (hN : 0 < N) (ht : t0 ≠ t1)
    {P P' : Vars → Vars → Prop} (hP : equiConstraints F scheme N order n_q n_u t0 t1 = .ok P)
    (hP' : equiConstraints (rescaledDyn κ n_q F) scheme N order n_q n_u (κ * t0 + b) (κ * t1 + b) = .ok P') {v c : Vars} (h : P v c) :
    P' (rescaled κ n_q v) (rescaled κ n_q c) := by
  obtain ⟨s, hs⟩ | hs | ⟨rfl, rfl⟩ := hs
  · exact motion_half hκ F hs ho hN ht hP hP' h
  · simp only [List.mem_cons, List.not_mem_nil, or_false] at hs
    obtain rfl | hs := hs
    · exact levels_half hκ F (.inl ⟨rfl, rfl⟩) ho hN ht hP hP' h
    · exact levels_half hκ F (.inr ⟨hs, rfl⟩) ho hN ht hP hP' h
  · rw [C91_hsj_parab_mod] at hP hP'
    exact motion_half hκ F .hsj_parab ho hN ht hP hP' h

/-- C190, equispaced problems: a trajectory is feasible if and only if it is when it and the system are written with another unit and
origin of time, and the cost is multiplied by the number of new units in an old one. -/
theorem C190_equispaced {order : ℕ} (hs : Usable scheme order) (ho : 1 ≤ order) (hN : 0 < N) (F : Dyn) (n_q n_u : ℕ) {κ t0 t1 : ℝ} (hκ : κ ≠ 0) (b : ℝ) (ht : t0 ≠ t1) :
    ∃ P P', equiConstraints F scheme N order n_q n_u t0 t1 = .ok P ∧
      equiConstraints (rescaledDyn κ n_q F) scheme N order n_q n_u (κ * t0 + b) (κ * t1 + b) = .ok P' ∧
      (∀ v c, P v c ↔ P' (rescaled κ n_q v) (rescaled κ n_q c)) ∧
      ∀ {m : ℕ} (a : Costs.Controls m), Costs.uSqCost scheme (κ * t1 + b - (κ * t0 + b)) N a = κ * Costs.uSqCost scheme (t1 - t0) N a := by
  have ht' : κ * t0 + b ≠ κ * t1 + b := fun e => ht (mul_left_cancel₀ hκ (add_right_cancel e))
  obtain ⟨P, hP⟩ := usable_ok (n_q := n_q) (n_u := n_u) hs F hN ht
  obtain ⟨P', hP'⟩ := usable_ok (n_q := n_q) (n_u := n_u) hs (rescaledDyn κ n_q F) hN ht'
  refine ⟨P, P', hP, hP', fun v c => ⟨usable_half hκ F hs ho hN ht hP hP', fun h => ?_⟩, fun a => ?_⟩
  · have := usable_half (κ := κ⁻¹) (b := -(b / κ)) (inv_ne_zero hκ) (rescaledDyn κ n_q F) hs ho hN ht' hP'
      (P' := P) (by rw [rescaledDyn_inv hκ, back hκ, back hκ]; exact hP) h
    rwa [rescaled_inv hκ, rescaled_inv hκ] at this
  · unfold Costs.uSqCost
    dsimp only
    split
    · split <;> ring
    · ring
end

/-! ## Polynomials -/

theorem poly_rescale (hκ : κ ≠ 0) (b : ℝ) (Q : ℝ[X]) : ∃ Q' : ℝ[X], (∀ n : ℕ, Q.degree < n → Q'.degree < n) ∧
    ∀ k t, (derivative^[k] Q').eval (κ * t + b) = (derivative^[k] Q).eval t / κ ^ k := by
  have hl : (C κ⁻¹ * X + C (-(b / κ)) : ℝ[X]).natDegree ≤ 1 := by compute_degree
  have hd : ∀ k (Q : ℝ[X]), derivative^[k] (Q.comp (C κ⁻¹ * X + C (-(b / κ)))) = C (κ⁻¹ ^ k) * (derivative^[k] Q).comp (C κ⁻¹ * X + C (-(b / κ))) := by
    intro k
    induction k with
    | zero => intro Q; simp
    | succ k ih =>
      intro Q
      rw [Function.iterate_succ_apply, Function.iterate_succ_apply, derivative_comp, show derivative (C κ⁻¹ * X + C (-(b / κ)) : ℝ[X]) = C κ⁻¹ by simp,
        iterate_derivative_C_mul, ih, ← mul_assoc, ← C_mul, pow_succ']
  refine ⟨Q.comp (C κ⁻¹ * X + C (-(b / κ))), fun n hn => ?_, fun k t => ?_⟩
  · by_cases h0 : Q = 0
    · rw [h0, zero_comp, ← h0]; exact hn
    · refine lt_of_le_of_lt degree_le_natDegree ?_
      have := natDegree_comp_le (p := Q) (q := (C κ⁻¹ * X + C (-(b / κ)) : ℝ[X]))
      have h1 : Q.natDegree < n := (natDegree_lt_iff_degree_lt h0).2 hn
      have : (Q.comp (C κ⁻¹ * X + C (-(b / κ)))).natDegree < n := by nlinarith
      exact_mod_cast this
  · rw [hd, eval_mul, eval_C, eval_comp]
    simp only [eval_add, eval_mul, eval_C, eval_X]
    rw [back hκ, inv_pow]
    field_simp

theorem tauToT_rescale (κ b τ t0 t1 : ℝ) : tauToT τ (κ * t0 + b) (κ * t1 + b) = κ * tauToT τ t0 t1 + b := by
  unfold tauToT
  ring

theorem traj_rescale {v : Vars} {order deg : ℕ} {taus : List ℝ} {t0 t1 : ℝ} (hκ : κ ≠ 0) (b : ℝ) (ho : 1 ≤ order)
    (h : IsTrajectory v order n_q deg taus t0 t1) : IsTrajectory (rescaled κ n_q v) order n_q deg taus (κ * t0 + b) (κ * t1 + b) := by
  obtain ⟨Q, hQ⟩ := h
  choose Q' h1 h2 using fun j => poly_rescale hκ b (Q j)
  refine ⟨Q', fun j hj => ⟨h1 j deg (hQ j hj).1, fun k hk i hi => ?_⟩⟩
  rw [rescaled_lev _ _ ho hk hj, (hQ j hj).2 k hk i hi, tauToT_rescale, h2]

theorem coll_rescale {F : Dyn} {v : Vars} {taus coll : List ℝ} (hκ : κ ≠ 0) (h : Collocated F v taus coll) :
    Collocated (rescaledDyn κ n_q F) (rescaled κ n_q v) taus coll := by
  intro m hm
  obtain ⟨i, hi, h1, h2⟩ := h m hm
  exact ⟨i, hi, h1, by rw [rescaled_zero hκ]; exact h2⟩

/-! ## Pseudospectral problems of one interval -/

/-- C190, bottom-up problems. -/
theorem C190_bu {scheme : String} (hs : scheme ∈ buImplemented) {order : ℕ} (ho : 1 ≤ order) {N : ℕ}
    (hN : minPoints scheme ≤ N) (h1 : 2 ≤ N ∨ scheme ∉ gaussLike) (F : Dyn) (n_q : ℕ) {κ t0 t1 : ℝ} (hκ : κ ≠ 0) (b : ℝ) (ht : t0 ≠ t1) :
    ∃ C C', buConstraints F scheme N order n_q t0 t1 = .ok C ∧
      buConstraints (rescaledDyn κ n_q F) scheme N order n_q (κ * t0 + b) (κ * t1 + b) = .ok C' ∧
      ∀ v, C v ↔ C' (rescaled κ n_q v) := by
  have ht' : κ * t0 + b ≠ κ * t1 + b := fun e => ht (mul_left_cancel₀ hκ (add_right_cancel e))
  obtain ⟨coll, full, C, k1, k2, hC, hv⟩ := C30_feasible hs ho hN h1 F n_q ht
  obtain ⟨coll', full', C', k1', k2', hC', hv'⟩ := C30_feasible hs ho hN h1 (rescaledDyn κ n_q F) n_q ht'
  obtain rfl := Except.ok.inj (k1.symm.trans k1')
  obtain rfl := Except.ok.inj (k2.symm.trans k2')
  refine ⟨C, C', hC, hC', fun v => ?_⟩
  rw [hv, hv']
  refine ⟨fun h => ⟨traj_rescale hκ b ho h.1, coll_rescale hκ h.2⟩, fun h => ⟨?_, ?_⟩⟩
  · have := traj_rescale (inv_ne_zero hκ) (-(b / κ)) ho h.1
    rwa [rescaled_inv hκ, back hκ, back hκ] at this
  · have := coll_rescale (n_q := n_q) (inv_ne_zero hκ) h.2
    rwa [rescaled_inv hκ, rescaledDyn_inv hκ] at this

/-- C190, top-down problems. -/
theorem C190_td {scheme : String} (hs : scheme ∈ buImplemented) {order : ℕ} (ho : 1 ≤ order) {N : ℕ}
    (hN : minPoints scheme ≤ N) (F : Dyn) (n_q : ℕ) {κ t0 t1 : ℝ} (hκ : κ ≠ 0) (b : ℝ) (ht : t0 ≠ t1) :
    ∃ C C', tdConstraints F scheme N order n_q t0 t1 = .ok C ∧
      tdConstraints (rescaledDyn κ n_q F) scheme N order n_q (κ * t0 + b) (κ * t1 + b) = .ok C' ∧
      ∀ v, (∃ q, C v q) ↔ ∃ q, C' (rescaled κ n_q v) q := by
  have ht' : κ * t0 + b ≠ κ * t1 + b := fun e => ht (mul_left_cancel₀ hκ (add_right_cancel e))
  obtain ⟨coll, full, nu, C, k1, k2, -, hC, hv, -⟩ := C31_feasible hs ho hN F n_q ht
  obtain ⟨coll', full', nu', C', k1', k2', -, hC', hv', -⟩ := C31_feasible hs ho hN (rescaledDyn κ n_q F) n_q ht'
  obtain rfl := Except.ok.inj (k1.symm.trans k1')
  obtain rfl := Except.ok.inj (k2.symm.trans k2')
  refine ⟨C, C', hC, hC', fun v => ?_⟩
  rw [hv, hv']
  refine ⟨fun h => ⟨traj_rescale hκ b ho h.1, coll_rescale hκ h.2⟩, fun h => ⟨?_, ?_⟩⟩
  · have := traj_rescale (inv_ne_zero hκ) (-(b / κ)) ho h.1
    rwa [rescaled_inv hκ, back hκ, back hκ] at this
  · have := coll_rescale (n_q := n_q) (inv_ne_zero hκ) h.2
    rwa [rescaled_inv hκ, rescaledDyn_inv hκ] at this

theorem ntraj_rescale {v : Vars} {order n : ℕ} {nodes taus : List ℝ} {t0 t1 : ℝ} (hκ : κ ≠ 0) (b : ℝ)
    (h : IsNodeTrajectory v order n_q n nodes taus t0 t1) : IsNodeTrajectory (rescaled κ n_q v) order n_q n nodes taus (κ * t0 + b) (κ * t1 + b) := by
  obtain ⟨p, hp⟩ := h
  choose p' h1 h2 using fun c => poly_rescale hκ b (p c)
  refine ⟨fun c => C (1 / κ ^ (c / n_q)) * p' c, fun c hc => ⟨lt_of_le_of_lt (by dsimp only; rw [← smul_eq_C_mul]; exact degree_smul_le _ _) (h1 c n (hp c hc).1), fun i hi => ⟨?_, fun hh => ?_⟩⟩⟩
  · have := h2 c 0 (tauToT (arr taus i) t0 t1)
    simp only [Function.iterate_zero, id, pow_zero, div_one] at this
    rw [tauToT_rescale, eval_mul, eval_C, this, ← ((hp c hc).2 i hi).1]
    simp only [rescaled]
    ring
  · have := h2 c 1 (tauToT (arr taus i) t0 t1)
    simp only [Function.iterate_one, pow_one] at this
    rw [tauToT_rescale, derivative_C_mul, eval_mul, eval_C, this, ← ((hp c hc).2 i hi).2 hh]
    simp only [rescaled]
    rw [pow_succ]
    field_simp

/-- C190, node based problems. -/
theorem C190_node {scheme : String} (hs : scheme ∈ implemented) (h2 : scheme ∉ gauss2 ++ ["D2"]) {order : ℕ}
    (ho : 1 ≤ order) (hord : order ≤ 2 ∨ scheme ∉ gaussLike ++ gaussInv) {N : ℕ}
    (hN : minPoints scheme ≤ N) (F : Dyn) (n_q : ℕ) {κ t0 t1 : ℝ} (hκ : κ ≠ 0) (b : ℝ) (ht : t0 ≠ t1) :
    ∃ C C', nodeConstraints F scheme N order n_q t0 t1 = .ok C ∧
      nodeConstraints (rescaledDyn κ n_q F) scheme N order n_q (κ * t0 + b) (κ * t1 + b) = .ok C' ∧
      ∀ v, C v ↔ C' (rescaled κ n_q v) := by
  have ht' : κ * t0 + b ≠ κ * t1 + b := fun e => ht (mul_left_cancel₀ hκ (add_right_cancel e))
  obtain ⟨coll, n, nodes, full, C, k1, k2, k3, k4, hC, hv⟩ := C73_feasible hs h2 ho hord hN F n_q ht
  obtain ⟨coll', n', nodes', full', C', k1', k2', k3', k4', hC', hv'⟩ := C73_feasible hs h2 ho hord hN (rescaledDyn κ n_q F) n_q ht'
  obtain rfl := Except.ok.inj (k1.symm.trans k1')
  obtain rfl := Except.ok.inj (k2.symm.trans k2')
  obtain rfl := Except.ok.inj (k3.symm.trans k3')
  obtain rfl := Except.ok.inj (k4.symm.trans k4')
  refine ⟨C, C', hC, hC', fun v => ?_⟩
  rw [hv, hv']
  refine ⟨fun h => ⟨ntraj_rescale hκ b h.1, coll_rescale hκ h.2⟩, fun h => ⟨?_, ?_⟩⟩
  · have := ntraj_rescale (inv_ne_zero hκ) (-(b / κ)) h.1
    rwa [rescaled_inv hκ, back hκ, back hκ] at this
  · have := coll_rescale (n_q := n_q) (inv_ne_zero hκ) h.2
    rwa [rescaled_inv hκ, rescaledDyn_inv hκ] at this

/-- C190, node based problems with the schemes that differentiate twice. -/
theorem C190_node_second {scheme : String} (h2 : scheme ∈ gauss2 ++ ["D2"]) {N : ℕ} (hN : minPoints scheme ≤ N) (F : Dyn) (n_q : ℕ) {κ t0 t1 : ℝ}
    (hκ : κ ≠ 0) (b : ℝ) (ht : t0 ≠ t1) :
    ∃ C C', nodeConstraints F scheme N 2 n_q t0 t1 = .ok C ∧
      nodeConstraints (rescaledDyn κ n_q F) scheme N 2 n_q (κ * t0 + b) (κ * t1 + b) = .ok C' ∧
      ∀ v, C v ↔ C' (rescaled κ n_q v) := by
  have ht' : κ * t0 + b ≠ κ * t1 + b := fun e => ht (mul_left_cancel₀ hκ (add_right_cancel e))
  obtain ⟨coll, n, full, C, k1, k2, k3, hC, hv⟩ := C73_second h2 hN F n_q ht
  obtain ⟨coll', n', full', C', k1', k2', k3', hC', hv'⟩ := C73_second h2 hN (rescaledDyn κ n_q F) n_q ht'
  obtain rfl := Except.ok.inj (k1.symm.trans k1')
  obtain rfl := Except.ok.inj (k2.symm.trans k2')
  obtain rfl := Except.ok.inj (k3.symm.trans k3')
  refine ⟨C, C', hC, hC', fun v => ?_⟩
  rw [hv, hv']
  refine ⟨fun h => ⟨traj_rescale hκ b (by norm_num) h.1, coll_rescale hκ h.2⟩, fun h => ⟨?_, ?_⟩⟩
  · have := traj_rescale (inv_ne_zero hκ) (-(b / κ)) (by norm_num) h.1
    rwa [rescaled_inv hκ, back hκ, back hκ] at this
  · have := coll_rescale (n_q := n_q) (inv_ne_zero hκ) h.2
    rwa [rescaled_inv hκ, rescaledDyn_inv hκ] at this

/-- C190, the costs: whatever the constraints are, the cost in the other unit is the number `κ` times the cost, of the same controls. -/
theorem C190_cost (scheme : String) (N n_arr order n_u : ℕ) (κ b t0 t1 : ℝ) (u : ℕ → ℕ → ℝ) :
    PsCost.buUSqCost scheme N (κ * t0 + b) (κ * t1 + b) n_u u = (PsCost.buUSqCost scheme N t0 t1 n_u u).map (κ * ·) ∧
    PsCost.uSqCost scheme N n_arr order (κ * t0 + b) (κ * t1 + b) n_u u = (PsCost.uSqCost scheme N n_arr order t0 t1 n_u u).map (κ * ·) := by
  have e : ∀ y : ℝ, (κ * t1 + b - (κ * t0 + b)) * y = κ * ((t1 - t0) * y) := fun y => by ring
  constructor
  · unfold PsCost.buUSqCost
    dsimp only
    rcases PsCost.quadIntCas scheme N (squared := true) with _ | f
    · rfl
    · exact congrArg Except.ok (e _)
  · unfold PsCost.uSqCost PsCost.quadCost
    dsimp only
    rw [if_pos rfl, if_pos rfl]
    show (PsCost.quadIntCas scheme N order true "u" >>= _) = Except.map _ (PsCost.quadIntCas scheme N order true "u" >>= _)
    rcases PsCost.quadIntCas scheme N order true "u" with _ | f
    · rfl
    · exact congrArg Except.ok (e _)

theorem hArr_rescale (κ b : ℝ) (ext : List ℝ) : Ph.hArr (ext.map (κ * · + b)) = (Ph.hArr ext).map (κ * ·) := by
  unfold Ph.hArr
  rw [← List.map_tail, ← List.map_dropLast, List.zipWith_map, List.map_zipWith]
  congr 1
  funext x y
  ring

/-- C190, the cost of problems with several segments. -/
theorem C190_segments_cost {m : ℕ} (W : Ph.Weights) (scheme : String) (points : List ℕ) (κ b : ℝ) (ext : List ℝ) (u : ℕ → Fin m → ℝ) :
    Ph.uSqCost W scheme points (Ph.hArr (ext.map (κ * · + b))) u = (Ph.uSqCost W scheme points (Ph.hArr ext) u).map (κ * ·) := by
  rw [hArr_rescale]
  have key : ∀ (rs : List (List ℕ × ℕ)) (ps : List ℕ) (h : List ℝ),
      Ph.uSqCostLoop W scheme u rs ps (h.map (κ * ·)) = (Ph.uSqCostLoop W scheme u rs ps h).map (κ * ·) := by
    intro rs
    induction rs with
    | nil => intro ps h; simp [Ph.uSqCostLoop, Except.map]
    | cons r rs ih =>
      intro ps h
      cases ps with
      | nil => simp [Ph.uSqCostLoop, Except.map]
      | cons p ps =>
        cases h with
        | nil => simp [Ph.uSqCostLoop, Except.map]
        | cons h hs =>
          obtain ⟨rows, k⟩ := r
          simp only [List.map_cons, Ph.uSqCostLoop, ih]
          rcases Ph.quadIntCas W _ _ with _ | f
          · rfl
          simp only [bind, Except.bind]
          rcases Ph.applyCost f _ _ with _ | c
          · rfl
          simp only
          rcases Ph.uSqCostLoop W scheme u rs ps hs with _ | y
          · rfl
          simp only [Except.map]
          rw [mul_add, mul_assoc]
  exact key _ _ _

/-! ## Problems with several segments -/

theorem getD_rescale {ext : List ℝ} (κ b : ℝ) {s : ℕ} (hs : s < ext.length) : (ext.map (κ * · + b)).getD s 0 = κ * ext.getD s 0 + b := by
  simp [List.getD_eq_getElem?_getD, List.getElem?_eq_getElem hs]

theorem map_back {κ : ℝ} (hκ : κ ≠ 0) (b : ℝ) (ext : List ℝ) : (ext.map (κ * · + b)).map (κ⁻¹ * · + -(b / κ)) = ext := by
  rw [List.map_map]
  conv_rhs => rw [← List.map_id ext]
  refine List.map_congr_left fun t _ => ?_
  exact back hκ b t

theorem shift_rescale {v : Vars} {order : ℕ} {points : List ℕ} {s : ℕ} (h : KnotShift v order n_q points s) : KnotShift (rescaled κ n_q v) order n_q points s := by
  intro c hc
  have hq : 0 < n_q := Nat.pos_of_ne_zero fun e => by simp [e] at hc
  have : (n_q + c) / n_q = c / n_q + 1 := by rw [Nat.add_div_left _ hq]
  simp only [rescaled, this, h c hc]

theorem phColl_rescale {F : Dyn} {v : Vars} {points : List ℕ} (hκ : κ ≠ 0) (h : PhCollocated F v points) :
    PhCollocated (rescaledDyn κ n_q F) (rescaled κ n_q v) points := by
  intro s hs m hm
  rw [rescaled_zero hκ]
  exact h s hs m hm

section
variable {v : Vars} {order n_u : ℕ} {points : List ℕ} {coll : ℕ → List ℝ} {T T' : ℕ → ℝ} {b : ℝ}

theorem controls_rescale (hκ : κ ≠ 0) (hT : ∀ s ≤ points.length, T' s = κ * T s + b) (h : PhControls v n_u points coll T) :
    PhControls (rescaled κ n_q v) n_u points coll T' := by
  intro s hs c hc
  obtain ⟨p, h1, h2, h3, h4⟩ := h s hs c hc
  obtain ⟨p', k1, k2⟩ := poly_rescale hκ b p
  have k3 : ∀ t, p'.eval (κ * t + b) = p.eval t := fun t => by simpa using k2 0 t
  refine ⟨p', k1 _ h1, fun m hm => ?_, ?_, fun e => ?_⟩
  · rw [hT s hs.le, hT (s + 1) hs, tauToT_rescale, k3]
    exact h2 m hm
  · rw [hT s hs.le, k3]
    exact h3
  · rw [hT (s + 1) hs, k3]
    exact h4 e

theorem segPoly_rescale (ho : 1 ≤ order) (hT : ∀ s ≤ points.length, T' s = κ * T s + b) {s : ℕ} (hs : s < points.length) {Q Q' : ℕ → ℝ[X]}
    (hd : ∀ j (n : ℕ), (Q j).degree < n → (Q' j).degree < n)
    (hQ : ∀ j k t, (derivative^[k] (Q' j)).eval (κ * t + b) = (derivative^[k] (Q j)).eval t / κ ^ k)
    (h : SegPoly v order n_q points coll T s Q) : SegPoly (rescaled κ n_q v) order n_q points coll T' s Q' := by
  intro j hj
  obtain ⟨h1, h2, h3⟩ := h j hj
  refine ⟨hd _ _ h1, fun k hk => ?_, fun k hk m hm => ?_⟩
  · rw [rescaled_lev _ _ ho hk.le hj, rescaled_lev _ _ ho hk.le hj, hT s hs.le, hT (s + 1) hs, hQ, hQ, (h2 k hk).1, (h2 k hk).2]
    exact ⟨rfl, rfl⟩
  · rw [rescaled_lev _ _ ho hk hj, hT s hs.le, hT (s + 1) hs, tauToT_rescale, hQ, h3 k hk m hm]
end

/-- C190, bottom-up problems with several segments; `ext` has the start, the knots and the end. -/
theorem C190_segments_bu {scheme : String} (hs : scheme ∈ buImplemented) {order : ℕ} (ho : 1 ≤ order) (F : Dyn) (n_q n_u : ℕ) {points : List ℕ}
    (h0 : points ≠ []) (hN : ∀ p ∈ points, minPoints scheme ≤ p) (h1 : (∀ p ∈ points, 2 ≤ p) ∨ scheme ∉ gaussLike) {coll : ℕ → List ℝ}
    (hcoll : ∀ p ∈ points, collPoints p scheme order = .ok (coll p)) {ext : List ℝ} (hl : ext.length = points.length + 1)
    (ht : ∀ s < points.length, ext.getD s 0 ≠ ext.getD (s + 1) 0) {κ : ℝ} (hκ : κ ≠ 0) (b : ℝ) :
    ∃ C C', phConstraints F .bu scheme order n_q n_u points ext = .ok C ∧
      phConstraints (rescaledDyn κ n_q F) .bu scheme order n_q n_u points (ext.map (κ * · + b)) = .ok C' ∧
      ∀ v q q', C v q ↔ C' (rescaled κ n_q v) q' := by
  have key : ∀ {κ b : ℝ} (F : Dyn) {ext : List ℝ} (_ : κ ≠ 0) (_ : ext.length = points.length + 1)
      (_ : ∀ s < points.length, ext.getD s 0 ≠ ext.getD (s + 1) 0), ∃ C C', phConstraints F .bu scheme order n_q n_u points ext = .ok C ∧
      phConstraints (rescaledDyn κ n_q F) .bu scheme order n_q n_u points (ext.map (κ * · + b)) = .ok C' ∧
      ∀ v q q', C v q → C' (rescaled κ n_q v) q' := by
    intro κ b F ext hκ hl ht
    have hT : ∀ s ≤ points.length, (ext.map (κ * · + b)).getD s 0 = κ * ext.getD s 0 + b := fun s h => getD_rescale κ b (by omega)
    obtain ⟨C, hC, hv⟩ := C99_feasible hs ho F n_q n_u h0 hN h1 hcoll hl ht
    obtain ⟨C', hC', hv'⟩ := C99_feasible hs ho (rescaledDyn κ n_q F) n_q n_u h0 hN h1 hcoll (ext := ext.map (κ * · + b)) (by simpa using hl)
      (fun s h => by rw [hT s h.le, hT (s + 1) h]; exact fun e => ht s h (mul_left_cancel₀ hκ (add_right_cancel e)))
    refine ⟨C, C', hC, hC', fun v q q' h => ?_⟩
    obtain ⟨⟨Q, k1⟩, k2, k3, k4⟩ := (hv v q).1 h
    choose Q' d1 d2 using fun s j => poly_rescale hκ b (Q s j)
    refine (hv' _ _).2 ⟨⟨Q', fun s h => ⟨segPoly_rescale ho hT h (d1 s) (d2 s) (k1 s h).1, fun j hj => ?_, fun e j hj => ?_⟩⟩,
      fun s h => shift_rescale (k2 s h), phColl_rescale hκ k3, controls_rescale hκ hT k4⟩
    · rw [rescaled_lev _ _ ho le_rfl hj, hT s h.le, d2, (k1 s h).2.1 j hj]
    · rw [rescaled_lev _ _ ho le_rfl hj, hT (s + 1) h, d2, (k1 s h).2.2 e j hj]
  obtain ⟨C, C', hC, hC', h⟩ := key (b := b) F hκ hl ht
  refine ⟨C, C', hC, hC', fun v q q' => ⟨h v q q', fun hv => ?_⟩⟩
  have hT : ∀ s ≤ points.length, (ext.map (κ * · + b)).getD s 0 = κ * ext.getD s 0 + b := fun s h => getD_rescale κ b (by omega)
  obtain ⟨D, D', hD, hD', k⟩ := key (b := -(b / κ)) (rescaledDyn κ n_q F) (ext := ext.map (κ * · + b)) (inv_ne_zero hκ) (by simpa using hl)
    (fun s h => by rw [hT s h.le, hT (s + 1) h]; exact fun e => ht s h (mul_left_cancel₀ hκ (add_right_cancel e)))
  rw [rescaledDyn_inv hκ, map_back hκ] at hD'
  obtain rfl := Except.ok.inj (hC'.symm.trans hD)
  obtain rfl := Except.ok.inj (hC.symm.trans hD')
  have := k _ q' q hv
  rwa [rescaled_inv hκ] at this

/-- C190, top-down problems with several segments. -/
theorem C190_segments_td {scheme : String} (hs : scheme ∈ buImplemented) {order : ℕ} (ho : 1 ≤ order) (F : Dyn) (n_q n_u : ℕ) {points : List ℕ}
    (h0 : points ≠ []) (hN : ∀ p ∈ points, minPoints scheme ≤ p) {coll : ℕ → List ℝ}
    (hcoll : ∀ p ∈ points, collPoints p scheme order = .ok (coll p)) {ext : List ℝ} (hl : ext.length = points.length + 1)
    (ht : ∀ s < points.length, ext.getD s 0 ≠ ext.getD (s + 1) 0) {κ : ℝ} (hκ : κ ≠ 0) (b : ℝ) :
    ∃ C C', phConstraints F .td scheme order n_q n_u points ext = .ok C ∧
      phConstraints (rescaledDyn κ n_q F) .td scheme order n_q n_u points (ext.map (κ * · + b)) = .ok C' ∧
      ∀ v, (∃ q, C v q) ↔ ∃ q, C' (rescaled κ n_q v) q := by
  have key : ∀ {κ b : ℝ} (F : Dyn) {ext : List ℝ} (_ : κ ≠ 0) (_ : ext.length = points.length + 1)
      (_ : ∀ s < points.length, ext.getD s 0 ≠ ext.getD (s + 1) 0), ∃ C C', phConstraints F .td scheme order n_q n_u points ext = .ok C ∧
      phConstraints (rescaledDyn κ n_q F) .td scheme order n_q n_u points (ext.map (κ * · + b)) = .ok C' ∧
      ∀ v, (∃ q, C v q) → ∃ q, C' (rescaled κ n_q v) q := by
    intro κ b F ext hκ hl ht
    have hT : ∀ s ≤ points.length, (ext.map (κ * · + b)).getD s 0 = κ * ext.getD s 0 + b := fun s h => getD_rescale κ b (by omega)
    obtain ⟨C, hC, hv⟩ := C100_feasible hs ho F n_q n_u h0 hN hcoll hl ht
    obtain ⟨C', hC', hv'⟩ := C100_feasible hs ho (rescaledDyn κ n_q F) n_q n_u h0 hN hcoll (ext := ext.map (κ * · + b)) (by simpa using hl)
      (fun s h => by rw [hT s h.le, hT (s + 1) h]; exact fun e => ht s h (mul_left_cancel₀ hκ (add_right_cancel e)))
    refine ⟨C, C', hC, hC', fun v h => ?_⟩
    obtain ⟨⟨Q, k1⟩, k2, k3, k4⟩ := (hv v).1 h
    choose Q' d1 d2 using fun s j => poly_rescale hκ b (Q s j)
    refine (hv' _).2 ⟨⟨Q', fun s h => ⟨segPoly_rescale ho hT h (d1 s) (d2 s) (k1 s h).1, fun j hj => ⟨?_, ?_⟩⟩⟩,
      fun s h => shift_rescale (k2 s h), phColl_rescale hκ k3, controls_rescale hκ hT k4⟩
    · rw [rescaled_lev _ _ ho le_rfl hj, hT s h.le, d2, ((k1 s h).2 j hj).1]
    · rw [rescaled_lev _ _ ho le_rfl hj, hT (s + 1) h, d2, ((k1 s h).2 j hj).2]
  obtain ⟨C, C', hC, hC', h⟩ := key (b := b) F hκ hl ht
  refine ⟨C, C', hC, hC', fun v => ⟨h v, fun hv => ?_⟩⟩
  have hT : ∀ s ≤ points.length, (ext.map (κ * · + b)).getD s 0 = κ * ext.getD s 0 + b := fun s h => getD_rescale κ b (by omega)
  obtain ⟨D, D', hD, hD', k⟩ := key (b := -(b / κ)) (rescaledDyn κ n_q F) (ext := ext.map (κ * · + b)) (inv_ne_zero hκ) (by simpa using hl)
    (fun s h => by rw [hT s h.le, hT (s + 1) h]; exact fun e => ht s h (mul_left_cancel₀ hκ (add_right_cancel e)))
  rw [rescaledDyn_inv hκ, map_back hκ] at hD'
  obtain rfl := Except.ok.inj (hC'.symm.trans hD)
  obtain rfl := Except.ok.inj (hC.symm.trans hD')
  have := k _ hv
  rwa [rescaled_inv hκ] at this

/-- C190, node based problems with several segments. -/
theorem C190_segments_node {scheme : String} (hs : scheme ∈ implemented) {order : ℕ} (ho : 1 ≤ order) (hord : order ≤ 2 ∨ scheme ∉ gaussLike ++ gaussInv)
    (F : Dyn) (n_q n_u : ℕ) {points : List ℕ} (h0 : points ≠ []) (hN : ∀ p ∈ points, minPoints scheme ≤ p) {coll coll2 n : ℕ → _}
    (hcoll : ∀ p ∈ points, collPoints p scheme order = .ok (coll p)) (hcoll2 : ∀ p ∈ points, collPoints p scheme = .ok (coll2 p))
    (hn : ∀ p ∈ points, nColToNNodes scheme p = .ok (n p)) {ext : List ℝ} (hl : ext.length = points.length + 1)
    (ht : ∀ s < points.length, ext.getD s 0 ≠ ext.getD (s + 1) 0) {κ : ℝ} (hκ : κ ≠ 0) (b : ℝ) :
    ∃ C C', phConstraints F .node scheme order n_q n_u points ext = .ok C ∧
      phConstraints (rescaledDyn κ n_q F) .node scheme order n_q n_u points (ext.map (κ * · + b)) = .ok C' ∧
      ∀ v q q', C v q ↔ C' (rescaled κ n_q v) q' := by
  have key : ∀ {κ b : ℝ} (F : Dyn) {ext : List ℝ} (_ : κ ≠ 0) (_ : ext.length = points.length + 1)
      (_ : ∀ s < points.length, ext.getD s 0 ≠ ext.getD (s + 1) 0), ∃ C C', phConstraints F .node scheme order n_q n_u points ext = .ok C ∧
      phConstraints (rescaledDyn κ n_q F) .node scheme order n_q n_u points (ext.map (κ * · + b)) = .ok C' ∧
      ∀ v q q', C v q → C' (rescaled κ n_q v) q' := by
    intro κ b F ext hκ hl ht
    have hT : ∀ s ≤ points.length, (ext.map (κ * · + b)).getD s 0 = κ * ext.getD s 0 + b := fun s h => getD_rescale κ b (by omega)
    obtain ⟨C, hC, hv⟩ := C101_feasible hs ho hord F n_q n_u h0 hN hcoll hcoll2 hn hl ht
    obtain ⟨C', hC', hv'⟩ := C101_feasible hs ho hord (rescaledDyn κ n_q F) n_q n_u h0 hN hcoll hcoll2 hn (ext := ext.map (κ * · + b)) (by simpa using hl)
      (fun s h => by rw [hT s h.le, hT (s + 1) h]; exact fun e => ht s h (mul_left_cancel₀ hκ (add_right_cancel e)))
    refine ⟨C, C', hC, hC', fun v q q' h => ?_⟩
    obtain ⟨⟨P, k1⟩, k2, k3, k4⟩ := (hv v q).1 h
    choose P' d1 d2 using fun s c => poly_rescale hκ b (P s c)
    have e0 : ∀ s c t, (Polynomial.C (1 / κ ^ (c / n_q)) * P' s c : ℝ[X]).eval (κ * t + b) = (P s c).eval t / κ ^ (c / n_q) := fun s c t => by
      have := d2 s c 0 t
      simp only [Function.iterate_zero, id, pow_zero, div_one] at this
      rw [eval_mul, eval_C, this]
      ring
    have e1 : ∀ s c t, (derivative (Polynomial.C (1 / κ ^ (c / n_q)) * P' s c : ℝ[X])).eval (κ * t + b) = (derivative (P s c)).eval t / κ ^ (c / n_q + 1) := fun s c t => by
      have := d2 s c 1 t
      simp only [Function.iterate_one, pow_one] at this
      rw [derivative_C_mul, eval_mul, eval_C, this, pow_succ]
      field_simp
    refine (hv' _ _).2 ⟨⟨fun s c => Polynomial.C (1 / κ ^ (c / n_q)) * P' s c, fun s h c hc => ?_⟩, ?_, phColl_rescale hκ k3, controls_rescale hκ hT k4⟩
    · obtain ⟨a1, a2, a3, a4, a5⟩ := k1 s h c hc
      dsimp only
      rw [hT s h.le, hT (s + 1) h]
      refine ⟨lt_of_le_of_lt (by rw [← smul_eq_C_mul]; exact degree_smul_le _ _) (d1 s c _ a1), fun m hm => ?_, fun e => ?_, fun e => ?_, fun e => ?_⟩
      · rw [tauToT_rescale, e0, e1, ← (a2 m hm).1, ← (a2 m hm).2]
        exact ⟨rfl, rfl⟩
      · rw [e0, e0, ← (a3 e).1, ← (a3 e).2]
        exact ⟨rfl, rfl⟩
      · rw [e1, ← a4 e]
        rfl
      · rw [e1, ← a5 e]
        rfl
    · exact ⟨fun e s h => shift_rescale (k2.1 e s h), fun e => shift_rescale (k2.2.1 e), fun e => shift_rescale (k2.2.2 e)⟩
  obtain ⟨C, C', hC, hC', h⟩ := key (b := b) F hκ hl ht
  refine ⟨C, C', hC, hC', fun v q q' => ⟨h v q q', fun hv => ?_⟩⟩
  have hT : ∀ s ≤ points.length, (ext.map (κ * · + b)).getD s 0 = κ * ext.getD s 0 + b := fun s h => getD_rescale κ b (by omega)
  obtain ⟨D, D', hD, hD', k⟩ := key (b := -(b / κ)) (rescaledDyn κ n_q F) (ext := ext.map (κ * · + b)) (inv_ne_zero hκ) (by simpa using hl)
    (fun s h => by rw [hT s h.le, hT (s + 1) h]; exact fun e => ht s h (mul_left_cancel₀ hκ (add_right_cancel e)))
  rw [rescaledDyn_inv hκ, map_back hκ] at hD'
  obtain rfl := Except.ok.inj (hC'.symm.trans hD)
  obtain rfl := Except.ok.inj (hC.symm.trans hD')
  have := k _ q' q hv
  rwa [rescaled_inv hκ] at this

/-! ## Examples -/

/-- With milliseconds instead of seconds the double integrator says that a million times the acceleration is the control. -/
example (x xd u l : ℕ → ℝ) : zero (rescaledDyn 1000 1 doubleIntegrator x xd u l) ↔ xd 0 = x 1 ∧ xd 1 * 1000000 = u 0 := by
  norm_num [rescaledDyn, doubleIntegrator, zero, sub_eq_zero]

example : Usable "hsj" 2 ∧ Usable "trapz" 2 ∧ Usable "hsj_parab_mod" 2 := ⟨.inl ⟨_, .hsj⟩, .inr (.inl (by decide)), .inr (.inr ⟨rfl, rfl⟩)⟩

/-- The motion `t² / 2` under the control 1, by the trapezoidal rule with two intervals of half a second, is feasible; in milliseconds,
with the clock started three milliseconds earlier, it is too. -/
example : ∃ P', equiConstraints (rescaledDyn 1000 1 doubleIntegrator) "trapz_mod" 2 2 1 1 (1000 * 0 + 3) (1000 * 1 + 3) = .ok P' ∧
    P' (rescaled 1000 1 ⟨fun i c => if c = 0 then ((i : ℝ) / 2) ^ 2 / 2 else (i : ℝ) / 2, fun i c => if c = 0 then (i : ℝ) / 2 else 1, fun _ _ => 1, fun _ _ => 0⟩)
      (rescaled 1000 1 ⟨fun _ _ => 0, fun _ _ => 0, fun _ _ => 0, fun _ _ => 0⟩) := by
  obtain ⟨P, P', hP, hP', h, -⟩ := C190_equispaced (scheme := "trapz_mod") (order := 2) (.inl ⟨_, .trapz_mod⟩) (by norm_num) (N := 2) (by norm_num) doubleIntegrator 1 1
    (κ := 1000) (t0 := 0) (t1 := 1) (by norm_num) 3 (by norm_num)
  refine ⟨P', hP', (h _ _).1 ?_⟩
  have e : equiConstraints doubleIntegrator "trapz_mod" 2 2 1 1 0 1 = .ok _ := rfl
  obtain rfl := Except.ok.inj (hP.symm.trans e)
  refine ⟨fun i hi j hj p hp => ?_, fun i hi => ?_, fun h => absurd h (by decide)⟩
  · obtain rfl : j = 0 := by omega
    interval_cases p
    · simp [Vars.lev]
      norm_num [trapzModAccelRestr]
      ring
    · simp [Vars.lev]
      norm_num [trapzModAccelRestr]
      ring
  · simp [zero, doubleIntegrator]

/-- From seconds to milliseconds with three points of Gauss, in each kind of problem, and with two segments. -/
example : (∃ C C', buConstraints doubleIntegrator "LG" 3 2 1 0 1 = .ok C ∧ buConstraints (rescaledDyn 1000 1 doubleIntegrator) "LG" 3 2 1 (1000 * 0 + 3) (1000 * 1 + 3) = .ok C' ∧
      ∀ v, C v ↔ C' (rescaled 1000 1 v)) ∧
    (∃ C C', nodeConstraints doubleIntegrator "LG" 3 2 1 0 1 = .ok C ∧ nodeConstraints (rescaledDyn 1000 1 doubleIntegrator) "LG" 3 2 1 (1000 * 0 + 3) (1000 * 1 + 3) = .ok C' ∧
      ∀ v, C v ↔ C' (rescaled 1000 1 v)) ∧
    ∃ C C', phConstraints doubleIntegrator .bu "LGR" 2 1 1 [2, 2] [0, 1, 3] = .ok C ∧
      phConstraints (rescaledDyn 1000 1 doubleIntegrator) .bu "LGR" 2 1 1 [2, 2] ([0, 1, 3].map (1000 * · + 3)) = .ok C' ∧
      ∀ v q q', C v q ↔ C' (rescaled 1000 1 v) q' :=
  ⟨C190_bu (by decide) (by norm_num) (by decide) (Or.inl (by norm_num)) doubleIntegrator 1 (by norm_num) 3 (by norm_num),
    C190_node (by decide) (by decide) (by norm_num) (Or.inl le_rfl) (by decide) doubleIntegrator 1 (by norm_num) 3 (by norm_num),
    C190_segments_bu (by decide) (by norm_num) doubleIntegrator 1 1 (points := [2, 2]) (by simp) (by decide) (Or.inl (by decide)) (coll := fun p => LGR p)
      (fun p _ => by simp [collPoints]) (ext := [0, 1, 3]) (by simp)
      (by intro s hs; simp only [List.length_cons, List.length_nil] at hs; interval_cases s <;> norm_num) (by norm_num) 3⟩

end Chords.Units
