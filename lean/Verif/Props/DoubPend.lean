import Verif.Model.DoubPend
import Mathlib.Analysis.SpecialFunctions.Trigonometric.Deriv
import Mathlib.Tactic.FieldSimp
import Mathlib.Tactic.Ring
import Mathlib.Tactic.LinearCombination

/-! # The double pendulum (C132) -/

namespace Chords.Props
open NumTools DoubPend Real

/-- Kinetic minus potential energy of two masses, the first at the end of a bar of length `l_0` that hangs from the origin, the second at the
end of a bar of length `l_1` that hangs from the first; the angles are measured from the vertical. -/
noncomputable def pendLagrangian (p : Par) (q_0 q_1 v_0 v_1 : ℝ) : ℝ :=
  let vx_0 := p.l_0 * cos q_0 * v_0
  let vy_0 := p.l_0 * sin q_0 * v_0
  let vx_1 := vx_0 + p.l_1 * cos q_1 * v_1
  let vy_1 := vy_0 + p.l_1 * sin q_1 * v_1
  let y_0 := -p.l_0 * cos q_0
  let y_1 := y_0 - p.l_1 * cos q_1
  p.m_0 / 2 * (vx_0 ^ 2 + vy_0 ^ 2) + p.m_1 / 2 * (vx_1 ^ 2 + vy_1 ^ 2) - (p.m_0 * p.g * y_0 + p.m_1 * p.g * y_1)

/-- The positions behind the Lagrangian: its velocities are the derivatives of the positions of the masses. -/
theorem pend_velocities (p : Par) {q_0 q_1 : ℝ → ℝ} {v_0 v_1 t : ℝ} (h0 : HasDerivAt q_0 v_0 t) (h1 : HasDerivAt q_1 v_1 t) :
    HasDerivAt (fun s => p.l_0 * sin (q_0 s)) (p.l_0 * cos (q_0 t) * v_0) t ∧
    HasDerivAt (fun s => -p.l_0 * cos (q_0 s)) (p.l_0 * sin (q_0 t) * v_0) t ∧
    HasDerivAt (fun s => p.l_0 * sin (q_0 s) + p.l_1 * sin (q_1 s)) (p.l_0 * cos (q_0 t) * v_0 + p.l_1 * cos (q_1 t) * v_1) t ∧
    HasDerivAt (fun s => -p.l_0 * cos (q_0 s) - p.l_1 * cos (q_1 s)) (p.l_0 * sin (q_0 t) * v_0 + p.l_1 * sin (q_1 t) * v_1) t := by
  have a : HasDerivAt (fun s => p.l_0 * sin (q_0 s)) (p.l_0 * cos (q_0 t) * v_0) t := by
    simpa [mul_assoc] using h0.sin.const_mul p.l_0
  have b : HasDerivAt (fun s => -p.l_0 * cos (q_0 s)) (p.l_0 * sin (q_0 t) * v_0) t := by
    have := h0.cos.const_mul (-p.l_0)
    rwa [show -p.l_0 * (-sin (q_0 t) * v_0) = p.l_0 * sin (q_0 t) * v_0 by ring] at this
  have c : HasDerivAt (fun s => p.l_1 * sin (q_1 s)) (p.l_1 * cos (q_1 t) * v_1) t := by
    simpa [mul_assoc] using h1.sin.const_mul p.l_1
  have d : HasDerivAt (fun s => p.l_1 * cos (q_1 s)) (-(p.l_1 * sin (q_1 t) * v_1)) t := by
    have := h1.cos.const_mul p.l_1
    rwa [show p.l_1 * (-sin (q_1 t) * v_1) = -(p.l_1 * sin (q_1 t) * v_1) by ring] at this
  refine ⟨a, b, a.add c, ?_⟩
  have := b.sub d
  rwa [sub_neg_eq_add] at this

theorem lagrangian_eq (p : Par) (q_0 q_1 v_0 v_1 : ℝ) : pendLagrangian p q_0 q_1 v_0 v_1 =
    (p.m_0 + p.m_1) / 2 * p.l_0 ^ 2 * v_0 ^ 2 + p.m_1 / 2 * p.l_1 ^ 2 * v_1 ^ 2 + p.m_1 * p.l_0 * p.l_1 * cos (q_0 - q_1) * v_0 * v_1
      + (p.m_0 + p.m_1) * p.g * p.l_0 * cos q_0 + p.m_1 * p.g * p.l_1 * cos q_1 := by
  unfold pendLagrangian
  dsimp only
  rw [cos_sub]
  linear_combination ((p.m_0 + p.m_1) / 2 * p.l_0 ^ 2 * v_0 ^ 2) * sin_sq_add_cos_sq q_0
    + (p.m_1 / 2 * p.l_1 ^ 2 * v_1 ^ 2) * sin_sq_add_cos_sq q_1

/-- The equations of Lagrange at an instant of a motion with generalised forces `u_0`, `u_1`: the momenta have derivatives that are the forces plus
the derivatives of the Lagrangian with respect to the coordinates. -/
def PendEquations (p : Par) (q_0 q_1 v_0 v_1 : ℝ → ℝ) (u_0 u_1 t : ℝ) : Prop :=
  HasDerivAt (fun s => deriv (fun w => pendLagrangian p (q_0 s) (q_1 s) w (v_1 s)) (v_0 s))
    (u_0 + deriv (fun w => pendLagrangian p w (q_1 t) (v_0 t) (v_1 t)) (q_0 t)) t ∧
  HasDerivAt (fun s => deriv (fun w => pendLagrangian p (q_0 s) (q_1 s) (v_0 s) w) (v_1 s))
    (u_1 + deriv (fun w => pendLagrangian p (q_0 t) w (v_0 t) (v_1 t)) (q_1 t)) t

theorem deriv_v0 (p : Par) (q_0 q_1 v_0 v_1 : ℝ) : deriv (fun w => pendLagrangian p q_0 q_1 w v_1) v_0 =
    (p.m_0 + p.m_1) * p.l_0 ^ 2 * v_0 + p.m_1 * p.l_0 * p.l_1 * cos (q_0 - q_1) * v_1 := by
  apply HasDerivAt.deriv
  simp only [lagrangian_eq]
  have h1 := ((hasDerivAt_id v_0).pow 2).const_mul ((p.m_0 + p.m_1) / 2 * p.l_0 ^ 2)
  have h2 := ((hasDerivAt_id v_0).const_mul (p.m_1 * p.l_0 * p.l_1 * cos (q_0 - q_1))).mul_const v_1
  have := ((((h1.add_const (p.m_1 / 2 * p.l_1 ^ 2 * v_1 ^ 2)).add h2).add_const ((p.m_0 + p.m_1) * p.g * p.l_0 * cos q_0)).add_const
    (p.m_1 * p.g * p.l_1 * cos q_1))
  refine this.congr_deriv ?_
  simp
  ring

theorem deriv_v1 (p : Par) (q_0 q_1 v_0 v_1 : ℝ) : deriv (fun w => pendLagrangian p q_0 q_1 v_0 w) v_1 =
    p.m_1 * p.l_1 ^ 2 * v_1 + p.m_1 * p.l_0 * p.l_1 * cos (q_0 - q_1) * v_0 := by
  apply HasDerivAt.deriv
  simp only [lagrangian_eq]
  have h1 := ((hasDerivAt_id v_1).pow 2).const_mul (p.m_1 / 2 * p.l_1 ^ 2)
  have h2 := (hasDerivAt_id v_1).const_mul (p.m_1 * p.l_0 * p.l_1 * cos (q_0 - q_1) * v_0)
  have := ((((h1.const_add ((p.m_0 + p.m_1) / 2 * p.l_0 ^ 2 * v_0 ^ 2)).add h2).add_const ((p.m_0 + p.m_1) * p.g * p.l_0 * cos q_0)).add_const
    (p.m_1 * p.g * p.l_1 * cos q_1))
  refine this.congr_deriv ?_
  simp
  ring

theorem deriv_q0 (p : Par) (q_0 q_1 v_0 v_1 : ℝ) : deriv (fun w => pendLagrangian p w q_1 v_0 v_1) q_0 =
    -(p.m_1 * p.l_0 * p.l_1 * sin (q_0 - q_1) * v_0 * v_1) - (p.m_0 + p.m_1) * p.g * p.l_0 * sin q_0 := by
  apply HasDerivAt.deriv
  simp only [lagrangian_eq]
  have h1 := (((((hasDerivAt_id q_0).sub_const q_1).cos).const_mul (p.m_1 * p.l_0 * p.l_1)).mul_const v_0).mul_const v_1
  have h2 := ((hasDerivAt_id q_0).cos).const_mul ((p.m_0 + p.m_1) * p.g * p.l_0)
  have := ((h1.const_add ((p.m_0 + p.m_1) / 2 * p.l_0 ^ 2 * v_0 ^ 2 + p.m_1 / 2 * p.l_1 ^ 2 * v_1 ^ 2)).add h2).add_const
    (p.m_1 * p.g * p.l_1 * cos q_1)
  refine this.congr_deriv ?_
  simp
  ring

theorem deriv_q1 (p : Par) (q_0 q_1 v_0 v_1 : ℝ) : deriv (fun w => pendLagrangian p q_0 w v_0 v_1) q_1 =
    p.m_1 * p.l_0 * p.l_1 * sin (q_0 - q_1) * v_0 * v_1 - p.m_1 * p.g * p.l_1 * sin q_1 := by
  apply HasDerivAt.deriv
  simp only [lagrangian_eq]
  have h1 := (((((hasDerivAt_id q_1).const_sub q_0).cos).const_mul (p.m_1 * p.l_0 * p.l_1)).mul_const v_0).mul_const v_1
  have h2 := ((hasDerivAt_id q_1).cos).const_mul (p.m_1 * p.g * p.l_1)
  have := ((h1.const_add ((p.m_0 + p.m_1) / 2 * p.l_0 ^ 2 * v_0 ^ 2 + p.m_1 / 2 * p.l_1 ^ 2 * v_1 ^ 2)).add_const
    ((p.m_0 + p.m_1) * p.g * p.l_0 * cos q_0)).add h2
  refine this.congr_deriv ?_
  simp
  ring

/-- The equations of motion, written out. -/
theorem pendEquations_iff (p : Par) {q_0 q_1 v_0 v_1 : ℝ → ℝ} {a_0 a_1 u_0 u_1 t : ℝ} (h0 : HasDerivAt q_0 (v_0 t) t)
    (h1 : HasDerivAt q_1 (v_1 t) t) (h2 : HasDerivAt v_0 a_0 t) (h3 : HasDerivAt v_1 a_1 t) :
    PendEquations p q_0 q_1 v_0 v_1 u_0 u_1 t ↔
      (p.m_0 + p.m_1) * p.l_0 ^ 2 * a_0 + p.m_1 * p.l_0 * p.l_1 * cos (q_0 t - q_1 t) * a_1
        + p.m_1 * p.l_0 * p.l_1 * sin (q_0 t - q_1 t) * v_1 t ^ 2 + (p.m_0 + p.m_1) * p.g * p.l_0 * sin (q_0 t) = u_0 ∧
      p.m_1 * p.l_1 ^ 2 * a_1 + p.m_1 * p.l_0 * p.l_1 * cos (q_0 t - q_1 t) * a_0
        - p.m_1 * p.l_0 * p.l_1 * sin (q_0 t - q_1 t) * v_0 t ^ 2 + p.m_1 * p.g * p.l_1 * sin (q_1 t) = u_1 := by
  unfold PendEquations
  simp only [deriv_v0, deriv_v1, deriv_q0, deriv_q1]
  have d0 := (h2.const_mul ((p.m_0 + p.m_1) * p.l_0 ^ 2)).add (((h0.sub h1).cos.const_mul (p.m_1 * p.l_0 * p.l_1)).mul h3)
  have d1 := (h3.const_mul (p.m_1 * p.l_1 ^ 2)).add (((h0.sub h1).cos.const_mul (p.m_1 * p.l_0 * p.l_1)).mul h2)
  simp only [Pi.sub_apply] at d0 d1
  constructor
  · rintro ⟨e0, e1⟩
    have f0 := d0.unique e0
    have f1 := d1.unique e1
    constructor
    · linear_combination f0
    · linear_combination f1
  · rintro ⟨f0, f1⟩
    exact ⟨d0.congr_deriv (by linear_combination f0), d1.congr_deriv (by linear_combination f1)⟩

/-- The accelerations are the only solution of the equations of motion. -/
theorem accel_iff (p : Par) (h0 : p.l_0 ≠ 0) (h1 : p.l_1 ≠ 0) (hm : p.m_1 ≠ 0) (q_0 q_1 v_0 v_1 u_0 u_1 a_0 a_1 : ℝ)
    (hD : p.m_0 - p.m_1 * cos (q_0 - q_1) ^ 2 + p.m_1 ≠ 0) :
    (a_0 = accel0 p q_0 q_1 v_0 v_1 u_0 u_1 ∧ a_1 = accel1 p q_0 q_1 v_0 v_1 u_0 u_1) ↔
      (p.m_0 + p.m_1) * p.l_0 ^ 2 * a_0 + p.m_1 * p.l_0 * p.l_1 * cos (q_0 - q_1) * a_1
        + p.m_1 * p.l_0 * p.l_1 * sin (q_0 - q_1) * v_1 ^ 2 + (p.m_0 + p.m_1) * p.g * p.l_0 * sin q_0 = u_0 ∧
      p.m_1 * p.l_1 ^ 2 * a_1 + p.m_1 * p.l_0 * p.l_1 * cos (q_0 - q_1) * a_0
        - p.m_1 * p.l_0 * p.l_1 * sin (q_0 - q_1) * v_0 ^ 2 + p.m_1 * p.g * p.l_1 * sin q_1 = u_1 := by
  unfold accel0 accel1
  obtain ⟨c, hc⟩ : ∃ c, c = cos (q_0 - q_1) := ⟨_, rfl⟩
  obtain ⟨s, hs⟩ : ∃ s, s = sin (q_0 - q_1) := ⟨_, rfl⟩
  obtain ⟨s0, hs0⟩ : ∃ s, s = sin q_0 := ⟨_, rfl⟩
  obtain ⟨s1, hs1⟩ : ∃ s, s = sin q_1 := ⟨_, rfl⟩
  rw [← hc] at hD
  rw [← hc, ← hs, ← hs0, ← hs1]
  clear hc hs hs0 hs1
  rw [eq_div_iff (mul_ne_zero (mul_ne_zero (pow_ne_zero _ h0) h1) hD),
    eq_div_iff (mul_ne_zero (mul_ne_zero (mul_ne_zero h0 (pow_ne_zero _ h1)) hm) hD)]
  constructor
  · rintro ⟨e0, e1⟩
    have k0 : p.l_1 * (p.m_0 - p.m_1 * c ^ 2 + p.m_1) ≠ 0 := mul_ne_zero h1 hD
    have k1 : p.l_0 * (p.m_0 - p.m_1 * c ^ 2 + p.m_1) ≠ 0 := mul_ne_zero h0 hD
    constructor
    · apply mul_left_cancel₀ k0
      linear_combination (p.m_0 + p.m_1) * e0 + c * e1
    · apply mul_left_cancel₀ k1
      linear_combination e1 + p.m_1 * c * e0
  · rintro ⟨f0, f1⟩
    constructor
    · linear_combination p.l_1 * f0 - p.l_0 * c * f1
    · linear_combination p.l_0 * (p.m_0 + p.m_1) * f1 - p.l_1 * p.m_1 * c * f0

theorem read_ten (p : Par) {z : List ℝ} (hz : z.length = 5) : readParams (z ++ [p.m_1, p.l_1, p.l_0, p.m_0, p.g]) = .ok p := by
  match z, hz with
  | [_, _, _, _, _], _ => rfl

theorem doubPendF_vec (p : Par) (z : List ℝ) (hz : z.length = 5) (q_0 q_1 v_0 v_1 u_0 u_1 : ℝ) :
    doubPendF (.vec [q_0, q_1, v_0, v_1]) (.vec [u_0, u_1]) (z ++ [p.m_1, p.l_1, p.l_0, p.m_0, p.g]) =
      .ok (.vec [v_0, v_1, accel0 p q_0 q_1 v_0 v_1 u_0 u_1, accel1 p q_0 q_1 v_0 v_1 u_0 u_1]) := by
  simp only [doubPendF, unpack, List.map_cons, List.map_nil, four, two, read_ten p hz, bind, Except.bind]
  rfl

/-- C132. With ten parameters, the last five of which are the masses, lengths and gravity, `doub_pend_F` gives the derivative of the state exactly
for the motions of the double pendulum: those that obey the equations of Lagrange with the controls as torques. -/
theorem C132_motion (p : Par) (h0 : p.l_0 ≠ 0) (h1 : p.l_1 ≠ 0) (hm0 : 0 < p.m_0) (hm1 : 0 < p.m_1) (z : List ℝ) (hz : z.length = 5)
    {q_0 q_1 v_0 v_1 : ℝ → ℝ} {w_0 w_1 a_0 a_1 u_0 u_1 t : ℝ} (d0 : HasDerivAt q_0 w_0 t) (d1 : HasDerivAt q_1 w_1 t)
    (d2 : HasDerivAt v_0 a_0 t) (d3 : HasDerivAt v_1 a_1 t) :
    doubPendF (.vec [q_0 t, q_1 t, v_0 t, v_1 t]) (.vec [u_0, u_1]) (z ++ [p.m_1, p.l_1, p.l_0, p.m_0, p.g]) =
        .ok (.vec [w_0, w_1, a_0, a_1]) ↔
      w_0 = v_0 t ∧ w_1 = v_1 t ∧ PendEquations p q_0 q_1 v_0 v_1 u_0 u_1 t := by
  have hD : p.m_0 - p.m_1 * cos (q_0 t - q_1 t) ^ 2 + p.m_1 ≠ 0 := by
    have h2 := mul_nonneg hm1.le (sub_nonneg.2 (cos_sq_le_one (q_0 t - q_1 t)))
    intro h
    linarith
  rw [doubPendF_vec p z hz]
  simp only [Except.ok.injEq, Val.vec.injEq, List.cons.injEq, and_true]
  have key := accel_iff p h0 h1 hm1.ne' (q_0 t) (q_1 t) (v_0 t) (v_1 t) u_0 u_1 a_0 a_1 hD
  constructor
  · rintro ⟨rfl, rfl, e0, e1⟩
    exact ⟨rfl, rfl, (pendEquations_iff p d0 d1 d2 d3).2 (key.1 ⟨e0.symm, e1.symm⟩)⟩
  · rintro ⟨rfl, rfl, h⟩
    obtain ⟨e0, e1⟩ := key.2 ((pendEquations_iff p d0 d1 d2 d3).1 h)
    exact ⟨rfl, rfl, e0.symm, e1.symm⟩

theorem four_map {A B : Type} (f : A → B) : ∀ l : List A, four (l.map f) = (four l).map fun a => (f a.1, f a.2.1, f a.2.2.1, f a.2.2.2)
  | [] => rfl
  | [_] => rfl
  | [_, _] => rfl
  | [_, _, _] => rfl
  | [_, _, _, _] => rfl
  | _ :: _ :: _ :: _ :: _ :: _ => rfl

theorem two_map {A B : Type} (f : A → B) : ∀ l : List A, two (l.map f) = (two l).map fun a => (f a.1, f a.2)
  | [] => rfl
  | [_] => rfl
  | [_, _] => rfl
  | _ :: _ :: _ :: _ => rfl

/-- C132: the function for CasADi gives the same as the one for numbers, and fails where that fails. -/
theorem C132_casadi (x u params : List ℝ) : (doubPendFCas x u params).map .vec = doubPendF (.vec x) (.vec u) params := by
  simp only [doubPendF, doubPendFCas, unpack, four_map, two_map, bind, Except.bind, pure, Except.pure]
  cases four x with
  | error e => rfl
  | ok a =>
    cases two u with
    | error e => rfl
    | ok b =>
      cases readParams params with
      | error e => rfl
      | ok p => rfl

theorem eval_lift6 (f : ℝ → ℝ → ℝ → ℝ → ℝ → ℝ → ℝ) (n : ℕ) (h1 : n ≠ 1) (c : Fin 6 → List ℝ) (hc : ∀ j, (c j).length = n) :
    (lift6 f).eval [.vec (c 0), .vec (c 1), .vec (c 2), .vec (c 3), .vec (c 4), .vec (c 5)] = .ok (.vec ((List.range n).map fun k =>
      f ((c 0).getD k 0) ((c 1).getD k 0) ((c 2).getD k 0) ((c 3).getD k 0) ((c 4).getD k 0) ((c 5).getD k 0))) := by
  simp only [NumTools.Expr.eval, lift6, List.filterMap_cons, List.filterMap_nil, List.getD_cons_zero, List.getD_cons_succ, Val.toVec?,
    List.map_cons, List.map_nil, hc, List.filter_cons, h1, ne_eq, not_false_eq_true, decide_true, if_true, List.filter_nil, entry, if_false,
    List.headD_cons, reduceCtorEq]
  rw [if_pos (by simp)]

/-- C132 for a series of states and controls, with any number of rows but one: row by row. -/
theorem C132_series (p : Par) (z : List ℝ) (hz : z.length = 5) (X : List (Fin 4 → ℝ)) (U : List (Fin 2 → ℝ)) (hl : U.length = X.length)
    (h1 : X.length ≠ 1) : ∃ R : List (Fin 4 → ℝ),
      doubPendF (.mat 4 X) (.mat 2 U) (z ++ [p.m_1, p.l_1, p.l_0, p.m_0, p.g]) = .ok (.mat 4 R) ∧ R.length = X.length ∧
      ∀ (i : ℕ) (x : Fin 4 → ℝ) (u : Fin 2 → ℝ), X[i]? = some x → U[i]? = some u → ∃ r : Fin 4 → ℝ, R[i]? = some r ∧
        doubPendF (.vec (List.ofFn x)) (.vec (List.ofFn u)) (z ++ [p.m_1, p.l_1, p.l_0, p.m_0, p.g]) = .ok (.vec (List.ofFn r)) := by
  obtain ⟨c, hc⟩ : ∃ c : Fin 6 → List ℝ, c = ![X.map fun r => r 0, X.map fun r => r 1, X.map fun r => r 2, X.map fun r => r 3,
    U.map fun r => r 0, U.map fun r => r 1] := ⟨_, rfl⟩
  have hlen : ∀ j, (c j).length = X.length := by
    intro j
    rw [hc]
    fin_cases j <;> simp [hl]
  have e0 := eval_lift6 (accel0 p) X.length h1 c hlen
  have e1 := eval_lift6 (accel1 p) X.length h1 c hlen
  obtain ⟨A0, hA0⟩ : ∃ A, A = (List.range X.length).map fun k => accel0 p ((c 0).getD k 0) ((c 1).getD k 0) ((c 2).getD k 0) ((c 3).getD k 0)
    ((c 4).getD k 0) ((c 5).getD k 0) := ⟨_, rfl⟩
  obtain ⟨A1, hA1⟩ : ∃ A, A = (List.range X.length).map fun k => accel1 p ((c 0).getD k 0) ((c 1).getD k 0) ((c 2).getD k 0) ((c 3).getD k 0)
    ((c 4).getD k 0) ((c 5).getD k 0) := ⟨_, rfl⟩
  rw [← hA0] at e0
  rw [← hA1] at e1
  have l0 : A0.length = X.length := by simp [hA0]
  have l1 : A1.length = X.length := by simp [hA1]
  have hcc : congruentConcatenate [.vec (c 2), .vec (c 3), .vec A0, .vec A1] =
      .ok (joinColumns [c 2, c 3, A0, A1] X.length) := by
    simp only [congruentConcatenate, Val.sizeOne, hlen, beq_iff_eq, h1, if_false]
    simp [Val.toVec?, hlen, l0, l1]
  refine ⟨(List.range X.length).map fun i => fun j => ([c 2, c 3, A0, A1].get j).getD i 0, ?_, by simp, ?_⟩
  · have hx : unpack (.mat 4 X) = .ok [.vec (c 0), .vec (c 1), .vec (c 2), .vec (c 3)] := by rw [hc]; rfl
    have hu : unpack (.mat 2 U) = .ok [.vec (c 4), .vec (c 5)] := by rw [hc]; rfl
    simp only [doubPendF, hx, hu, four, two, read_ten p hz, bind, Except.bind, e0, e1, hcc]
    rfl
  · intro i x u hx hu
    have hi : i < X.length := (List.getElem?_eq_some_iff.1 hx).1
    refine ⟨_, by rw [List.getElem?_map, List.getElem?_range hi]; rfl, ?_⟩
    have g : c 0 = X.map (fun r => r 0) ∧ c 1 = X.map (fun r => r 1) ∧ c 2 = X.map (fun r => r 2) ∧ c 3 = X.map (fun r => r 3) ∧
        c 4 = U.map (fun r => r 0) ∧ c 5 = U.map (fun r => r 1) := by rw [hc]; exact ⟨rfl, rfl, rfl, rfl, rfl, rfl⟩
    have gx : ∀ j, (X.map fun r => r j).getD i 0 = x j := fun j => by simp [List.getD_eq_getElem?_getD, hx]
    have gu : ∀ j, (U.map fun r => r j).getD i 0 = u j := fun j => by simp [List.getD_eq_getElem?_getD, hu]
    have ga : ∀ f : ℕ → ℝ, ((List.range X.length).map f).getD i 0 = f i := fun f => by
      simp [List.getD_eq_getElem?_getD, List.getElem?_range hi]
    have hX : List.ofFn x = [x 0, x 1, x 2, x 3] := by simp [List.ofFn_succ]
    have hU : List.ofFn u = [u 0, u 1] := by simp [List.ofFn_succ]
    rw [hX, hU, doubPendF_vec p z hz]
    simp only [List.ofFn_succ, List.ofFn_zero, Except.ok.injEq, Val.vec.injEq, List.cons.injEq, and_true]
    refine ⟨?_, ?_, ?_, ?_⟩
    · exact (by rw [g.2.2.1]; exact gx 2 : (c 2).getD i 0 = x 2).symm
    · exact (by rw [g.2.2.2.1]; exact gx 3 : (c 3).getD i 0 = x 3).symm
    · refine (?_ : A0.getD i 0 = _).symm
      rw [hA0, ga]
      simp only [g, gx, gu]
    · refine (?_ : A1.getD i 0 = _).symm
      rw [hA1, ga]
      simp only [g, gx, gu]

/-- C132 fails for a table with one row. -/
theorem C132_row_refuted (x : Fin 4 → ℝ) (u : Fin 2 → ℝ) (params : List ℝ) : ∃ e, doubPendF (.mat 4 [x]) (.mat 2 [u]) params = .error e := by
  have hx : unpack (.mat 4 [x]) = .ok [.vec [x 0], .vec [x 1], .vec [x 2], .vec [x 3]] := rfl
  have hu : unpack (.mat 2 [u]) = .ok [.vec [u 0], .vec [u 1]] := rfl
  simp only [doubPendF, hx, hu, four, two, bind, Except.bind]
  cases readParams params with
  | error e => exact ⟨_, rfl⟩
  | ok p =>
    dsimp only
    cases (lift6 (accel0 p)).eval [.vec [x 0], .vec [x 1], .vec [x 2], .vec [x 3], .vec [u 0], .vec [u 1]] with
    | error e => exact ⟨_, rfl⟩
    | ok a =>
      dsimp only
      cases (lift6 (accel1 p)).eval [.vec [x 0], .vec [x 1], .vec [x 2], .vec [x 3], .vec [u 0], .vec [u 1]] with
      | error e => exact ⟨_, rfl⟩
      | ok b => exact ⟨.assertion, by simp [congruentConcatenate, Val.sizeOne, Val.toScal?]⟩

/-- C132 fails for the default value of `params`, whatever the state and the controls: there are five values for ten names. -/
theorem C132_default_refuted (x u : Val) : ∃ e, doubPendF x u defaultParams = .error e := by
  simp only [doubPendF, defaultParams, readParams, bind, Except.bind]
  cases unpack x with
  | error e => exact ⟨_, rfl⟩
  | ok xs =>
    dsimp only
    cases four xs with
    | error e => exact ⟨_, rfl⟩
    | ok a =>
      dsimp only
      cases unpack u with
      | error e => exact ⟨_, rfl⟩
      | ok us =>
        dsimp only
        cases two us with
        | error e => exact ⟨_, rfl⟩
        | ok b => exact ⟨_, rfl⟩

/-- At rest, hanging down: the derivative of the state is zero, and this is a motion. -/
example : doubPendF (.vec [0, 0, 0, 0]) (.vec [0, 0]) ([0, 0, 0, 0, 0] ++ [2, 1, 1, 3, 9.81]) = .ok (.vec [0, 0, 0, 0]) :=
  (C132_motion ⟨2, 1, 1, 3, 9.81⟩ (by norm_num) (by norm_num) (by norm_num) (by norm_num) [0, 0, 0, 0, 0] rfl
    (q_0 := fun _ => 0) (q_1 := fun _ => 0) (v_0 := fun _ => 0) (v_1 := fun _ => 0) (t := 0)
    (hasDerivAt_const _ _) (hasDerivAt_const _ _) (hasDerivAt_const _ _) (hasDerivAt_const _ _)).2
    ⟨rfl, rfl, (pendEquations_iff _ (hasDerivAt_const _ _) (hasDerivAt_const _ _) (hasDerivAt_const _ _) (hasDerivAt_const _ _)).2
      (by simp)⟩

end Chords.Props
