import Verif.Props.Momentum
import Verif.Props.CostPos
import Verif.Props.Degrees

/-! # C194: Gauss points keep quadratic energies -/

namespace Chords.Energy
open Finset Polynomial Chords.Points Chords.Bary Chords.BuTd Chords.PhScheme Chords.Problem Chords.Spec Chords.Props Chords.TimeScale Chords.Gauss Chords.Momentum

/-- A quadratic function of `n` states. -/
def energy (A : ℕ → ℕ → ℝ) (l : ℕ → ℝ) (n : ℕ) (x : ℕ → ℝ) : ℝ := ∑ j ∈ range n, ∑ k ∈ range n, A j k * (x j * x k) + ∑ j ∈ range n, l j * x j

/-- Its rate of change in the state `x` when the derivatives are `y`. -/
def power (A : ℕ → ℕ → ℝ) (l : ℕ → ℝ) (n : ℕ) (x y : ℕ → ℝ) : ℝ := ∑ j ∈ range n, ∑ k ∈ range n, A j k * (x j * y k + y j * x k) + ∑ j ∈ range n, l j * y j

/-- The system stores energy no faster than `σ`, a function of the state and the controls. -/
def Supplied (F : Dyn) (A : ℕ → ℕ → ℝ) (l : ℕ → ℝ) (n : ℕ) (σ : (ℕ → ℝ) → (ℕ → ℝ) → ℝ) : Prop :=
  ∀ x xd u lam, zero (F x xd u lam) → power A l n x xd ≤ σ x u

/-- The system stores energy exactly as fast as `σ` says. -/
def Stored (F : Dyn) (A : ℕ → ℕ → ℝ) (l : ℕ → ℝ) (n : ℕ) (σ : (ℕ → ℝ) → (ℕ → ℝ) → ℝ) : Prop :=
  ∀ x xd u lam, zero (F x xd u lam) → power A l n x xd = σ x u

section
variable {A : ℕ → ℕ → ℝ} {l : ℕ → ℝ} {n N : ℕ}

theorem energy_congr {x y : ℕ → ℝ} (h : ∀ j < n, x j = y j) : energy A l n x = energy A l n y := by
  unfold energy
  congr 1
  · exact sum_congr rfl fun j hj => sum_congr rfl fun k hk => by rw [h j (mem_range.1 hj), h k (mem_range.1 hk)]
  · exact sum_congr rfl fun j hj => by rw [h j (mem_range.1 hj)]

theorem power_congr {x y x' y' : ℕ → ℝ} (h : ∀ j < n, x j = y j) (h' : ∀ j < n, x' j = y' j) : power A l n x x' = power A l n y y' := by
  unfold power
  congr 1
  · exact sum_congr rfl fun j hj => sum_congr rfl fun k hk => by rw [h j (mem_range.1 hj), h k (mem_range.1 hk), h' j (mem_range.1 hj), h' k (mem_range.1 hk)]
  · exact sum_congr rfl fun j hj => by rw [h' j (mem_range.1 hj)]

theorem power_smul (r : ℝ) (x y : ℕ → ℝ) : power A l n x (fun j => r * y j) = r * power A l n x y := by
  unfold power
  rw [mul_add, mul_sum, mul_sum]
  congr 1
  · exact sum_congr rfl fun j _ => by rw [mul_sum]; exact sum_congr rfl fun k _ => by ring
  · exact sum_congr rfl fun j _ => by ring

/-- The rate of change along polynomials. -/
noncomputable def powerPoly (A : ℕ → ℕ → ℝ) (l : ℕ → ℝ) (n : ℕ) (P : ℕ → ℝ[X]) : ℝ[X] :=
  ∑ j ∈ range n, ∑ k ∈ range n, C (A j k) * (P j * derivative (P k) + derivative (P j) * P k) + ∑ j ∈ range n, C (l j) * derivative (P j)

theorem powerPoly_eval (P : ℕ → ℝ[X]) (t : ℝ) : (powerPoly A l n P).eval t = power A l n (fun j => (P j).eval t) (fun j => (derivative (P j)).eval t) := by
  simp [powerPoly, power, eval_finsetSum]

theorem energy_integral (P : ℕ → ℝ[X]) (a b : ℝ) :
    energy A l n (fun j => (P j).eval b) - energy A l n (fun j => (P j).eval a) = ∫ t in a..b, (powerPoly A l n P).eval t := by
  obtain ⟨E, hE⟩ : ∃ E : ℝ[X], E = ∑ j ∈ range n, ∑ k ∈ range n, C (A j k) * (P j * P k) + ∑ j ∈ range n, C (l j) * P j := ⟨_, rfl⟩
  have e : ∀ t, energy A l n (fun j => (P j).eval t) = E.eval t := fun t => by simp [hE, energy, eval_finsetSum]
  have d : derivative E = powerPoly A l n P := by
    rw [hE, powerPoly, derivative_add, derivative_sum, derivative_sum]
    congr 1
    · exact sum_congr rfl fun j _ => by
        rw [derivative_sum]
        exact sum_congr rfl fun k _ => by rw [derivative_C_mul, derivative_mul, add_comm]
    · exact sum_congr rfl fun j _ => by rw [derivative_C_mul]
  rw [e, e, ← d]
  exact (integ_derivative a b E).symm

theorem powerPoly_degree {P : ℕ → ℝ[X]} (hN : 1 ≤ N) (hP : ∀ j < n, (P j).natDegree ≤ N) : (powerPoly A l n P).natDegree ≤ 2 * N - 1 := by
  have d : ∀ j < n, (derivative (P j)).natDegree ≤ N - 1 := fun j hj => (natDegree_derivative_le _).trans (Nat.sub_le_sub_right (hP j hj) 1)
  have s : ∀ (f : ℕ → ℝ[X]), (∀ j < n, (f j).natDegree ≤ 2 * N - 1) → (∑ j ∈ range n, f j).natDegree ≤ 2 * N - 1 := fun f hf =>
    natDegree_sum_le_of_forall_le _ _ fun j hj => hf j (mem_range.1 hj)
  refine (natDegree_add_le _ _).trans (max_le (s _ fun j hj => s _ fun k hk => ?_) (s _ fun j hj => ?_))
  · refine (natDegree_C_mul_le _ _).trans ((natDegree_add_le _ _).trans (max_le ?_ ?_))
    · have := (natDegree_mul_le (p := P j) (q := derivative (P k)))
      have := hP j hj
      have := d k hk
      omega
    · have := (natDegree_mul_le (p := derivative (P j)) (q := P k))
      have := hP k hk
      have := d j hj
      omega
  · have := d j hj
    exact (natDegree_C_mul_le _ _).trans (by omega)

/-- The polynomials over the interval from -1 to 1. -/
theorem on_tau (P : ℕ → ℝ[X]) (hP : ∀ j < n, (P j).degree < (N + 1 : ℕ)) (t0 t1 : ℝ) : ∃ R : ℕ → ℝ[X], (∀ j < n, (R j).natDegree ≤ N) ∧
    (∀ j x, (R j).eval x = (P j).eval (tauToT x t0 t1)) ∧ ∀ j x, (derivative (R j)).eval x = (t1 - t0) / 2 * (derivative (P j)).eval (tauToT x t0 t1) := by
  obtain ⟨φ, hφ⟩ : ∃ φ : ℝ[X], φ = C t0 + C ((t1 - t0) / 2) * (X + 1) := ⟨_, rfl⟩
  have hev : ∀ x, φ.eval x = tauToT x t0 t1 := by intro x; rw [hφ]; simp [tauToT]; ring
  have hφd : φ.natDegree ≤ 1 := by rw [hφ]; compute_degree
  refine ⟨fun j => (P j).comp φ, fun j hj => ?_, fun j x => by rw [eval_comp, hev], fun j x => ?_⟩
  · have h1 : (P j).natDegree ≤ N := natDegree_le_of_degree_le (by
      rw [degree_le_iff_coeff_zero]
      intro m hm
      exact coeff_eq_zero_of_degree_lt ((hP j hj).trans_le (by exact_mod_cast Order.add_one_le_of_lt (by exact_mod_cast hm))))
    have h2 : ((P j).comp φ).natDegree ≤ (P j).natDegree * φ.natDegree := natDegree_comp_le
    exact (h2.trans (Nat.mul_le_mul h1 hφd)).trans (by omega)
  · rw [derivative_comp, eval_mul, eval_comp, hev, hφ]
    simp

/-- With weights that are exact up to degree `2N - 1` the change of the energy is the weighted sum of the powers. -/
theorem gauss_energy (hN : 1 ≤ N) {P : ℕ → ℝ[X]} (hP : ∀ j < n, (P j).degree < (N + 1 : ℕ)) {w : ℕ → ℝ} {coll : List ℝ}
    (hw : ∀ p : ℝ[X], p.degree < (2 * N : ℕ) → ∑ i ∈ range N, w i * p.eval (arr coll i) = ∫ x in (-1 : ℝ)..1, p.eval x) (t0 t1 : ℝ) :
    energy A l n (fun j => (P j).eval t1) - energy A l n (fun j => (P j).eval t0) =
      (t1 - t0) / 2 * ∑ m ∈ range N, w m * power A l n (fun j => (P j).eval (tauToT (arr coll m) t0 t1)) (fun j => (derivative (P j)).eval (tauToT (arr coll m) t0 t1)) := by
  obtain ⟨R, r1, r2, r3⟩ := on_tau P hP t0 t1
  have h := energy_integral (A := A) (l := l) (n := n) R (-1) 1
  rw [← hw _ (lt_of_le_of_lt degree_le_natDegree (by exact_mod_cast lt_of_le_of_lt (powerPoly_degree hN r1) (by omega)))] at h
  simp only [powerPoly_eval, r2, r3, power_smul] at h
  have e1 : tauToT 1 t0 t1 = t1 := by unfold tauToT; ring
  have e2 : tauToT (-1) t0 t1 = t0 := by unfold tauToT; ring
  rw [e1, e2] at h
  rw [h, mul_sum]
  exact sum_congr rfl fun m _ => by ring

theorem powerPoly_lead {P : ℕ → ℝ[X]} (hN : 1 ≤ N) (hP : ∀ j < n, (P j).natDegree ≤ N) :
    (powerPoly A l n P).coeff (2 * N - 1) = 2 * N * ∑ j ∈ range n, ∑ k ∈ range n, A j k * ((P j).coeff N * (P k).coeff N) := by
  obtain ⟨M, rfl⟩ : ∃ M, N = M + 1 := ⟨N - 1, by omega⟩
  have d : ∀ j < n, (derivative (P j)).natDegree ≤ M := fun j hj => (natDegree_derivative_le _).trans (by have := hP j hj; omega)
  unfold powerPoly
  rw [coeff_add, finset_sum_coeff, finset_sum_coeff, mul_sum]
  have z : ∑ j ∈ range n, (C (l j) * derivative (P j)).coeff (2 * (M + 1) - 1) = 0 := sum_eq_zero fun j hj => by
    rw [coeff_C_mul, coeff_eq_zero_of_natDegree_lt (by have := d j (mem_range.1 hj); omega), mul_zero]
  rw [z, add_zero]
  refine sum_congr rfl fun j hj => ?_
  rw [finset_sum_coeff, mul_sum]
  refine sum_congr rfl fun k hk => ?_
  have c1 := coeff_mul_add_eq_of_natDegree_le (hP j (mem_range.1 hj)) (d k (mem_range.1 hk))
  have c2 := coeff_mul_add_eq_of_natDegree_le (d j (mem_range.1 hj)) (hP k (mem_range.1 hk))
  rw [coeff_C_mul, coeff_add, show 2 * (M + 1) - 1 = M + 1 + M by omega, c1, show M + 1 + M = M + (M + 1) by omega, c2, coeff_derivative, coeff_derivative]
  push_cast
  ring

/-- With the weights of Radau, exact up to degree `2N - 2`, and the last point at the end, an energy that is not negative grows no more than the weighted sum of the powers. -/
theorem radau_energy (hN : 1 ≤ N) (hA : ∀ x : ℕ → ℝ, 0 ≤ ∑ j ∈ range n, ∑ k ∈ range n, A j k * (x j * x k))
    {P : ℕ → ℝ[X]} (hP : ∀ j < n, (P j).degree < (N + 1 : ℕ)) {w : ℕ → ℝ} {coll : List ℝ}
    (hw : ∀ p : ℝ[X], p.degree < (2 * N - 1 : ℕ) → ∑ i ∈ range N, w i * p.eval (arr coll i) = ∫ x in (-1 : ℝ)..1, p.eval x) (hc : arr coll (N - 1) = 1) {t0 t1 : ℝ} :
    energy A l n (fun j => (P j).eval t1) - energy A l n (fun j => (P j).eval t0) ≤
      (t1 - t0) / 2 * ∑ m ∈ range N, w m * power A l n (fun j => (P j).eval (tauToT (arr coll m) t0 t1)) (fun j => (derivative (P j)).eval (tauToT (arr coll m) t0 t1)) := by
  obtain ⟨R, r1, r2, r3⟩ := on_tau P hP t0 t1
  have h := energy_integral (A := A) (l := l) (n := n) R (-1) 1
  obtain ⟨q, hq⟩ : ∃ q, q = powerPoly A l n R := ⟨_, rfl⟩
  obtain ⟨ω, hω⟩ : ∃ ω : ℝ[X], ω = ∏ i ∈ range (N - 1), (X - C (arr coll i)) := ⟨_, rfl⟩
  have mω : ω.Monic := by rw [hω]; exact monic_prod_of_monic _ _ fun i _ => monic_X_sub_C _
  have dω : ω.natDegree = N - 1 := by
    rw [hω, natDegree_prod_of_monic _ _ fun i _ => monic_X_sub_C _]
    simp
  obtain ⟨p0, hp0⟩ : ∃ p0 : ℝ[X], p0 = (X - C 1) * ω ^ 2 := ⟨_, rfl⟩
  have m0 : p0.Monic := by rw [hp0]; exact (monic_X_sub_C 1).mul (mω.pow 2)
  have d0 : p0.natDegree = 2 * N - 1 := by
    rw [hp0, (monic_X_sub_C 1).natDegree_mul (mω.pow 2), mω.natDegree_pow, dω, natDegree_X_sub_C]
    omega
  have v0 : ∀ i < N, p0.eval (arr coll i) = 0 := by
    intro i hi
    rcases eq_or_ne i (N - 1) with rfl | hne
    · rw [hp0, hc]; simp
    · have : ω.eval (arr coll i) = 0 := by
        rw [hω, eval_prod]
        exact prod_eq_zero (mem_range.2 (by omega : i < N - 1)) (by simp)
      rw [hp0]; simp [this]
  have i0 : ∫ x in (-1 : ℝ)..1, p0.eval x ≤ 0 := by
    have : 0 ≤ ∫ x in (-1 : ℝ)..1, -p0.eval x := by
      refine intervalIntegral.integral_nonneg (by norm_num) fun x hx => ?_
      rw [hp0]
      simp only [eval_mul, eval_sub, eval_X, eval_C, eval_pow]
      nlinarith [sq_nonneg (ω.eval x), hx.2, mul_nonneg (sub_nonneg.2 hx.2) (sq_nonneg (ω.eval x))]
    rw [intervalIntegral.integral_neg] at this
    linarith
  have dq : q.natDegree ≤ 2 * N - 1 := by rw [hq]; exact powerPoly_degree hN r1
  have cq : 0 ≤ q.coeff (2 * N - 1) := by
    rw [hq, powerPoly_lead hN r1]
    have := hA fun j => (R j).coeff N
    positivity
  obtain ⟨r, hr⟩ : ∃ r : ℝ[X], r = q - C (q.coeff (2 * N - 1)) * p0 := ⟨_, rfl⟩
  have dr : r.degree < (2 * N - 1 : ℕ) := by
    have hn : r.natDegree ≤ 2 * N - 1 := by
      rw [hr]
      exact (natDegree_sub_le _ _).trans (max_le dq ((natDegree_C_mul_le _ _).trans d0.le))
    rw [degree_lt_iff_coeff_zero]
    intro m hm
    rcases Nat.eq_or_lt_of_le hm with rfl | hlt
    · have : p0.coeff (2 * N - 1) = 1 := by rw [← d0]; exact m0
      rw [hr, coeff_sub, coeff_C_mul, this, mul_one, sub_self]
    · exact coeff_eq_zero_of_natDegree_lt (lt_of_le_of_lt hn hlt)
  have e := hw r dr
  have s : ∑ i ∈ range N, w i * r.eval (arr coll i) = ∑ i ∈ range N, w i * q.eval (arr coll i) :=
    sum_congr rfl fun i hi => by rw [hr, eval_sub, eval_mul, v0 i (mem_range.1 hi)]; ring
  have ir : ∫ x in (-1 : ℝ)..1, r.eval x = (∫ x in (-1 : ℝ)..1, q.eval x) - q.coeff (2 * N - 1) * ∫ x in (-1 : ℝ)..1, p0.eval x := by
    rw [← intervalIntegral.integral_const_mul, ← intervalIntegral.integral_sub (pint q _ _) ((pint p0 _ _).const_mul _)]
    congr 1
    funext x
    rw [hr]
    simp
  rw [s, ir] at e
  have fin : ∫ x in (-1 : ℝ)..1, q.eval x ≤ ∑ i ∈ range N, w i * q.eval (arr coll i) := by
    have := mul_nonneg cq (neg_nonneg.2 i0)
    linarith
  rw [← hq] at h
  have e1 : tauToT 1 t0 t1 = t1 := by unfold tauToT; ring
  have e2 : tauToT (-1) t0 t1 = t0 := by unfold tauToT; ring
  rw [hq] at fin h
  simp only [powerPoly_eval, r2, r3, power_smul, e1, e2] at h fin
  rw [h]
  refine fin.trans (le_of_eq ?_)
  rw [mul_sum]
  exact sum_congr rfl fun m _ => by ring
end

/-- From row `r0` to row `r1`, `t1 - t0` later, the energy changes by what the weights `w` make of the supply `σ` in the rows `rx m`, with the controls of the rows `ru m`. -/
def Keeps (F : Dyn) (v : Vars) (n N : ℕ) (w : ℕ → ℝ) (r0 r1 : ℕ) (rx ru : ℕ → ℕ) (h : ℝ) : Prop :=
  ∀ A l σ, Stored F A l n σ → energy A l n (v.x r1) - energy A l n (v.x r0) = h / 2 * ∑ m ∈ range N, w m * σ (v.x (rx m)) (v.u (ru m))

/-- The energy grows no more than that. -/
def Bounds (F : Dyn) (v : Vars) (n N : ℕ) (w : ℕ → ℝ) (r0 r1 : ℕ) (rx ru : ℕ → ℕ) (h : ℝ) (A : ℕ → ℕ → ℝ) : Prop :=
  ∀ l σ, Supplied F A l n σ → energy A l n (v.x r1) - energy A l n (v.x r0) ≤ h / 2 * ∑ m ∈ range N, w m * σ (v.x (rx m)) (v.u (ru m))

/-- Quadratic part without negative values. -/
def Semidefinite (A : ℕ → ℕ → ℝ) (n : ℕ) : Prop := ∀ x : ℕ → ℝ, 0 ≤ ∑ j ∈ range n, ∑ k ∈ range n, A j k * (x j * x k)

section
variable {F : Dyn} {v : Vars} {n N : ℕ} {w : ℕ → ℝ} {coll : List ℝ} {r0 r1 : ℕ} {rx ru : ℕ → ℕ} {t0 t1 : ℝ}

/-- The rows are values of polynomials of degree at most `N` that meet the dynamics at the points. -/
def Rows (F : Dyn) (v : Vars) (n N : ℕ) (coll : List ℝ) (r0 r1 : ℕ) (rx ru : ℕ → ℕ) (t0 t1 : ℝ) : Prop :=
  ∃ P : ℕ → ℝ[X], (∀ j < n, (P j).degree < (N + 1 : ℕ) ∧ v.x r0 j = (P j).eval t0 ∧ v.x r1 j = (P j).eval t1 ∧
    ∀ m < N, v.x (rx m) j = (P j).eval (tauToT (arr coll m) t0 t1) ∧ v.xd (rx m) j = (derivative (P j)).eval (tauToT (arr coll m) t0 t1)) ∧
    ∀ m < N, ∃ lam, zero (F (v.x (rx m)) (v.xd (rx m)) (v.u (ru m)) lam)

theorem Rows.keeps (hN : 1 ≤ N) (hw : ∀ p : ℝ[X], p.degree < (2 * N : ℕ) → ∑ i ∈ range N, w i * p.eval (arr coll i) = ∫ x in (-1 : ℝ)..1, p.eval x)
    (h : Rows F v n N coll r0 r1 rx ru t0 t1) : Keeps F v n N w r0 r1 rx ru (t1 - t0) := by
  obtain ⟨P, hP, hF⟩ := h
  intro A l σ hσ
  rw [energy_congr fun j hj => (hP j hj).2.2.1, energy_congr fun j hj => (hP j hj).2.1, gauss_energy hN (fun j hj => (hP j hj).1) hw t0 t1]
  refine congrArg _ (sum_congr rfl fun m hm => ?_)
  obtain ⟨lam, hz⟩ := hF m (mem_range.1 hm)
  rw [← hσ _ _ _ _ hz, power_congr (fun j hj => ((hP j hj).2.2.2 m (mem_range.1 hm)).1) fun j hj => ((hP j hj).2.2.2 m (mem_range.1 hm)).2]

private theorem supplied_le {A : ℕ → ℕ → ℝ} {l : ℕ → ℝ} {σ : (ℕ → ℝ) → (ℕ → ℝ) → ℝ} (hσ : Supplied F A l n σ) (h0 : ∀ i < N, 0 ≤ w i) (ht : t0 ≤ t1) {P : ℕ → ℝ[X]}
    (hP : ∀ j < n, ∀ m < N, v.x (rx m) j = (P j).eval (tauToT (arr coll m) t0 t1) ∧ v.xd (rx m) j = (derivative (P j)).eval (tauToT (arr coll m) t0 t1))
    (hF : ∀ m < N, ∃ lam, zero (F (v.x (rx m)) (v.xd (rx m)) (v.u (ru m)) lam)) :
    (t1 - t0) / 2 * ∑ m ∈ range N, w m * power A l n (fun j => (P j).eval (tauToT (arr coll m) t0 t1)) (fun j => (derivative (P j)).eval (tauToT (arr coll m) t0 t1)) ≤
      (t1 - t0) / 2 * ∑ m ∈ range N, w m * σ (v.x (rx m)) (v.u (ru m)) := by
  refine mul_le_mul_of_nonneg_left (sum_le_sum fun m hm => mul_le_mul_of_nonneg_left ?_ (h0 m (mem_range.1 hm))) (by linarith)
  obtain ⟨lam, hz⟩ := hF m (mem_range.1 hm)
  rw [← power_congr (fun j hj => (hP j hj m (mem_range.1 hm)).1) fun j hj => (hP j hj m (mem_range.1 hm)).2]
  exact hσ _ _ _ _ hz

theorem Rows.bounds (hN : 1 ≤ N) (hw : ∀ p : ℝ[X], p.degree < (2 * N : ℕ) → ∑ i ∈ range N, w i * p.eval (arr coll i) = ∫ x in (-1 : ℝ)..1, p.eval x)
    (h0 : ∀ i < N, 0 ≤ w i) (ht : t0 ≤ t1) (h : Rows F v n N coll r0 r1 rx ru t0 t1) (A : ℕ → ℕ → ℝ) : Bounds F v n N w r0 r1 rx ru (t1 - t0) A := by
  obtain ⟨P, hP, hF⟩ := h
  intro l σ hσ
  rw [energy_congr fun j hj => (hP j hj).2.2.1, energy_congr fun j hj => (hP j hj).2.1, gauss_energy hN (fun j hj => (hP j hj).1) hw t0 t1]
  exact supplied_le hσ h0 ht (fun j hj => (hP j hj).2.2.2) hF

theorem Rows.radau (hN : 1 ≤ N) (hw : ∀ p : ℝ[X], p.degree < (2 * N - 1 : ℕ) → ∑ i ∈ range N, w i * p.eval (arr coll i) = ∫ x in (-1 : ℝ)..1, p.eval x)
    (hc : arr coll (N - 1) = 1) (h0 : ∀ i < N, 0 ≤ w i) (ht : t0 ≤ t1) (h : Rows F v n N coll r0 r1 rx ru t0 t1) {A : ℕ → ℕ → ℝ} (hA : Semidefinite A n) :
    Bounds F v n N w r0 r1 rx ru (t1 - t0) A := by
  obtain ⟨P, hP, hF⟩ := h
  intro l σ hσ
  rw [energy_congr fun j hj => (hP j hj).2.2.1, energy_congr fun j hj => (hP j hj).2.1]
  exact (radau_energy hN hA (fun j hj => (hP j hj).1) hw hc).trans (supplied_le hσ h0 ht (fun j hj => (hP j hj).2.2.2) hF)
end

/-! ## The weights and the rows of the package -/

theorem gauss_weights {S : String} (hs : S ∈ ["LG", "LG_inv", "LG2"]) {order N : ℕ} (ho : 1 ≤ order) (hN : 1 ≤ N) :
    ∃ w, getWeights N S order "u" = .ok w ∧ (∀ i < N, 0 ≤ w i) ∧
      ∀ p : ℝ[X], p.degree < (2 * N : ℕ) → ∑ i ∈ range N, w i * p.eval (arr (LG N) i) = ∫ x in (-1 : ℝ)..1, p.eval x := by
  have k : S ∈ legendreSchemes ∧ S ∈ implemented ∧ S ∉ jacobiSchemes ∧ minPoints S ≤ N ∧ lost S = 0 ∧ collPoints N S order = .ok (LG N) := by
    simp only [List.mem_cons, List.not_mem_nil, or_false] at hs
    rcases hs with rfl | rfl | rfl <;> exact ⟨by decide, by decide, by decide, hN, by decide, by simp [collPoints]⟩
  obtain ⟨k1, k2, k3, k4, k5, k6⟩ := k
  obtain ⟨c, w, a1, a2, a3⟩ := C168_weights k1 ho k4
  obtain ⟨c', w', b1, b2, b3, -⟩ := C184_weights k2 ho (fun h => absurd h k3) k4
  obtain rfl := Except.ok.inj (a1.symm.trans k6)
  obtain rfl := Except.ok.inj (a2.symm.trans b2)
  rw [k5] at a3
  exact ⟨w, a2, fun i hi => (b3 i hi).1, a3⟩

theorem radau_weights {order N : ℕ} (ho : 1 ≤ order) (hN : 1 ≤ N) :
    ∃ w, getWeights N "LGR_inv" order "u" = .ok w ∧ (∀ i < N, 0 ≤ w i) ∧
      ∀ p : ℝ[X], p.degree < (2 * N - 1 : ℕ) → ∑ i ∈ range N, w i * p.eval (arr (negRev (LGR N)) i) = ∫ x in (-1 : ℝ)..1, p.eval x := by
  have k6 : collPoints N "LGR_inv" order = .ok (negRev (LGR N)) := by simp [collPoints]
  obtain ⟨c, w, a1, a2, a3⟩ := C168_weights (scheme := "LGR_inv") (by decide) ho hN
  obtain ⟨c', w', b1, b2, b3, -⟩ := C184_weights (scheme := "LGR_inv") (by decide) ho (fun h => absurd h (by decide)) hN
  obtain rfl := Except.ok.inj (a1.symm.trans k6)
  obtain rfl := Except.ok.inj (a2.symm.trans b2)
  exact ⟨w, a2, fun i hi => (b3 i hi).1, a3⟩

theorem radau_last {N : ℕ} (hN : 1 ≤ N) : arr (negRev (LGR N)) (N - 1) = 1 := by
  obtain ⟨coll, n, nodes, full, k1, k2, -, -, -, -, -, -, hfl, -, -, hflen, -, hdyn, -⟩ := node_rows (scheme := "LGR_inv") (by decide) hN
  have e1 : coll = negRev (LGR N) := by simp [collPoints] at k1; exact k1.symm
  have e2 : n = N + 1 := by simp [nColToNNodes, gaussLike, gaussInv_eq, gauss2_eq, radauLike, radauInv_eq, lobatoLike, otherSchemes] at k2; omega
  have e3 : full.length = N + 1 := by
    rw [hflen, e2, if_neg (by simp [gaussLike, gaussInv_eq])]
  have := (hdyn (N - 1) (by omega)).2
  rw [show i0 "LGR_inv" + (N - 1) = full.length - 1 by rw [e3, show i0 "LGR_inv" = 1 by decide]; omega, hfl, e1] at this
  exact this.symm

/-- What the schemes do with the energy: those of Gauss keep account of it, that of Radau with the end among the points never creates an energy that is not negative. -/
def Accounts (S : String) (F : Dyn) (v : Vars) (n N : ℕ) (w : ℕ → ℝ) (r0 r1 : ℕ) (rx ru : ℕ → ℕ) (t0 t1 : ℝ) : Prop :=
  (S ≠ "LGR_inv" → Keeps F v n N w r0 r1 rx ru (t1 - t0)) ∧
    (t0 ≤ t1 → ∀ A, S ≠ "LGR_inv" ∨ Semidefinite A n → Bounds F v n N w r0 r1 rx ru (t1 - t0) A)

section
variable {S : String} {F : Dyn} {v : Vars} {n n_q n_u N order : ℕ} {w : ℕ → ℝ} {coll full : List ℝ} {r0 r1 last : ℕ} {rx ru : ℕ → ℕ} {t0 t1 : ℝ}

private theorem accounts {order' : ℕ} (hs : S ∈ ["LG", "LG_inv", "LGR_inv"]) (ho : 1 ≤ order) (hN : 1 ≤ N) (hw : getWeights N S order "u" = .ok w) (hc : collPoints N S order' = .ok coll)
    (h : Rows F v n N coll r0 r1 rx ru t0 t1) : Accounts S F v n N w r0 r1 rx ru t0 t1 := by
  by_cases hr : S = "LGR_inv"
  · subst hr
    have e : coll = negRev (LGR N) := by simp [collPoints] at hc; exact hc.symm
    subst e
    obtain ⟨w', a1, a2, a3⟩ := radau_weights ho hN
    obtain rfl := Except.ok.inj (a1.symm.trans hw)
    exact ⟨fun h => absurd rfl h, fun ht A hA => h.radau hN a3 (radau_last hN) a2 ht (hA.resolve_left fun h => h rfl)⟩
  · have hs' : S ∈ ["LG", "LG_inv"] := by
      simp only [List.mem_cons, List.not_mem_nil, or_false] at hs ⊢
      tauto
    have e : coll = LG N := by
      simp only [List.mem_cons, List.not_mem_nil, or_false] at hs'
      rcases hs' with rfl | rfl <;> simp [collPoints] at hc <;> exact hc.symm
    subst e
    obtain ⟨w', a1, a2, a3⟩ := gauss_weights (by
      simp only [List.mem_cons, List.not_mem_nil, or_false] at hs' ⊢
      tauto) ho hN
    obtain rfl := Except.ok.inj (a1.symm.trans hw)
    exact ⟨fun _ => h.keeps hN a3, fun ht A _ => h.bounds hN a3 a2 ht A⟩

private theorem weights_exist (hs : S ∈ ["LG", "LG_inv", "LGR_inv"]) (ho : 1 ≤ order) (hN : 1 ≤ N) : ∃ w, getWeights N S order "u" = .ok w := by
  simp only [List.mem_cons, List.not_mem_nil, or_false] at hs
  rcases hs with rfl | rfl | rfl
  · exact (gauss_weights (by decide) ho hN).imp fun _ h => h.1
  · exact (gauss_weights (by decide) ho hN).imp fun _ h => h.1
  · exact (radau_weights ho hN).imp fun _ h => h.1

private theorem traj_rows (h : IsTrajectory v 1 n (1 + N) full t0 t1) (hc : Collocated F v full coll) (hsort : full.Pairwise (· < ·)) (hl : coll.length = N) (h0 : arr full 0 = -1)
    (hlast : last < full.length ∧ arr full last = 1) (hm : ∀ m < N, m + 1 < full.length ∧ arr full (m + 1) = arr coll m) : Rows F v n N coll 0 last (· + 1) id t0 t1 := by
  obtain ⟨Q, hQ⟩ := h
  have e1 : tauToT 1 t0 t1 = t1 := by unfold tauToT; ring
  have e2 : tauToT (-1) t0 t1 = t0 := by unfold tauToT; ring
  have l0 : ∀ i j, v.lev 1 n 0 i j = v.x i j := fun i j => by simp [Vars.lev]
  have l1 : ∀ i j, v.lev 1 n 1 i j = v.xd i j := fun i j => by simp [Vars.lev]
  refine ⟨Q, fun j hj => ⟨by have := (hQ j hj).1; rwa [add_comm] at this, ?_, ?_, fun m hm' => ⟨?_, ?_⟩⟩, fun m hm' => ?_⟩
  · have := (hQ j hj).2 0 (by omega) 0 (by omega)
    rw [l0, h0, e2] at this
    exact this
  · have := (hQ j hj).2 0 (by omega) last hlast.1
    rw [l0, hlast.2, e1] at this
    exact this
  · have := (hQ j hj).2 0 (by omega) (m + 1) (hm m hm').1
    rw [l0, (hm m hm').2] at this
    exact this
  · have := (hQ j hj).2 1 le_rfl (m + 1) (hm m hm').1
    rw [l1, (hm m hm').2] at this
    exact this
  · obtain ⟨i, hi, he, hz⟩ := hc m (by omega)
    obtain rfl : i = m + 1 := distinct_arr hsort i hi (m + 1) (hm m hm').1 (he.trans (hm m hm').2.symm)
    exact ⟨_, hz⟩

/-- The number of the last row. -/
def lastRow (S : String) (N : ℕ) : ℕ := if S = "LGR_inv" then N else N + 1

theorem bu_rows (hs : S ∈ ["LG", "LGR_inv"]) (hN : 1 ≤ N) (hc : buCollPoints N S order = .ok coll) (hl : coll.length = N) (hf : tdConstructionPoints N S order = .ok full) :
    collPoints N S order = .ok coll ∧ arr full 0 = -1 ∧ (lastRow S N < full.length ∧ arr full (lastRow S N) = 1) ∧ ∀ m < N, m + 1 < full.length ∧ arr full (m + 1) = arr coll m := by
  simp only [List.mem_cons, List.not_mem_nil, or_false] at hs
  rcases hs with rfl | rfl
  · have e : full = -1 :: (coll ++ [1]) := by
      simp [tdConstructionPoints, hc, gaussLike, bind, Except.bind, pure, Except.pure] at hf
      exact hf.symm
    subst e
    refine ⟨by simpa [collPoints, buCollPoints] using hc, by simp [arr], ⟨by simp [lastRow, hl], by simp [lastRow, arr, hl]⟩, fun m hm => ⟨by simp [hl]; omega, ?_⟩⟩
    simp [arr, List.getElem?_append_left (by omega : m < coll.length)]
  · have e : full = -1 :: coll := by
      simp [tdConstructionPoints, hc, gaussLike, radauLike, radauInv_eq, bind, Except.bind, pure, Except.pure] at hf
      exact hf.symm
    have e' : coll = negRev (LGR N) := by
      simp [buCollPoints] at hc
      exact hc.symm
    subst e
    refine ⟨by rw [e']; simp [collPoints], by simp [arr], ⟨by simp [lastRow, hl], ?_⟩, fun m hm => ⟨by simp [hl]; omega, by simp [arr]⟩⟩
    have := radau_last hN
    rw [← e'] at this
    obtain ⟨M, rfl⟩ : ∃ M, N = M + 1 := ⟨N - 1, by omega⟩
    simpa [lastRow, arr] using this

theorem bu_schemes (hs : S ∈ ["LG", "LGR_inv"]) (hN : 1 ≤ N) : S ∈ buImplemented ∧ minPoints S ≤ N ∧ S ∈ ["LG", "LG_inv", "LGR_inv"] := by
  simp only [List.mem_cons, List.not_mem_nil, or_false] at hs
  rcases hs with rfl | rfl <;> exact ⟨by decide, hN, by decide⟩

/-- C194, bottom-up problems of first order. -/
theorem C194_bu (hs : S ∈ ["LG", "LGR_inv"]) (hN : 1 ≤ N) (h1 : 2 ≤ N ∨ S = "LGR_inv") (F : Dyn) (n_q : ℕ) (ht : t0 ≠ t1) :
    ∃ P w, buConstraints F S N 1 n_q t0 t1 = .ok P ∧ getWeights N S 1 "u" = .ok w ∧ ∀ v, P v → Accounts S F v n_q N w 0 (lastRow S N) (· + 1) id t0 t1 := by
  obtain ⟨b1, b2, b3⟩ := bu_schemes hs hN
  obtain ⟨coll, full, P, k1, k2, hP, hv⟩ := C30_feasible b1 le_rfl b2 (h1.imp_right fun e => by rw [e]; decide) F n_q ht
  obtain ⟨_, _, _, _, c1, -, -, c2, -, c3, -, c4, -, hl, -⟩ := constr_length b1 (order := 1) le_rfl b2
  obtain rfl := Except.ok.inj (k1.symm.trans c1)
  obtain rfl := Except.ok.inj (k2.symm.trans c2)
  obtain ⟨w, hw⟩ := weights_exist b3 (order := 1) le_rfl hN
  obtain ⟨r1, r2, r3, r4⟩ := bu_rows hs hN k1 hl c3
  exact ⟨P, w, hP, hw, fun v h => accounts b3 le_rfl hN hw r1 (traj_rows ((hv v).1 h).1 ((hv v).1 h).2 c4 hl r2 r3 r4)⟩

/-- C194, top-down problems of first order. -/
theorem C194_td (hs : S ∈ ["LG", "LGR_inv"]) (hN : 1 ≤ N) (F : Dyn) (n_q : ℕ) (ht : t0 ≠ t1) :
    ∃ P w, tdConstraints F S N 1 n_q t0 t1 = .ok P ∧ getWeights N S 1 "u" = .ok w ∧ ∀ v q, P v q → Accounts S F v n_q N w 0 (lastRow S N) (· + 1) id t0 t1 := by
  obtain ⟨b1, b2, b3⟩ := bu_schemes hs hN
  obtain ⟨coll, full, _, P, k1, k2, -, hP, hv, -⟩ := C31_feasible b1 le_rfl b2 F n_q ht
  obtain ⟨_, _, _, _, c1, -, -, c2, -, c3, -, c4, -, hl, -⟩ := constr_length b1 (order := 1) le_rfl b2
  obtain rfl := Except.ok.inj (k1.symm.trans c1)
  obtain rfl := Except.ok.inj (k2.symm.trans c3)
  obtain ⟨w, hw⟩ := weights_exist b3 (order := 1) le_rfl hN
  obtain ⟨r1, r2, r3, r4⟩ := bu_rows hs hN k1 hl c3
  exact ⟨P, w, hP, hw, fun v q h => accounts b3 le_rfl hN hw r1 (traj_rows ((hv v).1 ⟨q, h⟩).1 ((hv v).1 ⟨q, h⟩).2 c4 hl r2 r3 r4)⟩

private theorem node_schemes (hs : S ∈ ["LG", "LG_inv", "LGR_inv"]) (hN : 1 ≤ N) : S ∈ implemented ∧ S ∉ gauss2 ++ ["D2"] ∧ minPoints S ≤ N ∧ i0 S = 1 ∧ S ≠ "D2" ∧
    nColToNNodes S N = .ok (N + 1) ∧ nodeOff S ≤ 1 ∧ N + 1 + (if S ∈ gaussLike ++ gaussInv then 1 else 0) = lastRow S N + 1 := by
  simp only [List.mem_cons, List.not_mem_nil, or_false] at hs
  rcases hs with rfl | rfl | rfl <;>
    exact ⟨by decide, by decide, hN, by decide, by decide, by simp [nColToNNodes, gaussLike, gaussInv_eq, gauss2_eq, radauLike, radauInv_eq, lobatoLike, otherSchemes], by decide,
      by simp [lastRow, gaussLike, gaussInv_eq]⟩

/-- C194, node based problems, of any order with the scheme of Radau and of order one or two with those of Gauss. -/
theorem C194_node (hs : S ∈ ["LG", "LG_inv", "LGR_inv"]) (hN : 1 ≤ N) (ho : 1 ≤ order) (hord : order ≤ 2 ∨ S = "LGR_inv") (F : Dyn) (n_q : ℕ) (ht : t0 ≠ t1) :
    ∃ P w, nodeConstraints F S N order n_q t0 t1 = .ok P ∧ getWeights N S order "u" = .ok w ∧
      ∀ v, P v → Accounts S F v (order * n_q) N w 0 (lastRow S N) (· + 1) id t0 t1 := by
  obtain ⟨b1, b2, b3, b4, -, b5, b6, b7⟩ := node_schemes hs hN
  obtain ⟨coll, n, nodes, full, P, k1, k2, k3, k4, hP, hv⟩ := C73_feasible b1 b2 ho (hord.imp_right fun e => by rw [e]; decide) b3 F n_q ht
  obtain ⟨_, _, _, _, c1, c2, c3, c4, hnl, -, hsort, hf0, hfl, -, hl, hflen, hoff, hdyn, -⟩ := node_rows b1 b3
  obtain rfl := Except.ok.inj (k1.symm.trans c1)
  obtain rfl := Except.ok.inj (k2.symm.trans c2)
  obtain rfl := Except.ok.inj (k3.symm.trans c3)
  obtain rfl := Except.ok.inj (k4.symm.trans c4)
  obtain rfl := Except.ok.inj (k2.symm.trans b5)
  obtain ⟨w, hw⟩ := weights_exist hs ho hN
  refine ⟨P, w, hP, hw, fun v h => accounts hs ho hN hw k1 ?_⟩
  obtain ⟨⟨p, hp⟩, hc⟩ := (hv v).1 h
  rw [b7] at hflen
  rw [hflen, Nat.add_sub_cancel] at hfl
  rw [b4] at hdyn
  have e1 : tauToT 1 t0 t1 = t1 := by unfold tauToT; ring
  have e2 : tauToT (-1) t0 t1 = t0 := by unfold tauToT; ring
  have hin : ∀ m < N, arr full (1 + m) ∈ nodes := by
    intro m hm
    have := hoff (1 + m - nodeOff S) (by omega)
    rw [show nodeOff S + (1 + m - nodeOff S) = 1 + m by omega] at this
    rw [this, arr, List.getD_eq_getElem?_getD, List.getElem?_eq_getElem (by omega)]
    exact List.getElem_mem _
  refine ⟨p, fun j hj => ⟨(hp j hj).1, ?_, ?_, fun m hm => ⟨?_, ?_⟩⟩, fun m hm => ?_⟩
  · have := ((hp j hj).2 0 (by omega)).1
    rwa [hf0, e2] at this
  · have := ((hp j hj).2 (lastRow S N) (by omega)).1
    rwa [hfl, e1] at this
  · have := ((hp j hj).2 (1 + m) (hdyn m hm).1).1
    rw [(hdyn m hm).2, add_comm 1 m] at this
    exact this
  · have := ((hp j hj).2 (1 + m) (hdyn m hm).1).2 (.inl (hin m hm))
    rw [(hdyn m hm).2, add_comm 1 m] at this
    exact this
  · obtain ⟨i, hi, he, hz⟩ := hc m (by omega)
    obtain rfl : i = 1 + m := distinct_arr hsort i hi (1 + m) (hdyn m hm).1 (he.trans (hdyn m hm).2.symm)
    rw [add_comm 1 m] at hz
    exact ⟨_, hz⟩
end

/-! ## Several segments -/

section
variable {S : String} {F : Dyn} {n_q n_u order : ℕ} {points : List ℕ} {ext : List ℝ}

theorem seg_mem {s : ℕ} (h : s < points.length) : points.getD s 0 ∈ points := by
  rw [List.getD_eq_getElem?_getD, List.getElem?_eq_getElem h]
  exact List.getElem_mem _

/-- In every segment the energy at its two knots is accounted for. -/
def SegAccounts (S : String) (F : Dyn) (v : Vars) (order n : ℕ) (points : List ℕ) (ext : List ℝ) : Prop :=
  ∀ s < points.length, ∃ w, getWeights (points.getD s 0) S order "u" = .ok w ∧
    Accounts S F v n (points.getD s 0) w (knotRow points s) (knotRow points (s + 1)) (colRow points s) (colRow points s) (ext.getD s 0) (ext.getD (s + 1) 0)

theorem colls (hs : S ∈ implemented) (ho : 1 ≤ order) (hN : ∀ p ∈ points, minPoints S ≤ p) : ∃ coll : ℕ → List ℝ, ∀ p ∈ points, collPoints p S order = .ok (coll p) := by
  have a1 : ∀ p, ∃ l, p ∈ points → collPoints p S order = .ok l := fun p => by
    by_cases hp : p ∈ points
    · obtain ⟨l, m1, -⟩ := Gauss.coll_distinct hs ho (hN p hp)
      exact ⟨l, fun _ => m1⟩
    · exact ⟨[], fun h => absurd h hp⟩
  choose c hc using a1
  exact ⟨c, hc⟩

private theorem seg_rows {v : Vars} {coll : ℕ → List ℝ} {s : ℕ} {Q : ℕ → ℝ[X]} (hs : s < points.length) (h : SegPoly v 1 n_q points coll (fun s => ext.getD s 0) s Q) (hc : PhCollocated F v points) :
    Rows F v n_q (points.getD s 0) (coll (points.getD s 0)) (knotRow points s) (knotRow points (s + 1)) (colRow points s) (colRow points s) (ext.getD s 0) (ext.getD (s + 1) 0) := by
  have l0 : ∀ i j, v.lev 1 n_q 0 i j = v.x i j := fun i j => by simp [Vars.lev]
  have l1 : ∀ i j, v.lev 1 n_q 1 i j = v.xd i j := fun i j => by simp [Vars.lev]
  refine ⟨Q, fun j hj => ?_, fun m hm => ⟨_, hc s hs m hm⟩⟩
  obtain ⟨h1, h2, h3⟩ := h j hj
  refine ⟨by rwa [add_comm] at h1, ?_, ?_, fun m hm => ⟨?_, ?_⟩⟩
  · rw [← l0]; exact (h2 0 (by omega)).1
  · rw [← l0]; exact (h2 0 (by omega)).2
  · rw [← l0]; exact h3 0 (by omega) m hm
  · rw [← l1]; exact h3 1 le_rfl m hm

/-- C194, bottom-up problems of first order with several segments. -/
theorem C194_segments_bu (hs : S ∈ ["LG", "LGR_inv"]) (h0 : points ≠ []) (hN : ∀ p ∈ points, 1 ≤ p) (h1 : (∀ p ∈ points, 2 ≤ p) ∨ S = "LGR_inv") (F : Dyn) (n_q n_u : ℕ)
    (hl : ext.length = points.length + 1) (ht : ∀ s < points.length, ext.getD s 0 ≠ ext.getD (s + 1) 0) :
    ∃ P, phConstraints F .bu S 1 n_q n_u points ext = .ok P ∧ ∀ v q, P v q → SegAccounts S F v 1 n_q points ext := by
  have hN' : ∀ p ∈ points, minPoints S ≤ p := fun p hp => (bu_schemes hs (hN p hp)).2.1
  obtain ⟨b1, -, b3⟩ := bu_schemes hs le_rfl
  obtain ⟨coll, hc⟩ := colls (order := 1) (bu_imp b1).1 le_rfl hN'
  obtain ⟨P, hP, hv⟩ := C99_feasible b1 le_rfl F n_q n_u h0 hN' (h1.imp_right fun e => by rw [e]; decide) hc hl ht
  refine ⟨P, hP, fun v q h s hs' => ?_⟩
  obtain ⟨⟨Q, k1⟩, -, k3, -⟩ := (hv v q).1 h
  have hm := hN _ (seg_mem hs')
  obtain ⟨w, hw⟩ := weights_exist b3 (order := 1) le_rfl hm
  exact ⟨w, hw, accounts b3 le_rfl hm hw (hc _ (seg_mem hs')) (seg_rows hs' (k1 s hs').1 k3)⟩

/-- C194, top-down problems of first order with several segments. -/
theorem C194_segments_td (hs : S ∈ ["LG", "LGR_inv"]) (h0 : points ≠ []) (hN : ∀ p ∈ points, 1 ≤ p) (F : Dyn) (n_q n_u : ℕ)
    (hl : ext.length = points.length + 1) (ht : ∀ s < points.length, ext.getD s 0 ≠ ext.getD (s + 1) 0) :
    ∃ P, phConstraints F .td S 1 n_q n_u points ext = .ok P ∧ ∀ v q, P v q → SegAccounts S F v 1 n_q points ext := by
  have hN' : ∀ p ∈ points, minPoints S ≤ p := fun p hp => (bu_schemes hs (hN p hp)).2.1
  obtain ⟨b1, -, b3⟩ := bu_schemes hs le_rfl
  obtain ⟨coll, hc⟩ := colls (order := 1) (bu_imp b1).1 le_rfl hN'
  obtain ⟨P, hP, hv⟩ := C100_feasible b1 le_rfl F n_q n_u h0 hN' hc hl ht
  refine ⟨P, hP, fun v q h s hs' => ?_⟩
  obtain ⟨⟨Q, k1⟩, -, k3, -⟩ := (hv v).1 ⟨q, h⟩
  have hm := hN _ (seg_mem hs')
  obtain ⟨w, hw⟩ := weights_exist b3 (order := 1) le_rfl hm
  exact ⟨w, hw, accounts b3 le_rfl hm hw (hc _ (seg_mem hs')) (seg_rows hs' (k1 s hs').1 k3)⟩

/-- C194, node based problems with several segments. -/
theorem C194_segments_node (hs : S ∈ ["LG", "LG_inv", "LGR_inv"]) (ho : 1 ≤ order) (hord : order ≤ 2 ∨ S = "LGR_inv") (h0 : points ≠ []) (hN : ∀ p ∈ points, 1 ≤ p) (F : Dyn) (n_q n_u : ℕ)
    (hl : ext.length = points.length + 1) (ht : ∀ s < points.length, ext.getD s 0 ≠ ext.getD (s + 1) 0) :
    ∃ P, phConstraints F .node S order n_q n_u points ext = .ok P ∧ ∀ v q, P v q → SegAccounts S F v order (order * n_q) points ext := by
  have hN' : ∀ p ∈ points, minPoints S ≤ p := fun p hp => (node_schemes hs (hN p hp)).2.2.1
  obtain ⟨b1, -, -, -, b5, -⟩ := node_schemes hs le_rfl
  obtain ⟨coll, hc⟩ := colls (order := order) b1 ho hN'
  obtain ⟨coll2, hc2⟩ := colls (order := 2) b1 (by norm_num) hN'
  obtain ⟨P, hP, hv⟩ := C101_feasible b1 ho (hord.imp_right fun e => by rw [e]; decide) F n_q n_u h0 hN' hc hc2 (n := fun p => p + 1)
    (fun p hp => (node_schemes hs (hN p hp)).2.2.2.2.2.1) hl ht
  refine ⟨P, hP, fun v q h s hs' => ?_⟩
  obtain ⟨⟨R, k1⟩, -, k3, -⟩ := (hv v q).1 h
  have hm := hN _ (seg_mem hs')
  obtain ⟨w, hw⟩ := weights_exist hs ho hm
  refine ⟨w, hw, accounts hs ho hm hw (hc2 _ (seg_mem hs')) ⟨R s, fun j hj => ?_, fun m hm => ⟨_, k3 s hs' m hm⟩⟩⟩
  obtain ⟨e1, e2, e3, -⟩ := k1 s hs' j hj
  exact ⟨e1, (e3 b5).1, (e3 b5).2, e2⟩

/-- C194: what the system conserves is the same in all the knots. -/
theorem C194_conserved {v : Vars} {n : ℕ} (hs : S ≠ "LGR_inv") {A : ℕ → ℕ → ℝ} {l : ℕ → ℝ} (hF : Stored F A l n fun _ _ => 0) (h : SegAccounts S F v order n points ext) {s : ℕ} (hs' : s ≤ points.length) :
    energy A l n (v.x (knotRow points s)) = energy A l n (v.x 0) := by
  induction s with
  | zero => simp [knotRow]
  | succ s ih =>
    obtain ⟨w, -, hk, -⟩ := h s (by omega)
    have := hk hs A l _ hF
    simp only [mul_zero, sum_const_zero] at this
    rw [← ih (by omega)]
    linarith

/-- C194: what the system never gains does not grow from one knot to the next. -/
theorem C194_passive {v : Vars} {n : ℕ} {A : ℕ → ℕ → ℝ} {l : ℕ → ℝ} (hA : S ≠ "LGR_inv" ∨ Semidefinite A n) (hF : Supplied F A l n fun _ _ => 0) (h : SegAccounts S F v order n points ext) {s : ℕ}
    (hs : s < points.length) (ht : ext.getD s 0 ≤ ext.getD (s + 1) 0) : energy A l n (v.x (knotRow points (s + 1))) ≤ energy A l n (v.x (knotRow points s)) := by
  obtain ⟨w, -, -, hk⟩ := h s hs
  have := hk ht A hA l _ hF
  simp only [mul_zero, sum_const_zero] at this
  linarith
end

/-! ## Examples -/

/-- A spring with friction `c` and a force `u`. -/
def spring (c : ℝ) : Dyn := fun x xd u _ => [xd 0 - x 1, xd 1 + x 0 + c * x 1 - u 0]

/-- Twice its energy: the sum of the squares. -/
def squares : ℕ → ℕ → ℝ := fun j k => if j = k then 1 else 0

theorem spring_stored (c : ℝ) : Stored (spring c) squares (fun _ => 0) 2 fun x u => 2 * x 1 * u 0 - 2 * c * x 1 ^ 2 := by
  intro x xd u lam h
  simp only [zero, spring, List.mem_cons, List.not_mem_nil, or_false, forall_eq_or_imp, forall_eq] at h
  simp [power, squares, sum_range_succ]
  have h1 : xd 0 = x 1 := by linarith [h.1]
  have h2 : xd 1 = u 0 - x 0 - c * x 1 := by linarith [h.2]
  rw [h1, h2]
  ring

theorem spring_supplied {c : ℝ} (hc : 0 ≤ c) : Supplied (spring c) squares (fun _ => 0) 2 fun x u => 2 * x 1 * u 0 := by
  intro x xd u lam h
  rw [spring_stored c x xd u lam h]
  nlinarith [mul_nonneg hc (sq_nonneg (x 1))]

theorem squares_semidefinite : Semidefinite squares 2 := by
  intro x
  simp [squares, sum_range_succ]
  nlinarith [sq_nonneg (x 0), sq_nonneg (x 1)]

/-- The energy of the spring without friction and the work of the force, as a problem of second order. -/
example : ∃ P w, nodeConstraints (spring 0) "LG" 3 2 1 0 5 = .ok P ∧ getWeights 3 "LG" 2 "u" = .ok w ∧ ∀ v, P v →
    v.x 4 0 ^ 2 + v.x 4 1 ^ 2 - (v.x 0 0 ^ 2 + v.x 0 1 ^ 2) = 5 * ∑ m ∈ range 3, w m * (v.x (m + 1) 1 * v.u m 0) := by
  obtain ⟨P, w, hP, hw, hv⟩ := C194_node (S := "LG") (N := 3) (order := 2) (t0 := 0) (t1 := 5) (by decide) (by norm_num) (by norm_num) (.inl le_rfl) (spring 0) 1 (by norm_num)
  refine ⟨P, w, hP, hw, fun v h => ?_⟩
  have := (hv v h).1 (by decide) squares (fun _ => 0) _ (spring_stored 0)
  simp [energy, squares, sum_range_succ, lastRow] at this ⊢
  linarith

/-- With friction and Radau it does not grow when nothing pushes. -/
example : ∃ P w, buConstraints (spring 1) "LGR_inv" 1 1 2 0 5 = .ok P ∧ getWeights 1 "LGR_inv" 1 "u" = .ok w ∧ ∀ v, P v → v.u 0 0 = 0 → v.x 1 0 ^ 2 + v.x 1 1 ^ 2 ≤ v.x 0 0 ^ 2 + v.x 0 1 ^ 2 := by
  obtain ⟨P, w, hP, hw, hv⟩ := C194_bu (S := "LGR_inv") (N := 1) (t0 := 0) (t1 := 5) (by decide) (by norm_num) (.inr rfl) (spring 1) 2 (by norm_num)
  refine ⟨P, w, hP, hw, fun v h hu => ?_⟩
  have := (hv v h).2 (by norm_num) squares (.inr squares_semidefinite) (fun _ => 0) _ (spring_supplied zero_le_one)
  simp [energy, squares, sum_range_succ, lastRow, hu] at this
  nlinarith

/-- A motion of the spring with friction that meets the constraints of the last example, with a force. -/
example : ∃ P, buConstraints (spring 1) "LGR_inv" 1 1 2 0 5 = .ok P ∧ P ⟨fun i j => if j = 0 then 5 * i else 1, fun _ j => if j = 0 then 1 else 0, fun _ _ => 6, fun _ _ => 0⟩ := by
  obtain ⟨coll, full, P, k1, k2, hP, hv⟩ := C30_feasible (scheme := "LGR_inv") (order := 1) (N := 1) (by decide) le_rfl (by decide) (.inr (by decide)) (spring 1) 2 (show (0 : ℝ) ≠ 5 by norm_num)
  obtain ⟨_, _, _, _, c1, -, -, c2, -, c3, -, c4, -, hl, -⟩ := constr_length (scheme := "LGR_inv") (order := 1) (N := 1) (by decide) le_rfl (by decide)
  obtain rfl := Except.ok.inj (k1.symm.trans c1)
  obtain rfl := Except.ok.inj (k2.symm.trans c2)
  obtain ⟨r1, r2, r3, r4⟩ := bu_rows (by decide) le_rfl k1 hl c3
  have hlen : full.length = 2 := by
    have e : full = -1 :: coll := by
      simp [tdConstructionPoints, k1, gaussLike, radauLike, radauInv_eq, bind, Except.bind, pure, Except.pure] at c3
      exact c3.symm
    simp [e, hl]
  refine ⟨P, hP, (hv _).2 ⟨⟨fun j => if j = 0 then X else 1, fun j hj => ?_⟩, fun m hm => ?_⟩⟩
  · have a : ∀ i < 2, tauToT (arr full i) 0 5 = 5 * i := by
      intro i hi
      rcases (by omega : i = 0 ∨ i = 1) with rfl | rfl
      · rw [r2]; norm_num [tauToT]
      · have := r3.2
        simp only [lastRow, if_true] at this
        rw [this]; norm_num [tauToT]
    refine ⟨?_, fun k hk i hi => ?_⟩
    · rcases (by omega : j = 0 ∨ j = 1) with rfl | rfl
      · simp only [if_true, degree_X]; norm_num
      · simp only [one_ne_zero, if_false, degree_one]; norm_num
    · rw [a i (by omega)]
      rcases (by omega : j = 0 ∨ j = 1) with rfl | rfl <;> rcases (by omega : k = 0 ∨ k = 1) with rfl | rfl <;> simp [Vars.lev]
  · obtain rfl : m = 0 := by omega
    refine ⟨1, by omega, (r4 0 (by omega)).2, ?_⟩
    simp [zero, spring]
    norm_num

/-- C194 needs the end among the points of Radau: with "LGR" and one point a spring that nothing pushes gains energy. -/
theorem C194_start_refuted : ∃ P v, buConstraints (spring 0) "LGR" 1 1 2 0 5 = .ok P ∧ P v ∧ v.u 0 0 = 0 ∧ v.x 0 0 ^ 2 + v.x 0 1 ^ 2 = 1 ∧ v.x 1 0 ^ 2 + v.x 1 1 ^ 2 = 26 := by
  obtain ⟨coll, full, P, k1, k2, hP, hv⟩ := C30_feasible (scheme := "LGR") (order := 1) (N := 1) (by decide) le_rfl (by decide) (.inr (by decide)) (spring 0) 2 (show (0 : ℝ) ≠ 5 by norm_num)
  obtain ⟨_, constr, _, _, c1, -, c0, c2, ec, c3, -, c4, c5, hl, -⟩ := constr_length (scheme := "LGR") (order := 1) (N := 1) (by decide) le_rfl (by decide)
  obtain rfl := Except.ok.inj (k1.symm.trans c1)
  obtain rfl := Except.ok.inj (k2.symm.trans c2)
  obtain ⟨a, rfl⟩ : ∃ a, coll = [a] := List.length_eq_one_iff.1 hl
  have e : full = [a, 1] := by
    simp [tdConstructionPoints, k1, gaussLike, radauLike, bind, Except.bind, pure, Except.pure] at c3
    exact c3.symm
  obtain rfl : a = -1 := by rw [e] at ec; exact (List.cons.inj ec).1
  subst e
  refine ⟨P, ⟨fun i j => if j = 0 then 1 else -(5 * i), fun _ j => if j = 0 then 0 else -1, fun _ _ => 0, fun _ _ => 0⟩, hP, (hv _).2 ⟨⟨fun j => if j = 0 then 1 else -X, fun j hj => ?_⟩, fun m hm => ?_⟩, rfl, by norm_num, by norm_num⟩
  · have a : ∀ i < 2, tauToT (arr [-1, 1] i) 0 5 = 5 * i := by
      intro i hi
      rcases (by omega : i = 0 ∨ i = 1) with rfl | rfl <;> norm_num [tauToT, arr]
    refine ⟨?_, fun k hk i hi => ?_⟩
    · rcases (by omega : j = 0 ∨ j = 1) with rfl | rfl
      · simp only [if_true, degree_one]; norm_num
      · simp only [one_ne_zero, if_false, degree_neg, degree_X]; norm_num
    · rw [a i (by simpa using hi)]
      rcases (by omega : j = 0 ∨ j = 1) with rfl | rfl <;> rcases (by omega : k = 0 ∨ k = 1) with rfl | rfl <;> simp [Vars.lev]
  · obtain rfl : m = 0 := by simpa using hm
    refine ⟨0, by simp, by simp [arr], ?_⟩
    simp [zero, spring]

end Chords.Energy
