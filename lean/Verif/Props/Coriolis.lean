import Verif.Model.Coriolis
import Mathlib.Analysis.Calculus.Deriv.Add
import Mathlib.Analysis.Calculus.Deriv.Mul
import Mathlib.Analysis.Calculus.Deriv.Pi
import Mathlib.Analysis.Calculus.Deriv.Prod
import Mathlib.Analysis.Calculus.Deriv.Pow
import Mathlib.Analysis.Calculus.FDeriv.Pow
import Mathlib.Algebra.BigOperators.Field
import Mathlib.Analysis.Calculus.FDeriv.Add
import Mathlib.Analysis.Calculus.FDeriv.Mul
import Mathlib.Analysis.Calculus.FDeriv.Pi
import Mathlib.Analysis.Calculus.Deriv.Comp
import Mathlib.Tactic.Linarith
import Mathlib.Tactic.Ring

/-! # C50: the Coriolis matrix -/

namespace Chords.Props
open Chords.Coriolis Matrix

variable {n : ℕ}

private theorem pd_eq {f : (Fin n → ℝ) → ℝ} {q : Fin n → ℝ} (hf : DifferentiableAt ℝ f q) (k : Fin n) :
    HasDerivAt (fun s => f (Function.update q k s)) (pd f q k) (q k) ∧ pd f q k = fderiv ℝ f q (Pi.single k 1) := by
  have h1 : HasDerivAt (fun s => Function.update q k s) (Pi.single k (1 : ℝ)) (q k) := hasDerivAt_update q k (q k)
  have h2 : HasFDerivAt f (fderiv ℝ f q) (Function.update q k (q k)) := by
    rw [Function.update_eq_self]
    exact hf.hasFDerivAt
  have h3 := h2.comp_hasDerivAt (q k) h1
  have h4 : pd f q k = fderiv ℝ f q (Pi.single k 1) := h3.deriv
  exact ⟨h4 ▸ h3, h4⟩

/-- The chain rule. -/
private theorem chain {f : (Fin n → ℝ) → ℝ} {q : ℝ → Fin n → ℝ} {v : Fin n → ℝ} {t : ℝ} (hf : DifferentiableAt ℝ f (q t))
    (hq : ∀ k, HasDerivAt (fun s => q s k) (v k) t) : HasDerivAt (fun s => f (q s)) (∑ k, v k * pd f (q t) k) t := by
  have hq' : HasDerivAt q v t := hasDerivAt_pi.2 hq
  have h := hf.hasFDerivAt.comp_hasDerivAt t hq'
  have e : fderiv ℝ f (q t) v = ∑ k, v k * pd f (q t) k := by
    have : v = ∑ k, v k • (Pi.single k (1 : ℝ) : Fin n → ℝ) := by
      funext i
      simp [Finset.sum_apply, Pi.single_apply]
    conv_lhs => rw [this]
    rw [map_sum]
    refine Finset.sum_congr rfl fun k _ => ?_
    rw [map_smul, (pd_eq hf k).2, smul_eq_mul]
  rw [← e]
  exact h

/-- C50: the rate of the mass matrix along a motion minus twice the Coriolis matrix is skew-symmetric. -/
theorem C50_skew {M : (Fin n → ℝ) → Matrix (Fin n) (Fin n) ℝ} (hs : ∀ q i j, M q i j = M q j i) {q : ℝ → Fin n → ℝ}
    {v : Fin n → ℝ} {t : ℝ} (hM : ∀ i j, DifferentiableAt ℝ (fun q => M q i j) (q t))
    (hq : ∀ k, HasDerivAt (fun s => q s k) (v k) t) (i j : Fin n) :
    deriv (fun s => M (q s) i j) t - 2 * cFromM M (q t) v i j =
      -(deriv (fun s => M (q s) j i) t - 2 * cFromM M (q t) v j i) := by
  rw [(chain (hM i j) hq).deriv, (chain (hM j i) hq).deriv]
  simp only [cFromM, Matrix.of_apply, Finset.mul_sum, ← Finset.sum_sub_distrib, ← Finset.sum_neg_distrib]
  refine Finset.sum_congr rfl fun k _ => ?_
  have e1 : (fun q => M q j i) = fun q => M q i j := by funext q; exact hs q j i
  have e2 : (fun q => M q k j) = fun q => M q j k := by funext q; exact hs q k j
  have e3 : (fun q => M q k i) = fun q => M q i k := by funext q; exact hs q k i
  rw [e1, e2, e3]
  ring

/-- C50: the power of the Coriolis terms is half the power of the change of the mass matrix, for every symmetric mass matrix. -/
theorem C50_power {M : (Fin n → ℝ) → Matrix (Fin n) (Fin n) ℝ} (hs : ∀ q i j, M q i j = M q j i) {q : ℝ → Fin n → ℝ}
    {v : Fin n → ℝ} {t : ℝ} (hM : ∀ i j, DifferentiableAt ℝ (fun q => M q i j) (q t))
    (hq : ∀ k, HasDerivAt (fun s => q s k) (v k) t) :
    2 * (v ⬝ᵥ cFromM M (q t) v *ᵥ v) = ∑ i, ∑ j, v i * v j * deriv (fun s => M (q s) i j) t := by
  have h := C50_skew hs hM hq
  have e : v ⬝ᵥ cFromM M (q t) v *ᵥ v = ∑ i, ∑ j, v i * v j * cFromM M (q t) v i j := by
    simp only [dotProduct, mulVec, Finset.mul_sum]
    exact Finset.sum_congr rfl fun i _ => Finset.sum_congr rfl fun j _ => by ring
  have h0 : ∑ i, ∑ j, v i * v j * (deriv (fun s => M (q s) i j) t - 2 * cFromM M (q t) v i j) = 0 := by
    have h1 : ∑ i, ∑ j, v i * v j * (deriv (fun s => M (q s) i j) t - 2 * cFromM M (q t) v i j) =
        -∑ i, ∑ j, v i * v j * (deriv (fun s => M (q s) i j) t - 2 * cFromM M (q t) v i j) := by
      conv_rhs => rw [Finset.sum_comm]
      rw [← Finset.sum_neg_distrib]
      refine Finset.sum_congr rfl fun i _ => ?_
      rw [← Finset.sum_neg_distrib]
      refine Finset.sum_congr rfl fun j _ => ?_
      rw [h i j]
      ring
    linarith
  rw [e, Finset.mul_sum]
  have h2 : ∑ i, 2 * ∑ j, v i * v j * cFromM M (q t) v i j = ∑ i, ∑ j, v i * v j * (2 * cFromM M (q t) v i j) := by
    refine Finset.sum_congr rfl fun i _ => ?_
    rw [Finset.mul_sum]
    exact Finset.sum_congr rfl fun j _ => by ring
  rw [h2, eq_comm, ← sub_eq_zero, ← Finset.sum_sub_distrib, ← h0]
  refine Finset.sum_congr rfl fun i _ => ?_
  rw [← Finset.sum_sub_distrib]
  exact Finset.sum_congr rfl fun j _ => by ring

/-! ## Natural systems -/

/-- Kinetic energy quadratic in the velocities minus a potential. -/
noncomputable def natural (M : (Fin n → ℝ) → Matrix (Fin n) (Fin n) ℝ) (V : (Fin n → ℝ) → ℝ) (q v : Fin n → ℝ) : ℝ :=
  (∑ a, ∑ b, M q a b * v a * v b) / 2 - V q

private theorem update_deriv (v : Fin n → ℝ) (i a : Fin n) (s : ℝ) :
    HasDerivAt (fun s => Function.update v i s a) (if a = i then 1 else 0) s := by
  by_cases h : a = i
  · subst h
    simpa using hasDerivAt_id' s
  · simpa [h] using hasDerivAt_const s (v a)

private theorem pd_natural {M : (Fin n → ℝ) → Matrix (Fin n) (Fin n) ℝ} (hs : ∀ q i j, M q i j = M q j i)
    (V : (Fin n → ℝ) → ℝ) (q v : Fin n → ℝ) (i : Fin n) :
    pd (fun v => natural M V q v) v i = ∑ b, M q i b * v b := by
  have h : HasDerivAt (fun s => natural M V q (Function.update v i s))
      ((∑ a, ∑ b, (M q a b * (if a = i then 1 else 0) * Function.update v i (v i) b +
        M q a b * Function.update v i (v i) a * (if b = i then 1 else 0))) / 2 - 0) (v i) := by
    refine HasDerivAt.sub (HasDerivAt.div_const ?_ 2) (hasDerivAt_const _ _)
    refine HasDerivAt.fun_sum fun a _ => HasDerivAt.fun_sum fun b _ => ?_
    exact ((update_deriv v i a _).const_mul _).mul (update_deriv v i b _)
  rw [pd, h.deriv, Function.update_eq_self]
  have e1 : ∀ a, ∑ b, (M q a b * (if a = i then 1 else 0) * v b + M q a b * v a * (if b = i then 1 else 0)) =
      (if a = i then ∑ b, M q a b * v b else 0) + M q a i * v a := by
    intro a
    rw [Finset.sum_add_distrib]
    congr 1
    · split
      · simp
      · simp
    · simp
  simp only [e1, Finset.sum_add_distrib, Finset.sum_ite_eq', Finset.mem_univ, if_true, sub_zero]
  have e2 : ∑ a, M q a i * v a = ∑ a, M q i a * v a := Finset.sum_congr rfl fun a _ => by rw [hs q a i]
  rw [e2]
  ring

/-- C50: the mass matrix of a natural system is the matrix of its kinetic energy. -/
theorem C50_mass {M : (Fin n → ℝ) → Matrix (Fin n) (Fin n) ℝ} (hs : ∀ q i j, M q i j = M q j i)
    (V : (Fin n → ℝ) → ℝ) (q v : Fin n → ℝ) : massMatrix (natural M V) q v = M q := by
  ext i j
  have e : (fun v => pd (fun v => natural M V q v) v i) = fun v => ∑ b, M q i b * v b := by
    funext w
    exact pd_natural hs V q w i
  simp only [massMatrix, Matrix.of_apply, e]
  have h : HasDerivAt (fun s => ∑ b, M q i b * Function.update v j s b) (∑ b, M q i b * (if b = j then 1 else 0)) (v j) :=
    HasDerivAt.fun_sum fun b _ => (update_deriv v j b _).const_mul _
  rw [pd, h.deriv]
  simp

/-- C50: for every motion of a natural system the equations of motion are `M q'' + C q' + G` with `G` the gradient of the
potential, which does not depend on velocities or accelerations. -/
theorem C50_equations {M : (Fin n → ℝ) → Matrix (Fin n) (Fin n) ℝ} (hs : ∀ q i j, M q i j = M q j i)
    {V : (Fin n → ℝ) → ℝ} {q v : ℝ → Fin n → ℝ} {a : Fin n → ℝ} {t : ℝ}
    (hM : ∀ i j, DifferentiableAt ℝ (fun q => M q i j) (q t)) (hV : DifferentiableAt ℝ V (q t))
    (hq : ∀ k, HasDerivAt (fun s => q s k) (v t k) t) (hv : ∀ k, HasDerivAt (fun s => v s k) (a k) t) :
    (∀ i, gMatrix (natural M V) q v a t i = pd V (q t) i) ∧
    (∀ i, lagrEqs (fun q v => natural M 0 q v) V q v t i =
      (M (q t) *ᵥ a + cFromM M (q t) (v t) *ᵥ v t) i + pd V (q t) i) := by
  have key : ∀ i, term1 (natural M V) q v t i - term2 (natural M V) q v t i =
      (M (q t) *ᵥ a + cFromM M (q t) (v t) *ᵥ v t) i + pd V (q t) i := by
    intro i
    have h1 : term1 (natural M V) q v t i =
        ∑ b, ((∑ k, v t k * pd (fun q => M q i b) (q t) k) * v t b + M (q t) i b * a b) := by
      have e : (fun s => pd (fun w => natural M V (q s) w) (v s) i) = fun s => ∑ b, M (q s) i b * v s b := by
        funext s
        exact pd_natural hs V (q s) (v s) i
      have h : HasDerivAt (fun s => ∑ b, M (q s) i b * v s b)
          (∑ b, ((∑ k, v t k * pd (fun q => M q i b) (q t) k) * v t b + M (q t) i b * a b)) t :=
        HasDerivAt.fun_sum fun b _ => (chain (hM i b) hq).mul (hv b)
      rw [term1, e, h.deriv]
    have h2 : term2 (natural M V) q v t i =
        (∑ c, ∑ b, pd (fun q => M q c b) (q t) i * v t c * v t b) / 2 - pd V (q t) i := by
      have h : HasDerivAt (fun s => natural M V (Function.update (q t) i s) (v t))
          ((∑ c, ∑ b, pd (fun q => M q c b) (q t) i * v t c * v t b) / 2 - pd V (q t) i) (q t i) := by
        refine HasDerivAt.sub (HasDerivAt.div_const ?_ 2) (pd_eq hV i).1
        refine HasDerivAt.fun_sum fun c _ => HasDerivAt.fun_sum fun b _ => ?_
        exact ((pd_eq (hM c b) i).1.mul_const _).mul_const _
      exact h.deriv
    have h3 : (cFromM M (q t) (v t) *ᵥ v t) i = (∑ b, (∑ k, v t k * pd (fun q => M q i b) (q t) k) * v t b) -
        (∑ c, ∑ b, pd (fun q => M q c b) (q t) i * v t c * v t b) / 2 := by
      have e1 : (cFromM M (q t) (v t) *ᵥ v t) i = (∑ b, ∑ k, v t k * v t b * pd (fun q => M q i b) (q t) k) / 2 +
          (∑ b, ∑ k, v t k * v t b * pd (fun q => M q i k) (q t) b) / 2 -
          (∑ b, ∑ k, v t k * v t b * pd (fun q => M q k b) (q t) i) / 2 := by
        simp only [cFromM, mulVec, dotProduct, Matrix.of_apply, Finset.sum_mul, Finset.sum_div, ← Finset.sum_add_distrib,
          ← Finset.sum_sub_distrib]
        exact Finset.sum_congr rfl fun b _ => Finset.sum_congr rfl fun k _ => by ring
      have e2 : ∑ b, ∑ k, v t k * v t b * pd (fun q => M q i k) (q t) b =
          ∑ b, ∑ k, v t k * v t b * pd (fun q => M q i b) (q t) k := by
        rw [Finset.sum_comm]
        exact Finset.sum_congr rfl fun b _ => Finset.sum_congr rfl fun k _ => by ring
      have e3 : ∑ b, ∑ k, v t k * v t b * pd (fun q => M q k b) (q t) i =
          ∑ c, ∑ b, pd (fun q => M q c b) (q t) i * v t c * v t b := by
        rw [Finset.sum_comm]
        exact Finset.sum_congr rfl fun b _ => Finset.sum_congr rfl fun k _ => by ring
      have e4 : ∑ b, (∑ k, v t k * pd (fun q => M q i b) (q t) k) * v t b =
          ∑ b, ∑ k, v t k * v t b * pd (fun q => M q i b) (q t) k := by
        refine Finset.sum_congr rfl fun b _ => ?_
        rw [Finset.sum_mul]
        exact Finset.sum_congr rfl fun k _ => by ring
      rw [e1, e2, e3, e4]
      ring
    rw [h1, h2, Pi.add_apply, h3, Finset.sum_add_distrib]
    have h4 : (M (q t) *ᵥ a) i = ∑ b, M (q t) i b * a b := rfl
    rw [h4]
    ring
  constructor
  · intro i
    have hc : cMatrix (natural M V) (q t) (v t) = cFromM M (q t) (v t) := by
      have : (fun p => massMatrix (natural M V) p (v t)) = M := by
        funext p
        exact C50_mass hs V p (v t)
      rw [cMatrix, this]
    have := key i
    simp only [gMatrix, Pi.sub_apply, C50_mass hs, hc] at this ⊢
    rw [this, Pi.add_apply]
    ring
  · intro i
    have e : (fun q v => natural M 0 q v - V q) = natural M V := by
      funext q v
      simp [natural]
    rw [lagrEqs, e]
    exact key i

/-- C94: along every motion of a natural system the total energy changes at the rate of the work of the left hand sides of the
equations of motion. -/
theorem C94_energy {M : (Fin n → ℝ) → Matrix (Fin n) (Fin n) ℝ} (hs : ∀ q i j, M q i j = M q j i)
    {V : (Fin n → ℝ) → ℝ} {q v : ℝ → Fin n → ℝ} {a : Fin n → ℝ} {t : ℝ}
    (hM : ∀ i j, DifferentiableAt ℝ (fun q => M q i j) (q t)) (hV : DifferentiableAt ℝ V (q t))
    (hq : ∀ k, HasDerivAt (fun s => q s k) (v t k) t) (hv : ∀ k, HasDerivAt (fun s => v s k) (a k) t) :
    HasDerivAt (fun s => (∑ a, ∑ b, M (q s) a b * v s a * v s b) / 2 + V (q s))
      (v t ⬝ᵥ lagrEqs (fun q v => (∑ a, ∑ b, M q a b * v a * v b) / 2) V q v t) t := by
  have hE := (C50_equations hs hM hV hq hv).2
  have e0 : (fun q v => natural M 0 q v) = fun (q v : Fin n → ℝ) => (∑ a, ∑ b, M q a b * v a * v b) / 2 := by
    funext q v
    simp [natural]
  rw [e0] at hE
  have h1 : HasDerivAt (fun s => (∑ c, ∑ b, M (q s) c b * v s c * v s b) / 2 + V (q s))
      ((∑ c, ∑ b, ((deriv (fun s => M (q s) c b) t * v t c + M (q t) c b * a c) * v t b + M (q t) c b * v t c * a b)) / 2 +
        ∑ k, v t k * pd V (q t) k) t := by
    refine HasDerivAt.add (HasDerivAt.div_const ?_ 2) (chain hV hq)
    refine HasDerivAt.fun_sum fun c _ => HasDerivAt.fun_sum fun b _ => ?_
    have hm := chain (hM c b) hq
    rw [← hm.deriv] at hm
    exact (hm.mul (hv c)).mul (hv b)
  refine h1.congr_deriv ?_
  have hp := C50_power hs hM hq
  have e1 : v t ⬝ᵥ lagrEqs (fun q v => (∑ a, ∑ b, M q a b * v a * v b) / 2) V q v t =
      v t ⬝ᵥ M (q t) *ᵥ a + v t ⬝ᵥ cFromM M (q t) (v t) *ᵥ v t + ∑ k, v t k * pd V (q t) k := by
    rw [← dotProduct_add]
    simp only [dotProduct, hE, mul_add, Finset.sum_add_distrib]
  have e2 : v t ⬝ᵥ M (q t) *ᵥ a = ∑ c, ∑ b, M (q t) c b * v t c * a b := by
    simp only [dotProduct, mulVec, Finset.mul_sum]
    exact Finset.sum_congr rfl fun i _ => Finset.sum_congr rfl fun j _ => by ring
  have e3 : ∑ c, ∑ b, M (q t) c b * a c * v t b = ∑ c, ∑ b, M (q t) c b * v t c * a b := by
    rw [Finset.sum_comm]
    exact Finset.sum_congr rfl fun i _ => Finset.sum_congr rfl fun j _ => by rw [hs _ j i]; ring
  have e4 : ∑ c, ∑ b, ((deriv (fun s => M (q s) c b) t * v t c + M (q t) c b * a c) * v t b + M (q t) c b * v t c * a b) =
      (∑ c, ∑ b, v t c * v t b * deriv (fun s => M (q s) c b) t) + (∑ c, ∑ b, M (q t) c b * a c * v t b) +
        ∑ c, ∑ b, M (q t) c b * v t c * a b := by
    simp only [← Finset.sum_add_distrib]
    exact Finset.sum_congr rfl fun i _ => Finset.sum_congr rfl fun j _ => by ring
  rw [e1, e4, e3, ← hp, e2]
  ring

/-- A mass matrix that depends on the position: the hypotheses of the theorems hold of two coordinates with `M = [1 + q₁²  0; 0  1]`,
and the Coriolis matrix is not zero. -/
example : (∀ (q : Fin 2 → ℝ) i j, (Matrix.of ![![1 + q 1 ^ 2, 0], ![0, 1]] : Matrix (Fin 2) (Fin 2) ℝ) i j =
      (Matrix.of ![![1 + q 1 ^ 2, 0], ![0, 1]] : Matrix (Fin 2) (Fin 2) ℝ) j i) ∧
    (∀ (p : Fin 2 → ℝ) (i j : Fin 2),
      DifferentiableAt ℝ (fun q : Fin 2 → ℝ => (Matrix.of ![![1 + q 1 ^ 2, 0], ![0, 1]] : Matrix (Fin 2) (Fin 2) ℝ) i j) p) ∧
    cFromM (fun q : Fin 2 → ℝ => Matrix.of ![![1 + q 1 ^ 2, 0], ![0, 1]]) ![0, 1] ![0, 1] 0 0 = 1 := by
  refine ⟨?_, ?_, ?_⟩
  · intro q i j
    fin_cases i <;> fin_cases j <;> simp
  · intro p i j
    fin_cases i <;> fin_cases j
    · exact (differentiableAt_const _).add ((differentiableAt_apply 1 p).pow 2)
    · exact differentiableAt_const _
    · exact differentiableAt_const _
    · exact differentiableAt_const _
  · have h : HasDerivAt (fun s : ℝ => 1 + s ^ 2) (2 * 1) 1 := by
      simpa using ((hasDerivAt_id (1 : ℝ)).pow 2).const_add 1
    simp [cFromM, Fin.sum_univ_succ, pd, h.deriv]

end Chords.Props
