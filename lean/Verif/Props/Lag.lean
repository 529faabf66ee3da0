import Verif.Model.Lag
import Mathlib.Analysis.Calculus.Deriv.Add
import Mathlib.Analysis.Calculus.Deriv.Mul
import Mathlib.Analysis.Calculus.Deriv.Inv
import Mathlib.Analysis.Calculus.FDeriv.Mul
import Mathlib.LinearAlgebra.Matrix.Adjugate
import Mathlib.LinearAlgebra.Matrix.ToLinearEquiv
import Mathlib.Tactic.Module
import Mathlib.Tactic.Linarith
import Mathlib.Tactic.FieldSimp

/-! # C47, C48, C49, C92, C93: constrained equations of motion -/

namespace Chords.Props
open Chords.Lag Matrix

variable {k m : ℕ}

/-! ## Specification -/

/-- A symmetric and positive definite mass matrix. -/
structure Mass (s : Sys k m) : Prop where
  symm : s.Mᵀ = s.M
  pos : ∀ x : Fin (k + m) → ℝ, x ≠ 0 → 0 < x ⬝ᵥ s.M *ᵥ x

/-- The derivative in time of the coefficients of the constraints. -/
noncomputable def phiDot (s : Sys k m) : Matrix (Fin m) (Fin (k + m)) ℝ := Matrix.of fun i j => deriv (fun t => s.phi t i j) s.t

/-- Accelerations and multipliers balance the forces. -/
def Balance (s : Sys k m) (qdd : Fin (k + m) → ℝ) (lam : Fin m → ℝ) : Prop :=
  s.M *ᵥ qdd + (s.phi s.t)ᵀ *ᵥ lam = s.Q

/-- The derivative in time of the constraints `phi q' + b = 0` is zero. -/
def Consistent (s : Sys k m) (qdd : Fin (k + m) → ℝ) : Prop :=
  s.phi s.t *ᵥ qdd + phiDot s *ᵥ s.qd + (fun i => deriv (fun t => s.b t i) s.t) = 0

/-- The constraints hold at the instant, they are differentiable there and they determine the dependent velocities. -/
structure Regular (s : Sys k m) : Prop where
  diff : ∀ i j, DifferentiableAt ℝ (fun t => s.phi t i j) s.t
  det : ((s.phi s.t).submatrix id (Fin.natAdd k)).det ≠ 0
  hold : s.phi s.t *ᵥ s.qd + s.b s.t = 0

/-- The constraints are linear in the velocities, without other terms. -/
def Linear (s : Sys k m) : Prop := ∀ t, s.b t = 0

/-! ## Blocks -/

private theorem ext_top_bot {v w : Fin (k + m) → ℝ} (h1 : top v = top w) (h2 : bot v = bot w) : v = w := by
  funext i
  refine Fin.addCases (fun i => ?_) (fun i => ?_) i
  · exact congrFun h1 i
  · exact congrFun h2 i

private theorem mulVec_split {n : ℕ} (A : Matrix (Fin n) (Fin (k + m)) ℝ) (v : Fin (k + m) → ℝ) :
    A *ᵥ v = A.submatrix id (Fin.castAdd m) *ᵥ top v + A.submatrix id (Fin.natAdd k) *ᵥ bot v := by
  funext i
  simp [mulVec, dotProduct, Fin.sum_univ_add, top, bot]

private theorem top_mulVec (s : Sys k m) (v : Fin (k + m) → ℝ) :
    top (s.M *ᵥ v) = s.M_in *ᵥ top v + s.M_con *ᵥ bot v := by
  rw [mulVec_split]
  rfl

private theorem bot_mulVec (s : Sys k m) (hs : s.Mᵀ = s.M) (v : Fin (k + m) → ℝ) :
    bot (s.M *ᵥ v) = s.M_conᵀ *ᵥ top v + s.M_de *ᵥ bot v := by
  rw [mulVec_split]
  conv_lhs => rw [← hs]
  conv_rhs => rw [Sys.M_de, ← hs]
  rfl

private theorem phi_split (s : Sys k m) (t : ℝ) (v : Fin (k + m) → ℝ) :
    s.phi t *ᵥ v = s.phi_in t *ᵥ top v + s.phi_de t *ᵥ bot v := mulVec_split _ _

private theorem top_phiT (s : Sys k m) (t : ℝ) (l : Fin m → ℝ) : top ((s.phi t)ᵀ *ᵥ l) = (s.phi_in t)ᵀ *ᵥ l := rfl

private theorem bot_phiT (s : Sys k m) (t : ℝ) (l : Fin m → ℝ) : bot ((s.phi t)ᵀ *ᵥ l) = (s.phi_de t)ᵀ *ᵥ l := rfl

private theorem top_add (v w : Fin (k + m) → ℝ) : top (v + w) = top v + top w := rfl
private theorem bot_add (v w : Fin (k + m) → ℝ) : bot (v + w) = bot v + bot w := rfl

/-! ## The derivative of `R` -/

private theorem diff_det {n : ℕ} {A : ℝ → Matrix (Fin n) (Fin n) ℝ} {t : ℝ}
    (h : ∀ i j, DifferentiableAt ℝ (fun s => A s i j) t) : DifferentiableAt ℝ (fun s => (A s).det) t := by
  simp only [Matrix.det_apply]
  refine DifferentiableAt.fun_sum fun σ _ => ?_
  refine DifferentiableAt.const_smul ?_ _
  exact DifferentiableAt.fun_finsetProd fun i _ => h _ _

private theorem diff_adj {n : ℕ} {A : ℝ → Matrix (Fin n) (Fin n) ℝ} {t : ℝ}
    (h : ∀ i j, DifferentiableAt ℝ (fun s => A s i j) t) (i j : Fin n) :
    DifferentiableAt ℝ (fun s => (A s).adjugate i j) t := by
  simp only [Matrix.adjugate_apply]
  refine diff_det fun a b => ?_
  by_cases ha : a = j
  · subst ha
    simp
  · simp [Matrix.updateRow_ne ha, h]

private theorem diff_inv {n : ℕ} {A : ℝ → Matrix (Fin n) (Fin n) ℝ} {t : ℝ}
    (h : ∀ i j, DifferentiableAt ℝ (fun s => A s i j) t) (hd : (A t).det ≠ 0) (i j : Fin n) :
    DifferentiableAt ℝ (fun s => (A s)⁻¹ i j) t := by
  have : (fun s => (A s)⁻¹ i j) = fun s => ((A s).det)⁻¹ * (A s).adjugate i j := by
    funext s
    simp [Matrix.inv_def]
  rw [this]
  exact ((diff_det h).inv hd).mul (diff_adj h i j)

private theorem diff_R (s : Sys k m) (h : Regular s) (i : Fin m) (j : Fin k) :
    DifferentiableAt ℝ (fun t => s.R t i j) s.t := by
  have hde : ∀ i j, DifferentiableAt ℝ (fun t => s.phi_de t i j) s.t := fun i j => h.diff i _
  simp only [Sys.R, Matrix.mul_apply, Matrix.neg_apply]
  exact DifferentiableAt.fun_sum fun l _ => ((diff_inv hde h.det i l).neg).mul (h.diff l _)

private theorem R_eq (s : Sys k m) (t : ℝ) (h : (s.phi_de t).det ≠ 0) : s.phi_de t * s.R t + s.phi_in t = 0 := by
  have : IsUnit (s.phi_de t).det := isUnit_iff_ne_zero.2 h
  simp [Sys.R, Matrix.mul_nonsing_inv_cancel_left _ _ this]

private theorem R_dot_eq (s : Sys k m) (h : Regular s) :
    s.phi_de s.t * s.R_dot + (phiDot s).submatrix id (Fin.natAdd k) * s.R s.t +
      (phiDot s).submatrix id (Fin.castAdd m) = 0 := by
  have hde : ∀ i j, DifferentiableAt ℝ (fun t => s.phi_de t i j) s.t := fun i j => h.diff i _
  have hev : ∀ᶠ t in nhds s.t, (s.phi_de t).det ≠ 0 :=
    (diff_det hde).continuousAt.eventually_ne h.det
  ext i j
  have h0 : (fun t => (∑ l, s.phi_de t i l * s.R t l j) + s.phi_in t i j) =ᶠ[nhds s.t] fun _ => (0 : ℝ) := by
    filter_upwards [hev] with t ht
    have := congrFun (congrFun (R_eq s t ht) i) j
    simpa [Matrix.mul_apply] using this
  have h1 := h0.deriv_eq
  have h2 : HasDerivAt (fun t => (∑ l, s.phi_de t i l * s.R t l j) + s.phi_in t i j)
      ((∑ l, (deriv (fun t => s.phi_de t i l) s.t * s.R s.t l j + s.phi_de s.t i l * deriv (fun t => s.R t l j) s.t))
        + deriv (fun t => s.phi_in t i j) s.t) s.t :=
    (HasDerivAt.fun_sum fun l _ => (hde i l).hasDerivAt.mul (diff_R s h l j).hasDerivAt).add
      (h.diff i _).hasDerivAt
  rw [h2.deriv, deriv_const] at h1
  rw [Finset.sum_add_distrib] at h1
  simp only [Matrix.add_apply, Matrix.mul_apply, Matrix.zero_apply, Matrix.submatrix_apply, id, phiDot, Sys.R_dot,
    Matrix.of_apply]
  have e : ∀ l : Fin m, deriv (fun t => s.phi t i (Fin.natAdd k l)) s.t = deriv (fun t => s.phi_de t i l) s.t := fun _ => rfl
  have e' : deriv (fun t => s.phi t i (Fin.castAdd m j)) s.t = deriv (fun t => s.phi_in t i j) s.t := rfl
  simp only [e, e']
  linarith

/-! ## The reduced mass matrix -/

private theorem H_det (s : Sys k m) (hM : Mass s) : IsUnit s.H.det := by
  rw [isUnit_iff_ne_zero]
  intro h0
  obtain ⟨x, hx, h⟩ := Matrix.exists_mulVec_eq_zero_iff.2 h0
  let y : Fin (k + m) → ℝ := Fin.addCases x (s.R s.t *ᵥ x)
  have ht : top y = x := by funext i; simp [top, y]
  have hb : bot y = s.R s.t *ᵥ x := by funext i; simp [bot, y]
  have hy : y ≠ 0 := by
    intro h
    apply hx
    rw [← ht, h]
    rfl
  have hp := hM.pos y hy
  have e : y ⬝ᵥ s.M *ᵥ y = x ⬝ᵥ s.H *ᵥ x := by
    have h1 : y ⬝ᵥ s.M *ᵥ y = top y ⬝ᵥ top (s.M *ᵥ y) + bot y ⬝ᵥ bot (s.M *ᵥ y) := by
      simp [dotProduct, Fin.sum_univ_add, top, bot]
    rw [h1, top_mulVec, bot_mulVec s hM.symm, ht, hb]
    have h2 : ∀ w : Fin m → ℝ, (s.R s.t *ᵥ x) ⬝ᵥ w = x ⬝ᵥ (s.R s.t)ᵀ *ᵥ w := by
      intro w
      rw [Matrix.mulVec_transpose, dotProduct_comm, Matrix.dotProduct_mulVec, dotProduct_comm]
    rw [h2, ← dotProduct_add]
    congr 1
    simp only [Sys.H, Matrix.add_mulVec, Matrix.mulVec_add, Matrix.mulVec_mulVec, Matrix.transpose_mul, Matrix.mul_assoc]
    abel
  rw [e, h, dotProduct_zero] at hp
  exact lt_irrefl _ hp

/-! ## The solution -/

private theorem inv_ok {n : ℕ} {A : Matrix (Fin n) (Fin n) ℝ} (h : IsUnit A.det) : inv? A = .ok A⁻¹ := if_pos h

/-- The accelerations of the independent coordinates. -/
private noncomputable def accIn (s : Sys k m) : Fin k → ℝ := s.H⁻¹ *ᵥ (s.Fa - s.K *ᵥ top s.qd)

private noncomputable def accDe (s : Sys k m) : Fin m → ℝ := s.R_dot *ᵥ top s.qd + s.R s.t *ᵥ accIn s

private noncomputable def acc (s : Sys k m) : Fin (k + m) → ℝ := Fin.append (accIn s) (accDe s)

private theorem top_acc (s : Sys k m) : top (acc s) = accIn s := by funext i; simp [top, acc]
private theorem bot_acc (s : Sys k m) : bot (acc s) = accDe s := by funext i; simp [bot, acc]

private theorem qd_de (s : Sys k m) (hr : Regular s) (hl : Linear s) : bot s.qd = s.R s.t *ᵥ top s.qd := by
  have hu : IsUnit (s.phi_de s.t).det := isUnit_iff_ne_zero.2 hr.det
  have h := hr.hold
  rw [hl s.t, add_zero, phi_split] at h
  have h1 : s.phi_de s.t *ᵥ bot s.qd = -(s.phi_in s.t *ᵥ top s.qd) := by
    rw [eq_neg_iff_add_eq_zero, add_comm]
    exact h
  have h2 := congrArg (fun v => (s.phi_de s.t)⁻¹ *ᵥ v) h1
  simp only [Matrix.mulVec_mulVec, Matrix.nonsing_inv_mul _ hu, Matrix.one_mulVec, Matrix.mulVec_neg] at h2
  rw [h2, Sys.R, Matrix.neg_mul, Matrix.neg_mulVec]

/-- The differentiated constraints say what the dependent accelerations are. -/
private theorem consistent_iff (s : Sys k m) (hr : Regular s) (hl : Linear s) (q : Fin (k + m) → ℝ) :
    Consistent s q ↔ bot q = s.R_dot *ᵥ top s.qd + s.R s.t *ᵥ top q := by
  have hu : IsUnit (s.phi_de s.t).det := isUnit_iff_ne_zero.2 hr.det
  have hb : (fun i => deriv (fun t => s.b t i) s.t) = 0 := by
    have hl' : ∀ t, s.b t = 0 := hl
    funext i
    simp [hl']
  have h1 : phiDot s *ᵥ s.qd = -(s.phi_de s.t *ᵥ (s.R_dot *ᵥ top s.qd)) := by
    rw [mulVec_split, qd_de s hr hl, Matrix.mulVec_mulVec, ← Matrix.add_mulVec, Matrix.mulVec_mulVec, ← Matrix.neg_mulVec]
    congr 1
    rw [eq_neg_iff_add_eq_zero, ← R_dot_eq s hr]
    abel
  have h2 : s.phi_in s.t *ᵥ top q = -(s.phi_de s.t *ᵥ (s.R s.t *ᵥ top q)) := by
    rw [Matrix.mulVec_mulVec, ← Matrix.neg_mulVec]
    congr 1
    rw [eq_neg_iff_add_eq_zero, add_comm]
    exact R_eq s s.t hr.det
  rw [Consistent, hb, add_zero, phi_split, h1, h2]
  have h3 : -(s.phi_de s.t *ᵥ (s.R s.t *ᵥ top q)) + s.phi_de s.t *ᵥ bot q + -(s.phi_de s.t *ᵥ (s.R_dot *ᵥ top s.qd)) =
      s.phi_de s.t *ᵥ (bot q - (s.R_dot *ᵥ top s.qd + s.R s.t *ᵥ top q)) := by
    rw [Matrix.mulVec_sub, Matrix.mulVec_add]
    abel
  rw [h3]
  constructor
  · intro h
    have h4 := congrArg (fun v => (s.phi_de s.t)⁻¹ *ᵥ v) h
    simp only [Matrix.mulVec_mulVec, Matrix.nonsing_inv_mul _ hu, Matrix.one_mulVec, Matrix.mulVec_zero] at h4
    exact sub_eq_zero.1 h4
  · intro h
    rw [h, sub_self, Matrix.mulVec_zero]

private theorem phiInT (s : Sys k m) (hr : Regular s) (l : Fin m → ℝ) :
    (s.phi_in s.t)ᵀ *ᵥ l = -((s.R s.t)ᵀ *ᵥ ((s.phi_de s.t)ᵀ *ᵥ l)) := by
  have h := R_eq s s.t hr.det
  have h1 : s.phi_in s.t = -(s.phi_de s.t * s.R s.t) := by
    rw [eq_neg_iff_add_eq_zero, add_comm]
    exact h
  rw [h1, Matrix.transpose_neg, Matrix.neg_mulVec, Matrix.transpose_mul, Matrix.mulVec_mulVec]

/-- With the dependent accelerations of the constraints, the forces balance when the reduced equations hold. -/
private theorem balance_iff (s : Sys k m) (hM : Mass s) (hr : Regular s) (q : Fin (k + m) → ℝ)
    (hq : bot q = s.R_dot *ᵥ top s.qd + s.R s.t *ᵥ top q) (l : Fin m → ℝ) :
    Balance s q l ↔ top q = accIn s ∧ (s.phi_de s.t)ᵀ *ᵥ l = bot s.Q - s.M_conᵀ *ᵥ top q - s.M_de *ᵥ bot q := by
  have hH := H_det s hM
  have e : Balance s q l ↔ s.M_in *ᵥ top q + s.M_con *ᵥ bot q + (s.phi_in s.t)ᵀ *ᵥ l = top s.Q ∧
      s.M_conᵀ *ᵥ top q + s.M_de *ᵥ bot q + (s.phi_de s.t)ᵀ *ᵥ l = bot s.Q := by
    unfold Balance
    constructor
    · intro h
      rw [← top_mulVec, ← bot_mulVec s hM.symm, ← top_phiT, ← bot_phiT, ← top_add, ← bot_add, h]
      exact ⟨rfl, rfl⟩
    · rintro ⟨h1, h2⟩
      refine ext_top_bot ?_ ?_
      · rw [top_add, top_mulVec, top_phiT, h1]
      · rw [bot_add, bot_mulVec s hM.symm, bot_phiT, h2]
  have e2 : (s.M_conᵀ *ᵥ top q + s.M_de *ᵥ bot q + (s.phi_de s.t)ᵀ *ᵥ l = bot s.Q) ↔
      (s.phi_de s.t)ᵀ *ᵥ l = bot s.Q - s.M_conᵀ *ᵥ top q - s.M_de *ᵥ bot q := by
    rw [sub_sub, eq_sub_iff_add_eq, add_comm]
  rw [e, e2]
  refine and_congr_left fun hl => ?_
  rw [phiInT s hr, hl]
  have h3 : s.M_in *ᵥ top q + s.M_con *ᵥ bot q +
      -((s.R s.t)ᵀ *ᵥ (bot s.Q - s.M_conᵀ *ᵥ top q - s.M_de *ᵥ bot q)) - top s.Q =
      s.H *ᵥ top q - (s.Fa - s.K *ᵥ top s.qd) := by
    simp only [hq, Sys.H, Sys.K, Sys.Fa, Matrix.add_mulVec, Matrix.mulVec_add, Matrix.mulVec_sub, Matrix.mulVec_mulVec,
      Matrix.transpose_mul, Matrix.mul_assoc]
    abel
  rw [← sub_eq_zero, h3, sub_eq_zero, accIn]
  constructor
  · intro h
    rw [← h, Matrix.mulVec_mulVec, Matrix.nonsing_inv_mul _ hH, Matrix.one_mulVec]
  · intro h
    rw [h, Matrix.mulVec_mulVec, Matrix.mul_nonsing_inv _ hH, Matrix.one_mulVec]

/-- The multipliers. -/
private noncomputable def mult (s : Sys k m) : Fin m → ℝ :=
  ((s.phi_de s.t)ᵀ)⁻¹ *ᵥ (bot s.Q - s.M_conᵀ *ᵥ accIn s - s.M_de *ᵥ accDe s)

private theorem detT (s : Sys k m) (hr : Regular s) : IsUnit ((s.phi_de s.t)ᵀ).det := by
  rw [Matrix.det_transpose]
  exact isUnit_iff_ne_zero.2 hr.det

private theorem solution (s : Sys k m) (hM : Mass s) (hr : Regular s) (hl : Linear s) (q : Fin (k + m) → ℝ)
    (l : Fin m → ℝ) : (Balance s q l ∧ Consistent s q) ↔ q = acc s ∧ l = mult s := by
  have hu := detT s hr
  have hmul : ∀ l', (s.phi_de s.t)ᵀ *ᵥ l' = bot s.Q - s.M_conᵀ *ᵥ accIn s - s.M_de *ᵥ accDe s ↔ l' = mult s := by
    intro l'
    unfold mult
    constructor
    · intro h
      rw [← h, Matrix.mulVec_mulVec, Matrix.nonsing_inv_mul _ hu, Matrix.one_mulVec]
    · intro h
      rw [h, Matrix.mulVec_mulVec, Matrix.mul_nonsing_inv _ hu, Matrix.one_mulVec]
  constructor
  · rintro ⟨h1, h2⟩
    have hc := (consistent_iff s hr hl q).1 h2
    obtain ⟨h3, h4⟩ := (balance_iff s hM hr q hc l).1 h1
    have hb : bot q = accDe s := by rw [hc, h3, accDe]
    refine ⟨ext_top_bot (by rw [h3, top_acc]) (by rw [hb, bot_acc]), ?_⟩
    rw [h3, hb] at h4
    exact (hmul l).1 h4
  · rintro ⟨rfl, rfl⟩
    have hc : bot (acc s) = s.R_dot *ᵥ top s.qd + s.R s.t *ᵥ top (acc s) := by rw [bot_acc, top_acc, accDe]
    refine ⟨(balance_iff s hM hr _ hc _).2 ⟨top_acc s, ?_⟩, (consistent_iff s hr hl _).2 hc⟩
    rw [top_acc, bot_acc]
    exact (hmul _).2 rfl

/-! ## What the object holds -/

private theorem ofFn_acc (s : Sys k m) : List.ofFn (accIn s) ++ List.ofFn (accDe s) = List.ofFn (acc s) := by
  rw [acc, List.ofFn_fin_append]

private theorem R_inv (s : Sys k m) : -(s.phi_de s.t)⁻¹ * s.phi_in s.t = s.R s.t := rfl

private theorem rhs_fresh_true (s : Sys k m) (hM : Mass s) (hr : Regular s) (hm : 0 < m) :
    rhsGet s true fresh = (.ok (List.ofFn (top s.qd) ++ List.ofFn (accIn s)),
      { eom := true, rhs := some (List.ofFn (top s.qd) ++ List.ofFn (accIn s)),
        rhsReduced := some (List.ofFn (top s.qd) ++ List.ofFn (accIn s)),
        R := some ((s.phi_de s.t)⁻¹, s.R s.t), qddIn := some (accIn s) }) := by
  have h1 : inv? (s.phi_de s.t) = .ok (s.phi_de s.t)⁻¹ := inv_ok (isUnit_iff_ne_zero.2 hr.det)
  have h2 : inv? s.H = .ok s.H⁻¹ := inv_ok (H_det s hM)
  simp [rhsGet, fresh, hm, h1, h2, accIn, R_inv, Sys.R]

private theorem rhs_fresh_false (s : Sys k m) (hM : Mass s) (hr : Regular s) (hm : 0 < m) :
    rhsGet s false fresh = (.ok (List.ofFn s.qd ++ List.ofFn (acc s)),
      { eom := true, rhs := some (List.ofFn s.qd ++ List.ofFn (acc s)),
        R := some ((s.phi_de s.t)⁻¹, s.R s.t), qddIn := some (accIn s), qddDe := some (accDe s) }) := by
  have h1 : inv? (s.phi_de s.t) = .ok (s.phi_de s.t)⁻¹ := inv_ok (isUnit_iff_ne_zero.2 hr.det)
  have h2 : inv? s.H = .ok s.H⁻¹ := inv_ok (H_det s hM)
  rw [← ofFn_acc]
  simp [rhsGet, fresh, hm, h1, h2, completeCore, accIn, accDe, Sys.R]

private theorem free_det (s : Sys k 0) (hM : Mass s) : IsUnit s.M.det := by
  rw [isUnit_iff_ne_zero]
  intro h0
  obtain ⟨x, hx, h⟩ := Matrix.exists_mulVec_eq_zero_iff.2 h0
  have := hM.pos x hx
  rw [h, dotProduct_zero] at this
  exact lt_irrefl _ this

private theorem rhs_free (s : Sys k 0) (hM : Mass s) (r : Bool) :
    rhsGet s r fresh = (.ok (List.ofFn s.qd ++ List.ofFn (s.M⁻¹ *ᵥ s.Q)),
      { eom := true, rhs := some (List.ofFn s.qd ++ List.ofFn (s.M⁻¹ *ᵥ s.Q)) }) := by
  simp [rhsGet, fresh, inv_ok (free_det s hM)]

/-! ## C47 -/

/-- C47, for constraints without terms free of velocities: `rhs` holds the velocities and the only accelerations that, with some
multipliers, balance the forces and keep the constraints; the reduced form holds the independent part of them. -/
theorem C47_partial (s : Sys k m) (hM : Mass s) (hr : Regular s) (hl : Linear s) (hm : 0 < m) :
    ∃ qdd lam, (rhsGet s false fresh).1 = .ok (List.ofFn s.qd ++ List.ofFn qdd) ∧
      (rhsGet s true fresh).1 = .ok (List.ofFn (fun i : Fin k => s.qd (Fin.castAdd m i)) ++
        List.ofFn fun i : Fin k => qdd (Fin.castAdd m i)) ∧
      Balance s qdd lam ∧ Consistent s qdd ∧
      ∀ qdd' lam', Balance s qdd' lam' → Consistent s qdd' → qdd' = qdd ∧ lam' = lam := by
  obtain ⟨h1, h2⟩ := (solution s hM hr hl (acc s) (mult s)).2 ⟨rfl, rfl⟩
  refine ⟨acc s, mult s, by rw [rhs_fresh_false s hM hr hm], ?_, h1, h2,
    fun q l g1 g2 => (solution s hM hr hl q l).1 ⟨g1, g2⟩⟩
  rw [rhs_fresh_true s hM hr hm, ← top_acc]
  rfl

/-- C47 without constraints: `rhs` holds the only accelerations that balance the forces. -/
theorem C47_free (s : Sys k 0) (hM : Mass s) (r : Bool) :
    ∃ qdd, (rhsGet s r fresh).1 = .ok (List.ofFn s.qd ++ List.ofFn qdd) ∧ s.M *ᵥ qdd = s.Q ∧
      ∀ qdd', s.M *ᵥ qdd' = s.Q → qdd' = qdd := by
  have hu := free_det s hM
  refine ⟨s.M⁻¹ *ᵥ s.Q, by rw [rhs_free s hM], ?_, fun q h => ?_⟩
  · rw [Matrix.mulVec_mulVec, Matrix.mul_nonsing_inv _ hu, Matrix.one_mulVec]
  · rw [← h, Matrix.mulVec_mulVec, Matrix.nonsing_inv_mul _ hu, Matrix.one_mulVec]

/-- C47: dependent velocities that the constraints do not determine raise the error of the inverse. -/
theorem C47_singular (s : Sys k m) (hm : 0 < m) (r : Bool) (h : ((s.phi s.t).submatrix id (Fin.natAdd k)).det = 0) :
    (rhsGet s r fresh).1 = .error .nonInvertible := by
  have : inv? (s.phi_de s.t) = .error .nonInvertible := by
    have h' : (s.phi_de s.t).det = 0 := h
    simp [inv?, h']
  simp [rhsGet, fresh, hm, this]

/-- Two coordinates with unit masses, the second one driven: `q₀' + q₁' = t`. -/
private noncomputable def driven : Sys 1 1 where
  M := 1
  Q := 0
  qd := ![0, 1]
  phi := fun _ => Matrix.of ![![1, 1]]
  b := fun t _ => -t
  t := 1

private theorem one_mass {k m : ℕ} (s : Sys k m) (h : s.M = 1) : Mass s := by
  refine ⟨by rw [h]; simp, fun x hx => ?_⟩
  rw [h, Matrix.one_mulVec]
  obtain ⟨i, hi⟩ := Function.ne_iff.1 hx
  exact Finset.sum_pos' (fun j _ => mul_self_nonneg _) ⟨i, Finset.mem_univ i, mul_self_pos.2 hi⟩

private theorem driven_regular : Regular driven where
  diff := by
    intro i j
    exact differentiableAt_const _
  det := by simp [driven, Matrix.det_unique]
  hold := by
    funext i
    fin_cases i
    simp [driven, mulVec, dotProduct, Fin.sum_univ_succ]

/-- C47 fails for constraints with a term that depends on time: the accelerations do not keep `q₀' + q₁' = t`. -/
theorem C47_offset_refuted : ∃ s : Sys 1 1, Mass s ∧ Regular s ∧ ∀ qdd, (rhsGet s false fresh).1 =
    .ok (List.ofFn s.qd ++ List.ofFn qdd) → ¬ Consistent s qdd := by
  refine ⟨driven, one_mass _ rfl, driven_regular, fun qdd h hc => ?_⟩
  rw [rhs_fresh_false _ (one_mass _ rfl) driven_regular (by norm_num)] at h
  have h1 : List.ofFn (acc driven) = List.ofFn qdd := List.append_cancel_left (Except.ok.inj h)
  have h2 : acc driven = qdd := List.ofFn_injective h1
  have hR : ∀ t, driven.R t = Matrix.of ![![-1]] := by
    intro t
    ext i j
    fin_cases i
    fin_cases j
    simp [Sys.R, driven, Sys.phi_de, Sys.phi_in, Matrix.mul_apply, Matrix.inv_def]
  have hd : driven.R_dot = 0 := by
    ext i j
    simp [Sys.R_dot, hR]
  have h3 := congrFun hc 0
  have h4 : bot qdd 0 = - top qdd 0 := by
    rw [← h2, bot_acc, top_acc, accDe, hd, hR]
    simp [mulVec, dotProduct]
  have h5 : qdd 1 = - qdd 0 := h4
  simp [phiDot, driven, mulVec, dotProduct, Fin.sum_univ_succ, h5] at h3
  simp [vecHead, vecTail] at h3

/-- The hypotheses of `C47_partial` hold of two coordinates tied by `q₀' + t q₁' = 0`. -/
example : ∃ s : Sys 1 1, Mass s ∧ Regular s ∧ Linear s := by
  refine ⟨{ M := 1, Q := ![1, 2], qd := ![-1, 1], phi := fun t => Matrix.of ![![1, t]], b := 0, t := 1 }, one_mass _ rfl,
    ⟨?_, ?_, ?_⟩, fun _ => rfl⟩
  · intro i j
    fin_cases i
    fin_cases j
    · exact differentiableAt_const _
    · exact differentiableAt_id
  · simp [Matrix.det_unique]
  · funext i
    fin_cases i
    simp

/-! ## C48 -/

private theorem full_fresh (s : Sys k m) (hM : Mass s) (hr : Regular s) (hm : 0 < m) (r : Bool) :
    (rhsFullGet s r fresh).1 = .ok (List.ofFn s.qd ++ List.ofFn (acc s) ++
      List.ofFn ((s.phi_de s.t)⁻¹ *ᵥ (bot s.Q - s.M_de *ᵥ accDe s))) ∧
    (rhsFullGet s r fresh).2.rhs = some (List.ofFn s.qd ++ List.ofFn (acc s)) ∧ (rhsFullGet s r fresh).2.eom = true ∧
    (rhsFullGet s r fresh).2.lam ≠ none := by
  have hm' : m ≠ 0 := hm.ne'
  have hc : ∃ o, complete s r fresh = (.ok (List.ofFn s.qd ++ List.ofFn (acc s)), o) ∧ o.eom = true ∧
      o.rhs = some (List.ofFn s.qd ++ List.ofFn (acc s)) ∧ o.R = some ((s.phi_de s.t)⁻¹, s.R s.t) ∧
      o.qddDe = some (accDe s) ∧ o.lam = none := by
    have hf : (fresh : Obj k m).R = none := rfl
    cases r
    · simp [complete, hf, rhs_fresh_false s hM hr hm, completeCore, hm, ← ofFn_acc, accDe]
    · simp [complete, hf, rhs_fresh_true s hM hr hm, completeCore, hm, ← ofFn_acc, accDe]
  obtain ⟨o, h1, h2, h3, h4, h5, h6⟩ := hc
  have hf : (fresh : Obj k m).rhsFull = none := rfl
  have hf' : (fresh : Obj k m).eom = true := rfl
  simp [rhsFullGet, hf, hf', h1, rhsGet, h2, h3, lambdaGet, h4, h5, h6, hm']

private theorem ofFn_pair {n r : ℕ} {l : List ℝ} {a a' : Fin n → ℝ} {b b' : Fin r → ℝ}
    (h : l ++ List.ofFn a ++ List.ofFn b = l ++ List.ofFn a' ++ List.ofFn b') : a = a' ∧ b = b' := by
  rw [List.append_assoc, List.append_assoc] at h
  obtain ⟨h1, h2⟩ := List.append_inj (List.append_cancel_left h) (by simp)
  exact ⟨List.ofFn_injective h1, List.ofFn_injective h2⟩

private theorem full_spec (s : Sys k m) (hM : Mass s) (hr : Regular s) (hm : 0 < m) (r : Bool) {q : Fin (k + m) → ℝ}
    {l : Fin m → ℝ} (h : (rhsFullGet s r fresh).1 = .ok (List.ofFn s.qd ++ List.ofFn q ++ List.ofFn l)) :
    bot q = s.R_dot *ᵥ top s.qd + s.R s.t *ᵥ top q ∧ s.phi_de s.t *ᵥ l = bot s.Q - s.M_de *ᵥ bot q := by
  rw [(full_fresh s hM hr hm r).1] at h
  obtain ⟨rfl, rfl⟩ := ofFn_pair (Except.ok.inj h)
  refine ⟨by rw [bot_acc, top_acc, accDe], ?_⟩
  rw [Matrix.mulVec_mulVec, Matrix.mul_nonsing_inv (s.phi_de s.t) (isUnit_iff_ne_zero.2 hr.det), Matrix.one_mulVec,
    bot_acc]

/-- C48, when the dependent coordinates are not coupled with the others by inertia and their block of the constraints is symmetric:
the multipliers at the end of `rhs_full` balance the forces. -/
theorem C48_partial (s : Sys k m) (hM : Mass s) (hr : Regular s) (hl : Linear s) (hm : 0 < m) (r : Bool)
    (hsym : ∀ i j, s.phi s.t i (Fin.natAdd k j) = s.phi s.t j (Fin.natAdd k i))
    (hcon : ∀ i j, s.M (Fin.castAdd m i) (Fin.natAdd k j) = 0) :
    ∃ qdd lam, (rhsFullGet s r fresh).1 = .ok (List.ofFn s.qd ++ List.ofFn qdd ++ List.ofFn lam) ∧
      Balance s qdd lam ∧ Consistent s qdd := by
  refine ⟨acc s, mult s, ?_, (solution s hM hr hl _ _).2 ⟨rfl, rfl⟩⟩
  have h1 : (s.phi_de s.t)ᵀ = s.phi_de s.t := by
    ext i j
    exact hsym j i
  have h2 : s.M_con = 0 := by
    ext i j
    exact hcon i j
  rw [(full_fresh s hM hr hm r).1, mult, h1, h2]
  simp

/-- The hypotheses of `C48_partial` hold of two coordinates with unit masses. -/
example : ∃ qdd lam, (rhsFullGet (⟨1, ![1, 2], ![-1, 1], fun _ => Matrix.of ![![1, 1]], 0, 1⟩ : Sys 1 1) true fresh).1 =
    .ok (List.ofFn ![-1, 1] ++ List.ofFn (qdd : Fin 2 → ℝ) ++ List.ofFn (lam : Fin 1 → ℝ)) := by
  obtain ⟨q, l, h, -⟩ := C48_partial (⟨1, ![1, 2], ![-1, 1], fun _ => Matrix.of ![![1, 1]], 0, 1⟩ : Sys 1 1) (one_mass _ rfl)
    ⟨fun i j => differentiableAt_const _, by simp [Matrix.det_unique], by
      funext i
      fin_cases i
      simp [vecHead, vecTail]⟩ (fun _ => rfl) (by norm_num) true
    (fun i j => by rw [Subsingleton.elim i j]) (fun i j => by
      fin_cases i
      fin_cases j
      simp)
  exact ⟨q, l, h⟩

/-- C48 fails for coupled coordinates: `M = [2 1; 1 2]`, `q₀' + q₁' = 0`. -/
theorem C48_coupling_refuted : ∃ s : Sys 1 1, Mass s ∧ Regular s ∧ Linear s ∧ ∀ r qdd lam,
    (rhsFullGet s r fresh).1 = .ok (List.ofFn s.qd ++ List.ofFn qdd ++ List.ofFn lam) → ¬ Balance s qdd lam := by
  let s : Sys 1 1 := ⟨Matrix.of ![![2, 1], ![1, 2]], ![1, 0], 0, fun _ => Matrix.of ![![1, 1]], 0, 0⟩
  have hM : Mass s := by
    refine ⟨?_, fun x hx => ?_⟩
    · ext i j
      fin_cases i <;> fin_cases j <;> rfl
    · have e : x ⬝ᵥ s.M *ᵥ x = x 0 ^ 2 + x 1 ^ 2 + (x 0 + x 1) ^ 2 := by
        simp [s, dotProduct, mulVec, Fin.sum_univ_succ]
        ring
      rw [e]
      by_contra hn
      have h0 : x 0 = 0 := by nlinarith [sq_nonneg (x 0), sq_nonneg (x 1), sq_nonneg (x 0 + x 1)]
      have h1 : x 1 = 0 := by nlinarith [sq_nonneg (x 0), sq_nonneg (x 1), sq_nonneg (x 0 + x 1)]
      exact hx (by funext i; fin_cases i; exacts [h0, h1])
  have hr : Regular s := ⟨fun i j => differentiableAt_const _, by simp [s, Matrix.det_unique], by simp [s]⟩
  refine ⟨s, hM, hr, fun _ => rfl, fun r q l h hb => ?_⟩
  obtain ⟨h1, h2⟩ := full_spec s hM hr (by norm_num) r h
  have hR : ∀ t, s.R t = Matrix.of ![![-1]] := by
    intro t
    ext i j
    fin_cases i
    fin_cases j
    simp [Sys.R, s, Sys.phi_de, Sys.phi_in, Matrix.mul_apply]
  have hd : s.R_dot = 0 := by
    ext i j
    simp [Sys.R_dot, hR]
  have g1 := congrFun h1 0
  have g2 := congrFun h2 0
  have b0 := congrFun hb 0
  have b1 := congrFun hb 1
  rw [hR, hd] at g1
  simp [s, mulVec, dotProduct, Fin.sum_univ_succ, bot, top, Sys.phi_de, Sys.M_de] at g1 g2 b0 b1
  linarith

/-- C48 fails for dependent blocks that are not symmetric, without any coupling. -/
theorem C48_transpose_refuted : ∃ s : Sys 1 2, Mass s ∧ Regular s ∧ Linear s ∧
    (∀ i j, s.M (Fin.castAdd 2 i) (Fin.natAdd 1 j) = 0) ∧ ∀ r qdd lam,
    (rhsFullGet s r fresh).1 = .ok (List.ofFn s.qd ++ List.ofFn qdd ++ List.ofFn lam) → ¬ Balance s qdd lam := by
  let s : Sys 1 2 := ⟨1, ![0, 1, 0], 0, fun _ => Matrix.of ![![0, 1, 1], ![0, 0, 1]], 0, 0⟩
  have hM : Mass s := one_mass s rfl
  have hr : Regular s := ⟨fun i j => differentiableAt_const _, by simp [s, Matrix.det_fin_two], by simp [s]⟩
  refine ⟨s, hM, hr, fun _ => rfl, fun i j => ?_, fun r q l h hb => ?_⟩
  · fin_cases i
    fin_cases j <;> simp [s]
  obtain ⟨h1, h2⟩ := full_spec s hM hr (by norm_num) r h
  have hp : ∀ t, s.phi_in t = 0 := by
    intro t
    ext i j
    fin_cases j
    fin_cases i <;> simp [Sys.phi_in, s]
  have hR : ∀ t, s.R t = 0 := fun t => by rw [Sys.R, hp, Matrix.mul_zero]
  have hd : s.R_dot = 0 := by
    ext i j
    simp [Sys.R_dot, hR]
  rw [hR, hd] at h1
  have g0 := congrFun h1 0
  have g1 := congrFun h1 1
  have e0 := congrFun h2 0
  have e1 := congrFun h2 1
  have b1 := congrFun hb 1
  have b2 := congrFun hb 2
  simp [s, mulVec, dotProduct, Fin.sum_univ_succ, bot, Sys.phi_de, Sys.M_de, Matrix.one_apply] at g0 g1 e0 e1 b1 b2
  linarith

/-! ## C49 -/

/-- The attributes and the method that a user may call. -/
inductive Read
  | rhs | rhsReduced | rhsFull | lambdaVector | calculate

/-- The object after one of them. -/
noncomputable def after (s : Sys k m) (r : Bool) (o : Obj k m) : Read → Obj k m
  | .rhs => (rhsGet s r o).2
  | .rhsReduced => (rhsReducedGet s r o).2
  | .rhsFull => (rhsFullGet s r o).2
  | .lambdaVector => (lambdaGet s o).2
  | .calculate => (complete s r o).2

/-- What the attributes can hold when the system is not reduced. -/
private structure Inv (s : Sys k m) (r : Bool) (o : Obj k m) : Prop where
  eom : o.eom = true
  rhs : ∀ l, o.rhs = some l → (rhsGet s r fresh).1 = .ok l
  R : ∀ p, o.R = some p → 0 < m ∧ inv? (s.phi_de s.t) = .ok p.1 ∧ p.2 = -p.1 * s.phi_in s.t
  acc : ∀ a, o.qddIn = some a → ∃ h, inv? s.H = .ok h ∧ a = h *ᵥ (s.Fa - s.K *ᵥ top s.qd)

private theorem inv_fresh (s : Sys k m) (r : Bool) : Inv s r fresh := by
  refine ⟨rfl, ?_, ?_, ?_⟩ <;> intro _ h <;> simp [fresh] at h

private theorem core_inv (s : Sys k m) (o : Obj k m) (h : Inv s false o) : Inv s false (completeCore s o).2 := by
  unfold completeCore
  split
  · cases hR : o.R with
    | none => exact h
    | some p =>
      cases ha : o.qddIn with
      | none => exact h
      | some a =>
        obtain ⟨g0, g1, g2⟩ := h.R p hR
        obtain ⟨i, g3, g4⟩ := h.acc a ha
        refine ⟨h.eom, ?_, ?_, ?_⟩
        · intro l hl
          simp only [Option.some.injEq] at hl
          subst hl
          simp [rhsGet, fresh, g0, g1, g3, completeCore, g4, g2]
        · intro p' hp'
          exact h.R p' (hR.trans hp')
        · intro a' ha'
          exact h.acc a' (ha.trans ha')
  · exact h

private theorem core_free (s : Sys k 0) (o : Obj k 0) (h : o.rhs ≠ none ∨ o.R = none) : (completeCore s o).2 = o := by
  unfold completeCore
  split
  · next hc =>
    obtain hc | hc := hc
    · have hR : o.R = none := h.resolve_left (fun h => h hc)
      simp [hR]
    · exact absurd hc (by decide)
  · rfl

private theorem rhs_inv (s : Sys k m) (r : Bool) (hr : r = false ∨ m = 0) (o : Obj k m) (h : Inv s r o) :
    Inv s r (rhsGet s r o).2 ∧ (rhsGet s r o).1 = (rhsGet s r fresh).1 := by
  cases ho : o.rhs with
  | some l =>
    have e : rhsGet s r o = (.ok l, o) := by simp [rhsGet, h.eom, ho]
    rw [e]
    exact ⟨h, (h.rhs l ho).symm⟩
  | none =>
    by_cases hm : 0 < m
    · obtain rfl : r = false := hr.resolve_right hm.ne'
      cases hp : inv? (s.phi_de s.t) with
      | error e => 
        have e1 : rhsGet s false o = (.error e, o) := by simp [rhsGet, h.eom, ho, hm, hp]
        have e2 : rhsGet s false fresh = (.error e, fresh) := by simp [rhsGet, fresh, hm, hp]
        rw [e1, e2]
        exact ⟨h, rfl⟩
      | ok p =>
        cases hh : inv? s.H with
        | error e =>
          have e1 : rhsGet s false o = (.error e, { o with R := some (p, -p * s.phi_in s.t) }) := by
            simp [rhsGet, h.eom, ho, hm, hp, hh]
          have e2 : (rhsGet s false fresh).1 = .error e := by simp [rhsGet, fresh, hm, hp, hh]
          rw [e1, e2]
          refine ⟨⟨h.eom, ?_, ?_, h.acc⟩, rfl⟩
          · intro l hl
            exact h.rhs l hl
          · intro q hq
            simp only [Option.some.injEq] at hq
            subst hq
            exact ⟨hm, hp, rfl⟩
        | ok i =>
          have e1 : rhsGet s false o = completeCore s { o with R := some (p, -p * s.phi_in s.t), qddIn := some (i *ᵥ (s.Fa - s.K *ᵥ top s.qd)) } := by
            simp [rhsGet, h.eom, ho, hm, hp, hh]
          refine ⟨?_, ?_⟩
          · rw [e1]
            refine core_inv s _ ⟨h.eom, h.rhs, ?_, ?_⟩
            · intro q hq
              simp only [Option.some.injEq] at hq
              subst hq
              exact ⟨hm, hp, rfl⟩
            · intro a ha
              simp only [Option.some.injEq] at ha
              exact ⟨i, hh, ha.symm⟩
          · rw [e1]
            simp [rhsGet, fresh, hm, hp, hh, completeCore]
    · cases hM : inv? s.M with
      | error e =>
        have e1 : rhsGet s r o = (.error e, o) := by simp [rhsGet, h.eom, ho, hm, hM]
        have e2 : rhsGet s r fresh = (.error e, fresh) := by simp [rhsGet, fresh, hm, hM]
        rw [e1, e2]
        exact ⟨h, rfl⟩
      | ok i =>
        have e2 : (rhsGet s r fresh).1 = .ok (List.ofFn s.qd ++ List.ofFn (i *ᵥ s.Q)) := by simp [rhsGet, fresh, hm, hM]
        have e1 : rhsGet s r o = (.ok (List.ofFn s.qd ++ List.ofFn (i *ᵥ s.Q)),
            { o with rhs := some (List.ofFn s.qd ++ List.ofFn (i *ᵥ s.Q)) }) := by
          simp [rhsGet, h.eom, ho, hm, hM]
        rw [e1, e2]
        refine ⟨⟨h.eom, ?_, h.R, h.acc⟩, rfl⟩
        intro l hl
        simp only [Option.some.injEq] at hl
        rw [e2, hl]

private theorem core_inv' (s : Sys k m) (r : Bool) (hr : r = false ∨ m = 0) (o : Obj k m) (h : Inv s r o) :
    Inv s r (completeCore s o).2 := by
  by_cases hm : 0 < m
  · obtain rfl : r = false := hr.resolve_right hm.ne'
    exact core_inv s o h
  · obtain rfl : m = 0 := by omega
    have hR : o.R = none := by
      cases hR : o.R with
      | none => rfl
      | some p => exact absurd (h.R p hR).1 (by decide)
    rw [core_free s o (.inr hR)]
    exact h

private theorem complete_inv (s : Sys k m) (r : Bool) (hr : r = false ∨ m = 0) (o : Obj k m) (h : Inv s r o) :
    Inv s r (complete s r o).2 := by
  unfold complete
  split
  · have h1 := (rhs_inv s r hr o h).1
    revert h1
    rcases rhsGet s r o with ⟨e | l, o'⟩
    · exact id
    · exact core_inv' s r hr o'
  · exact core_inv' s r hr o h

private theorem lambda_inv (s : Sys k m) (r : Bool) (o : Obj k m) (h : Inv s r o) : Inv s r (lambdaGet s o).2 := by
  unfold lambdaGet
  cases o.lam with
  | some l => exact h
  | none =>
    by_cases hm : m = 0
    · rw [if_pos hm]
      exact ⟨h.eom, h.rhs, h.R, h.acc⟩
    · rw [if_neg hm]
      cases hR : o.R with
      | none => exact h
      | some p =>
        cases hd : o.qddDe with
        | none => exact h
        | some d => exact ⟨h.eom, h.rhs, fun q hq => h.R q (hR.trans hq), h.acc⟩

private theorem after_inv (s : Sys k m) (r : Bool) (hr : r = false ∨ m = 0) (o : Obj k m) (h : Inv s r o) (a : Read) :
    Inv s r (after s r o a) := by
  cases a with
  | rhs => exact (rhs_inv s r hr o h).1
  | calculate => exact complete_inv s r hr o h
  | lambdaVector => exact lambda_inv s r o h
  | rhsReduced =>
    have hc : ∀ o' : Obj k m, (reducedCore o').2 = o' := by
      intro o'
      unfold reducedCore
      cases o'.rhsReduced <;> rfl
    simp only [after, rhsReducedGet, h.eom, Bool.true_eq_false, if_false]
    split
    · have h1 := (rhs_inv s r hr o h).1
      revert h1
      rcases rhsGet s r o with ⟨e | l, o'⟩
      · exact id
      · intro h1
        simp only [hc]
        exact h1
    · rw [hc]
      exact h
  | rhsFull =>
    simp only [after, rhsFullGet, h.eom, Bool.true_eq_false, if_false]
    cases o.rhsFull with
    | some l => exact h
    | none =>
      have h1 := complete_inv s r hr o h
      revert h1
      rcases complete s r o with ⟨e | l, o'⟩
      · exact id
      · intro h1
        have h2 := (rhs_inv s r hr o' h1).1
        simp only
        revert h2
        rcases rhsGet s r o' with ⟨e | l, o''⟩
        · exact id
        · intro h2
          have h3 := lambda_inv s r o'' h2
          simp only
          revert h3
          rcases lambdaGet s o'' with ⟨e | l, o3⟩
          · exact id
          · intro h3
            exact ⟨h3.eom, h3.rhs, h3.R, h3.acc⟩

/-- C49, for systems that are not reduced or have no constraints: after any sequence of reads, `rhs` gives what it would give first. -/
theorem C49_partial (s : Sys k m) (r : Bool) (hr : r = false ∨ m = 0) (reads : List Read) :
    (rhsGet s r (reads.foldl (after s r) fresh)).1 = (rhsGet s r fresh).1 := by
  have h : ∀ (l : List Read) (o : Obj k m), Inv s r o → Inv s r (l.foldl (after s r) o) := by
    intro l
    induction l with
    | nil => exact fun _ h => h
    | cons a l ih => exact fun o h => ih _ (after_inv s r hr o h a)
  exact (rhs_inv s r hr _ (h reads _ (inv_fresh s r))).2

/-- C49 fails for every system that can be reduced: reading `rhs_full` before makes `rhs` longer. -/
theorem C49_refuted (s : Sys k m) (hM : Mass s) (hr : Regular s) (hm : 0 < m) :
    ∃ l l', (rhsGet s true fresh).1 = .ok l ∧ (rhsGet s true (after s true fresh .rhsFull)).1 = .ok l' ∧
      l.length = 2 * k ∧ l'.length = 2 * (k + m) := by
  obtain ⟨h1, h2, h3, -⟩ := full_fresh s hM hr hm true
  refine ⟨_, _, by rw [rhs_fresh_true s hM hr hm], by simp only [after, rhsGet, h2, h3]; rfl, ?_, ?_⟩
  · simp
    omega
  · simp
    omega

/-- C49 fails for `lambda_vector`: with constraints it raises until `rhs_full` has been read, and then it has a value. -/
theorem C49_lambda_refuted (s : Sys k m) (hM : Mass s) (hr : Regular s) (hm : 0 < m) :
    (lambdaGet s fresh).1 = .error .attribute ∧ (lambdaGet s (after s true fresh .rhs)).1 = .error .attribute ∧
      ∃ l, (lambdaGet s (after s true fresh .rhsFull)).1 = .ok l := by
  refine ⟨by simp [lambdaGet, fresh, hm.ne'], by simp [after, lambdaGet, rhs_fresh_true s hM hr hm, hm.ne'], ?_⟩
  obtain ⟨l, hl⟩ := Option.ne_none_iff_exists'.1 (full_fresh s hM hr hm true).2.2.2
  exact ⟨l, by simp [after, lambdaGet, hl]⟩

/-! ## C92 -/

/-- C92: the implicit dynamics are zero exactly when accelerations and multipliers balance the forces and keep the constraints. -/
theorem C92_implicit (s : Sys k m) (qdd : Fin (k + m) → ℝ) (lam : Fin m → ℝ) :
    implicitQ s qdd lam = 0 ↔ Balance s qdd lam ∧ Consistent s qdd := by
  have e : implicitQ s qdd lam = 0 ↔ (s.M *ᵥ qdd + (s.phi s.t)ᵀ *ᵥ lam = s.Q ∧ s.m_cd *ᵥ qdd = s.f_cd) := by
    unfold implicitQ
    rw [sub_eq_zero, Matrix.fromBlocks_mulVec]
    simp only [Sum.elim_comp_inl, Sum.elim_comp_inr, Matrix.zero_mulVec, add_zero]
    constructor
    · intro h
      exact ⟨by funext i; exact congrFun h (.inl i), by funext i; exact congrFun h (.inr i)⟩
    · rintro ⟨h1, h2⟩
      rw [h1, h2]
  rw [e]
  refine and_congr_right fun _ => ?_
  unfold Consistent Sys.m_cd Sys.f_cd
  change _ = phiDot s *ᵥ s.qd + _ ↔ _
  rw [Matrix.neg_mulVec, neg_eq_iff_add_eq_zero, add_assoc]

/-- C92: the same in terms of the state, whose first half must follow the velocities. -/
theorem C92_state (s : Sys k m) (xd : Fin (k + m) ⊕ Fin (k + m) → ℝ) (lam : Fin m → ℝ) :
    implicitX s xd lam = 0 ↔ (∀ i, xd (.inl i) = s.qd i) ∧ Balance s (fun i => xd (.inr i)) lam ∧
      Consistent s (fun i => xd (.inr i)) := by
  rw [← C92_implicit]
  unfold implicitX implicitQ
  rw [sub_eq_zero, Matrix.fromBlocks_mulVec, sub_eq_zero]
  simp only [Sum.elim_comp_inl, Sum.elim_comp_inr, Matrix.zero_mulVec, add_zero, zero_add, Matrix.one_mulVec]
  constructor
  · intro h
    exact ⟨fun i => congrFun h (.inl i), by funext i; exact congrFun h (.inr i)⟩
  · rintro ⟨h1, h2⟩
    have h1' : xd ∘ Sum.inl = s.qd := funext h1
    rw [h1']
    congr 1

/-- C92, for constraints without terms free of velocities: the implicit dynamics are zero only at the accelerations of the explicit
ones. -/
theorem C92_agree_partial (s : Sys k m) (hM : Mass s) (hr : Regular s) (hl : Linear s) (hm : 0 < m)
    (qdd : Fin (k + m) → ℝ) : (∃ lam, implicitQ s qdd lam = 0) ↔
      (rhsGet s false fresh).1 = .ok (List.ofFn s.qd ++ List.ofFn qdd) := by
  obtain ⟨q, l, h1, -, h3, h4, h5⟩ := C47_partial s hM hr hl hm
  rw [h1]
  constructor
  · rintro ⟨lam, h⟩
    obtain ⟨g1, g2⟩ := (C92_implicit s qdd lam).1 h
    rw [(h5 _ _ g1 g2).1]
  · intro h
    have : q = qdd := List.ofFn_injective (List.append_cancel_left (Except.ok.inj h))
    exact ⟨l, (C92_implicit s _ _).2 (this ▸ ⟨h3, h4⟩)⟩

/-- C92 fails with a term that depends on time: both forms accept the system and no acceleration is right for both. -/
theorem C92_agree_refuted : ∃ s : Sys 1 1, Mass s ∧ Regular s ∧ ∀ qdd lam,
    (rhsGet s false fresh).1 = .ok (List.ofFn s.qd ++ List.ofFn qdd) → implicitQ s qdd lam ≠ 0 := by
  obtain ⟨s, h1, h2, h3⟩ := C47_offset_refuted
  exact ⟨s, h1, h2, fun q l h g => h3 q h ((C92_implicit s q l).1 g).2⟩

/-! ## C93 -/

/-- The force is affine in the actuations. -/
def Affine {n r : ℕ} (forcing : (Fin r → ℝ) → Fin n → ℝ) (E : Matrix (Fin n) (Fin r) ℝ) : Prop :=
  ∀ u, forcing u = forcing 0 + E *ᵥ u

/-- C93: for forces affine in the actuations, the inverse dynamics give the least squared difference between the inertia forces and
the applied ones. -/
theorem C93_least {n r : ℕ} (M : Matrix (Fin n) (Fin n) ℝ) (qdd : Fin n → ℝ) {forcing : (Fin r → ℝ) → Fin n → ℝ}
    {E : Matrix (Fin n) (Fin r) ℝ} (hE : Affine forcing E) {pinv : Matrix (Fin n) (Fin r) ℝ → Matrix (Fin r) (Fin n) ℝ}
    (hp : IsPinv E (pinv E)) (u : Fin r → ℝ) :
    ∃ v, simpPinvDyn M qdd forcing (fun _ => E) pinv u = v ∧ implPinvDyn false M qdd forcing (fun _ => E) pinv u = .ok v ∧
      ∀ w, (M *ᵥ qdd - forcing v) ⬝ᵥ (M *ᵥ qdd - forcing v) ≤ (M *ᵥ qdd - forcing w) ⬝ᵥ (M *ᵥ qdd - forcing w) := by
  refine ⟨_, rfl, ?_, fun w => ?_⟩
  · have : forcing u - E *ᵥ u = forcing 0 := by rw [hE u, add_sub_cancel_right]
    simp [implPinvDyn, simpPinvDyn, this]
  · obtain ⟨z, hz⟩ : ∃ z, z = M *ᵥ qdd - forcing 0 := ⟨_, rfl⟩
    have e1 : M *ᵥ qdd - forcing (simpPinvDyn M qdd forcing (fun _ => E) pinv u) = z - (E * pinv E) *ᵥ z := by
      rw [hE, simpPinvDyn, ← hz, Matrix.mulVec_mulVec, hz]
      abel
    have e2 : M *ᵥ qdd - forcing w = (z - (E * pinv E) *ᵥ z) + E *ᵥ (pinv E *ᵥ z - w) := by
      rw [hE w, Matrix.mulVec_sub, Matrix.mulVec_mulVec, hz]
      abel
    have e3 : (z - (E * pinv E) *ᵥ z) ⬝ᵥ E *ᵥ (pinv E *ᵥ z - w) = 0 := by
      rw [Matrix.dotProduct_mulVec, ← Matrix.mulVec_transpose, Matrix.mulVec_sub, Matrix.mulVec_mulVec]
      have : Eᵀ * (E * pinv E) = Eᵀ := by
        rw [← hp.ap, ← Matrix.transpose_mul, hp.apa]
      rw [this, sub_self, zero_dotProduct]
    rw [e1, e2, add_dotProduct, dotProduct_add, dotProduct_add, e3, dotProduct_comm (E *ᵥ _), e3]
    have : 0 ≤ E *ᵥ (pinv E *ᵥ z - w) ⬝ᵥ E *ᵥ (pinv E *ᵥ z - w) := Finset.sum_nonneg fun i _ => mul_self_nonneg _
    linarith

/-- C93: when the actuations can give any force, the inverse dynamics give actuations that produce the accelerations. -/
theorem C93_exact {n r : ℕ} (M : Matrix (Fin n) (Fin n) ℝ) (qdd : Fin n → ℝ) {forcing : (Fin r → ℝ) → Fin n → ℝ}
    {E : Matrix (Fin n) (Fin r) ℝ} (hE : Affine forcing E) {pinv : Matrix (Fin n) (Fin r) ℝ → Matrix (Fin r) (Fin n) ℝ}
    (hp : IsPinv E (pinv E)) (hfull : ∀ f, ∃ w, E *ᵥ w = f) (u : Fin r → ℝ) :
    M *ᵥ qdd = forcing (simpPinvDyn M qdd forcing (fun _ => E) pinv u) := by
  rw [hE, simpPinvDyn]
  obtain ⟨w, hw⟩ := hfull (M *ᵥ qdd - forcing 0)
  rw [← hw, Matrix.mulVec_mulVec, Matrix.mulVec_mulVec, hp.apa, hw]
  abel

/-- The hypotheses of `C93_least` hold of one force on two coordinates, those of `C93_exact` of two forces. -/
example : IsPinv (Matrix.of ![![1], ![0]] : Matrix (Fin 2) (Fin 1) ℝ) (Matrix.of ![![1, 0]]) ∧
    (Affine (fun u : Fin 2 → ℝ => u + 1) 1 ∧ IsPinv (1 : Matrix (Fin 2) (Fin 2) ℝ) 1 ∧
      ∀ f : Fin 2 → ℝ, ∃ w, (1 : Matrix (Fin 2) (Fin 2) ℝ) *ᵥ w = f) := by
  refine ⟨⟨?_, ?_, ?_, ?_⟩, fun u => by simp [add_comm], ⟨by simp, by simp, by simp, by simp⟩, fun f => ⟨f, by simp⟩⟩
  all_goals
    ext i j
    fin_cases i <;> fin_cases j <;> simp [Matrix.mul_apply, Fin.sum_univ_succ]

/-- C93 fails for implicit systems with constraints: the shapes do not match. -/
theorem C93_constrained_refuted {n r : ℕ} (M : Matrix (Fin n) (Fin n) ℝ) (qdd : Fin n → ℝ)
    (forcing : (Fin r → ℝ) → Fin n → ℝ) (jac pinv u) : implPinvDyn true M qdd forcing jac pinv u = .error .shape := rfl

end Chords.Props
