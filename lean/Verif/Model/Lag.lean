import Mathlib.Data.Matrix.Mul
import Mathlib.Data.Matrix.Block
import Mathlib.LinearAlgebra.Matrix.NonsingularInverse
import Mathlib.Analysis.Calculus.Deriv.Basic
import Mathlib.Data.Real.Basic

/-! # Equations of motion with constraints
chords/symbolic.py 840-1066 (`SimpLagrangesMethod`) and 1149-1264 (`ImplicitLagrangesMethod`).

The code works with symbolic matrices. Here they are evaluated at an instant `t` of a motion, so that the derivative in time of
a matrix is the derivative of the function of time that it gives along the motion. `simplify` and the printed messages do
not change values and are left out. What comes from SymPy's `LagrangesMethod` is given: with `coneqs` the constraints on the
velocities, it makes the mass matrix `_m_d`, the vector `forcing`, `lam_coeffs = -∂coneqs/∂q'`,
`_m_cd = ∂(d coneqs/dt)/∂q''`, `_f_cd = -(d coneqs/dt with q'' = 0)`, `mass_matrix = [_m_d  lam_coeffsᵀ]` and, in the
full mass matrix, `[1 0 0; 0 _m_d lam_coeffsᵀ; 0 _m_cd 0]`. -/

namespace Chords.Lag
open Matrix

inductive LErr
  | value | attribute | nonInvertible | shape
  deriving DecidableEq, Repr

/-- What SymPy derives from the Lagrangian, along a motion: `k` independent and `m` dependent coordinates, as many as constraints. -/
structure Sys (k m : ℕ) where
  /-- `_m_d` at the instant. -/
  M : Matrix (Fin (k + m)) (Fin (k + m)) ℝ
  /-- `forcing` at the instant. -/
  Q : Fin (k + m) → ℝ
  /-- `_qdots` at the instant. -/
  qd : Fin (k + m) → ℝ
  /-- `lam_coeffs` along the motion. -/
  phi : ℝ → Matrix (Fin m) (Fin (k + m)) ℝ
  /-- The terms of `coneqs` without velocities, along the motion: `coneqs = -phi q' - b`. -/
  b : ℝ → Fin m → ℝ
  /-- The instant. -/
  t : ℝ

variable {k m : ℕ}

/-- `A.inv()`: raises for a singular matrix. -/
noncomputable def inv? {n : ℕ} (A : Matrix (Fin n) (Fin n) ℝ) : Except LErr (Matrix (Fin n) (Fin n) ℝ) :=
  open Classical in if IsUnit A.det then .ok A⁻¹ else .error .nonInvertible

/-- First `k` entries, `v[:n_ind]`. -/
def top (v : Fin (k + m) → ℝ) : Fin k → ℝ := fun i => v (Fin.castAdd m i)

/-- The other entries, `v[n_ind:]`. -/
def bot (v : Fin (k + m) → ℝ) : Fin m → ℝ := fun i => v (Fin.natAdd k i)

/-- `M[:n_ind, :n_ind]`, symbolic.py 931. -/
def Sys.M_in (s : Sys k m) : Matrix (Fin k) (Fin k) ℝ := s.M.submatrix (Fin.castAdd m) (Fin.castAdd m)

/-- `M[n_ind:, n_ind:]`, symbolic.py 932. -/
def Sys.M_de (s : Sys k m) : Matrix (Fin m) (Fin m) ℝ := s.M.submatrix (Fin.natAdd k) (Fin.natAdd k)

/-- `M[:n_ind, n_ind:]`, symbolic.py 933. -/
def Sys.M_con (s : Sys k m) : Matrix (Fin k) (Fin m) ℝ := s.M.submatrix (Fin.castAdd m) (Fin.natAdd k)

/-- `phi_q[:, :n_ind]`, symbolic.py 936. -/
def Sys.phi_in (s : Sys k m) (t : ℝ) : Matrix (Fin m) (Fin k) ℝ := (s.phi t).submatrix id (Fin.castAdd m)

/-- `phi_q[:, n_ind:]`, symbolic.py 937. -/
def Sys.phi_de (s : Sys k m) (t : ℝ) : Matrix (Fin m) (Fin m) ℝ := (s.phi t).submatrix id (Fin.natAdd k)

/-- `R`, symbolic.py 948-950, along the motion. -/
noncomputable def Sys.R (s : Sys k m) (t : ℝ) : Matrix (Fin m) (Fin k) ℝ := -(s.phi_de t)⁻¹ * s.phi_in t

/-- `R.diff(t)`, symbolic.py 951. -/
noncomputable def Sys.R_dot (s : Sys k m) : Matrix (Fin m) (Fin k) ℝ := Matrix.of fun i j => deriv (fun t => s.R t i j) s.t

/-- `H`, symbolic.py 953-955. -/
noncomputable def Sys.H (s : Sys k m) : Matrix (Fin k) (Fin k) ℝ :=
  let R := s.R s.t
  let H_con := s.M_con * R
  s.M_in + H_con + H_conᵀ + Rᵀ * s.M_de * R

/-- `K`, symbolic.py 956-957. -/
noncomputable def Sys.K (s : Sys k m) : Matrix (Fin k) (Fin k) ℝ :=
  (s.R s.t)ᵀ * s.M_de * s.R_dot + s.M_con * s.R_dot

/-- `Fa`, symbolic.py 958-959. -/
noncomputable def Sys.Fa (s : Sys k m) : Fin k → ℝ := top s.Q + (s.R s.t)ᵀ *ᵥ bot s.Q

/-- The attributes of the object that later calls read. `R`, `q_dotdot_in` and `q_dotdot_de` are kept as their values. -/
structure Obj (k m : ℕ) where
  /-- `eom` is not `None`. -/
  eom : Bool
  rhs : Option (List ℝ) := none
  rhsReduced : Option (List ℝ) := none
  rhsFull : Option (List ℝ) := none
  /-- `phi_q_de_inv` and `R`, which are set one after the other. -/
  R : Option (Matrix (Fin m) (Fin m) ℝ × Matrix (Fin m) (Fin k) ℝ) := none
  qddIn : Option (Fin k → ℝ) := none
  qddDe : Option (Fin m → ℝ) := none
  lam : Option (List ℝ) := none

/-- A property or method: the value or the exception, and the object after it. -/
abbrev Access (k m : ℕ) (α : Type) := Obj k m → Except LErr α × Obj k m

/-- `calculate_RHS_complete`, symbolic.py 1002-1012: the part after making sure that `R` is known. -/
noncomputable def completeCore (s : Sys k m) : Access k m (List ℝ) := fun o =>
  if o.rhs = none ∨ 0 < m then
    match o.R, o.qddIn with
    | some (_, R), some a =>
      let d := s.R_dot *ᵥ top s.qd + R *ᵥ a
      let r := List.ofFn s.qd ++ List.ofFn a ++ List.ofFn d
      (.ok r, { o with qddDe := some d, rhs := some r })
    | _, _ => (.error .attribute, o)
  else (.ok (o.rhs.getD []), o)

/-- `rhs`, symbolic.py 903-992. `reducible` is the result of the search for dependent coordinates in the reduced accelerations,
symbolic.py 967-972. -/
noncomputable def rhsGet (s : Sys k m) (reducible : Bool) : Access k m (List ℝ) := fun o =>
  if o.eom = false then (.error .value, o)
  else match o.rhs with
  | some r => (.ok r, o)
  | none =>
    if 0 < m then
      match inv? (s.phi_de s.t) with
      | .error e => (.error e, o)
      | .ok p =>
        let o := { o with R := some (p, -p * s.phi_in s.t) }
        match inv? s.H with
        | .error e => (.error e, o)
        | .ok h =>
          let a := h *ᵥ (s.Fa - s.K *ᵥ top s.qd)
          let o := { o with qddIn := some a }
          if reducible then
            let r := List.ofFn (top s.qd) ++ List.ofFn a
            (.ok r, { o with rhsReduced := some r, rhs := some r })
          else completeCore s o
    else
      match inv? s.M with
      | .error e => (.error e, o)
      | .ok h =>
        let r := List.ofFn s.qd ++ List.ofFn (h *ᵥ s.Q)
        (.ok r, { o with rhs := some r })

/-- `calculate_RHS_complete`, symbolic.py 994-1012. -/
noncomputable def complete (s : Sys k m) (reducible : Bool) : Access k m (List ℝ) := fun o =>
  if o.R = none then
    match rhsGet s reducible o with
    | (.error e, o) => (.error e, o)
    | (.ok _, o) => completeCore s o
  else completeCore s o

/-- `rhs_reduced`, symbolic.py 1025-1030: the part after making sure that `rhs` is known. -/
def reducedCore : Access k m (List ℝ) := fun o =>
  match o.rhsReduced with
  | none => (.error .value, o)
  | some r => (.ok r, o)

/-- `rhs_reduced`, symbolic.py 1014-1030. -/
noncomputable def rhsReducedGet (s : Sys k m) (reducible : Bool) : Access k m (List ℝ) := fun o =>
  if o.eom = false then (.error .value, o)
  else if o.rhs = none then
    match rhsGet s reducible o with
    | (.error e, o) => (.error e, o)
    | (.ok _, o) => reducedCore o
  else reducedCore o

/-- `lambda_vector`, symbolic.py 1032-1043. -/
noncomputable def lambdaGet (s : Sys k m) : Access k m (List ℝ) := fun o =>
  match o.lam with
  | some l => (.ok l, o)
  | none =>
    if m = 0 then (.ok [], { o with lam := some [] })
    else match o.R, o.qddDe with
      | some (p, _), some d =>
        let l := List.ofFn (p *ᵥ (bot s.Q - s.M_de *ᵥ d))
        (.ok l, { o with lam := some l })
      | _, _ => (.error .attribute, o)

/-- `rhs_full`, symbolic.py 1045-1058. -/
noncomputable def rhsFullGet (s : Sys k m) (reducible : Bool) : Access k m (List ℝ) := fun o =>
  if o.eom = false then (.error .value, o)
  else match o.rhsFull with
  | some r => (.ok r, o)
  | none =>
    match complete s reducible o with
    | (.error e, o) => (.error e, o)
    | (.ok _, o) =>
      match rhsGet s reducible o with
      | (.error e, o) => (.error e, o)
      | (.ok r, o) =>
        match lambdaGet s o with
        | (.error e, o) => (.error e, o)
        | (.ok l, o) => (.ok (r ++ l), { o with rhsFull := some (r ++ l) })

/-- The object after `form_lagranges_equations`. -/
def fresh : Obj k m := { eom := true }

/-! ### The implicit form -/

/-- `_m_cd`: the coefficients of the accelerations in the differentiated constraints. -/
def Sys.m_cd (s : Sys k m) : Matrix (Fin m) (Fin (k + m)) ℝ := -s.phi s.t

/-- `_f_cd`: minus the other terms of the differentiated constraints. -/
noncomputable def Sys.f_cd (s : Sys k m) : Fin m → ℝ :=
  (Matrix.of fun i j => deriv (fun t => s.phi t i j) s.t) *ᵥ s.qd + fun i => deriv (fun t => s.b t i) s.t

/-- `implicit_dynamics_q`, symbolic.py 1177-1201, with `mass_matrix_square`, symbolic.py 1156-1175: the residual of accelerations and multipliers. -/
noncomputable def implicitQ (s : Sys k m) (qdd : Fin (k + m) → ℝ) (lam : Fin m → ℝ) : Fin (k + m) ⊕ Fin m → ℝ :=
  Matrix.fromBlocks s.M (s.phi s.t)ᵀ s.m_cd 0 *ᵥ Sum.elim qdd lam - Sum.elim s.Q s.f_cd

/-- `implicit_dynamics_x`, symbolic.py 1203-1245: the residual of the derivatives of the state and the multipliers. -/
noncomputable def implicitX (s : Sys k m) (xd : Fin (k + m) ⊕ Fin (k + m) → ℝ) (lam : Fin m → ℝ) :
    Fin (k + m) ⊕ (Fin (k + m) ⊕ Fin m) → ℝ :=
  Matrix.fromBlocks 1 0 0 (Matrix.fromBlocks s.M (s.phi s.t)ᵀ s.m_cd 0) *ᵥ
      Sum.elim (xd ∘ .inl) (Sum.elim (xd ∘ .inr) lam) - Sum.elim s.qd (Sum.elim s.Q s.f_cd)

/-! ### Inverse dynamics -/

/-- `A.pinv()`: any matrix with the four properties that define the pseudo-inverse. -/
structure IsPinv {n r : ℕ} (A : Matrix (Fin n) (Fin r) ℝ) (P : Matrix (Fin r) (Fin n) ℝ) : Prop where
  apa : A * P * A = A
  pap : P * A * P = P
  ap : (A * P)ᵀ = A * P
  pa : (P * A)ᵀ = P * A

/-- `SimpLagrangesMethod.sym_pinv_dyn`, symbolic.py 1060-1077: `forcing` as a function of the actuations, its jacobian at the actuations. -/
noncomputable def simpPinvDyn {n r : ℕ} (M : Matrix (Fin n) (Fin n) ℝ) (qdd : Fin n → ℝ) (forcing : (Fin r → ℝ) → Fin n → ℝ)
    (jac : (Fin r → ℝ) → Matrix (Fin n) (Fin r) ℝ) (pinv : Matrix (Fin n) (Fin r) ℝ → Matrix (Fin r) (Fin n) ℝ)
    (u : Fin r → ℝ) : Fin r → ℝ :=
  pinv (jac u) *ᵥ (M *ᵥ qdd - forcing 0)

/-- `ImplicitLagrangesMethod.sym_pinv_dyn`, symbolic.py 1247-1263. With constraints the mass matrix has more columns than there are
accelerations. -/
noncomputable def implPinvDyn {n r : ℕ} (constrained : Bool) (M : Matrix (Fin n) (Fin n) ℝ) (qdd : Fin n → ℝ)
    (forcing : (Fin r → ℝ) → Fin n → ℝ) (jac : (Fin r → ℝ) → Matrix (Fin n) (Fin r) ℝ)
    (pinv : Matrix (Fin n) (Fin r) ℝ → Matrix (Fin r) (Fin n) ℝ) (u : Fin r → ℝ) : Except LErr (Fin r → ℝ) :=
  if constrained then .error .shape
  else .ok (pinv (jac u) *ᵥ (M *ᵥ qdd - (forcing u - jac u *ᵥ u)))

end Chords.Lag
