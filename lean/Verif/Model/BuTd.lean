import Verif.Model.Gauss
import Verif.Model.TimeScale

/-! # Bottom-up, top-down and node based pseudospectral constraints
chords/bu_pseudospectral.py 190-391, chords/td_pseudospectral.py 111-124, and the `apply_scheme` methods in
chords/opti.py. Matrices are functions of row and column. The optimisation variables are real matrices and
`opti.subject_to(a == b)` is the proposition that they are equal, so the constraints form a proposition about an
assignment of the variables. `scheme` is the name without prefix, as in `self.scheme`. -/

namespace Chords.BuTd
open Finset Chords.Points Chords.Spec Chords.Bary Chords.Gauss Chords.TimeScale

/-- What can be raised. `broadcast` is the `ValueError` of numpy when the shapes of an assignment do not fit. -/
inductive BErr
  | points (e : Err) | assertion | broadcast
  deriving DecidableEq

/-- Errors of the point functions go through. -/
def lift {A : Type} : Except Err A → Except BErr A
  | .ok a => .ok a
  | .error e => .error (.points e)

/-- `BU_unit_Lag_pol`, bu_pseudospectral.py 190-222. -/
noncomputable def buUnitLagPol (N : ℕ) (scheme : String) (n order : ℕ) : Except Err (ℝ → ℝ) := do
  let x ← buCollPoints N scheme order
  return baryPoly N (arr x) fun i => if i = n then 1 else 0

/-- `_Lag_integ`, bu_pseudospectral.py 257-319. -/
noncomputable def lagInteg (N n_lag_pol : ℕ) (scheme : String) (deriv_order t_constr_index scheme_order : ℕ) :
    Except Err ℝ := do
  let constr_points ← buConstructionPoints N scheme scheme_order
  let tf := arr constr_points t_constr_index
  let lag_pol ← buUnitLagPol N scheme n_lag_pol scheme_order
  let integration_order := scheme_order - deriv_order
  return gaussRepIntegral lag_pol (-1) tf (N - 1) integration_order

/-- `Integration_Matrix` with `Integration_Polynomial_Matrix`, bu_pseudospectral.py 322-374. `M` is `scheme_order`, `P` is
`deriv_order`; `P ≥ 0` holds by type and `M ≥ 1` follows from `P < M`. The last assignment goes into a block of shape
`(n_t, N)`; the polynomials evaluated at `n_t > 1` points have shape `(n_t,)` if `int_pol` gives numbers. -/
noncomputable def integrationMatrix (N : ℕ) (scheme : String) (P : ℕ) (h : ℝ) (M : ℕ := 2) : Except BErr (ℕ → ℕ → ℝ) :=
  if P < M then do
    let constr_points ← lift (buConstructionPoints N scheme M)
    let n_t := constr_points.length
    let m1 : ℕ → ℕ → ℝ := fun _ c => if c = P then 1 else 0
    let constr_t := fun (i : ℕ) => (1 + arr constr_points i) * h / 2
    let m2 : ℕ → ℕ → ℝ := if 1 < M - P then
        fun i c => if P + 1 ≤ c ∧ c < M then constr_t i ^ (c - P) / (Nat.factorial (c - P) : ℝ) else m1 i c
      else m1
    let int_pol ← lift (lagInteg2d N scheme (M - P) M)
    if int_pol.dim = none ∧ 1 < n_t ∧ N ≠ n_t then .error .broadcast
    else return fun i c => if M ≤ c then (h / 2) ^ (M - P) * int_pol.val (arr constr_points i) (c - M) else m2 i c
  else .error .assertion

/-- `Extreme_Matrix`, bu_pseudospectral.py 377-391, for at least one point. -/
noncomputable def extremeMatrix (N : ℕ) (scheme point : String) (M : ℕ := 2) : Except Err (ℕ → ℝ) := do
  let x ← buCollPoints N scheme M
  if point = "start" then return fun ii => baryPoly N (arr x) (fun i => if i = ii then 1 else 0) (-1)
  else if point = "end" then return fun ii => baryPoly N (arr x) (fun i => if i = ii then 1 else 0) 1
  else .error .valueError

/-- `matrix_D_nu`, td_pseudospectral.py 111-114. -/
noncomputable def matrixDNu (size : ℕ) : Except Err (ℕ → ℕ → ℝ) := matrixDBary size "LGL"

/-- `matrix_L`, td_pseudospectral.py 117-124. There is always more than one construction point, so no shape is lost. -/
noncomputable def matrixL (N : ℕ) (scheme : String) (order : ℕ := 2) : Except Err (ℕ → ℕ → ℝ) := do
  let constr_points ← tdConstructionPoints N scheme order
  let polynomial ← lagPol2d (N + order) "LGL"
  return fun i c => polynomial.val (arr constr_points i) c

/-- The variables of a problem of order `order` with `n_q` coordinates: `x` and `x_d` (columns `n_q * k + j`), `u`, `lam`. -/
structure Vars where
  x : ℕ → ℕ → ℝ
  xd : ℕ → ℕ → ℝ
  u : ℕ → ℕ → ℝ
  lam : ℕ → ℕ → ℝ

/-- `q_and_ders[k]`, opti.py 1232-1235 (also 705-708 and 1583-1586): the block `k` of `x`, and after the last one the last block of `x_d`;
row `i`, coordinate `j`. -/
def Vars.lev (v : Vars) (order n_q k i j : ℕ) : ℝ :=
  if k < order then v.x i (n_q * k + j) else v.xd i (n_q * (order - 1) + j)

/-- The dynamics restriction function: rows of `x`, `x_d`, `u` and `lam` to a list of residuals. -/
abbrev Dyn := (ℕ → ℝ) → (ℕ → ℝ) → (ℕ → ℝ) → (ℕ → ℝ) → List ℝ

/-- All residuals are zero. -/
def zero (l : List ℝ) : Prop := ∀ r ∈ l, r = 0

/-- The dynamics constraints, opti.py 1484-1497 and 1820-1833: the `ii`-th one uses row `rows[ii]`. -/
def dynConstraints (F : Dyn) (rows : List ℕ) (v : Vars) : Prop :=
  ∀ ii < rows.length, zero (F (v.x (rows.getD ii 0)) (v.xd (rows.getD ii 0)) (v.u ii) (v.lam ii))

/-- `polynomial_data`, opti.py 1447-1451: column `j` of the stacked initial values and highest derivatives. -/
def polynomialData (order n_q : ℕ) (rows : List ℕ) (v : Vars) (j c : ℕ) : ℝ :=
  if c < order then v.lev order n_q c 0 j else v.lev order n_q order (rows.getD (c - order) 0) j

/-- `_BU_Pseudospectral.apply_scheme`, opti.py 1409-1497. -/
noncomputable def buConstraints (F : Dyn) (scheme : String) (n_coll order n_q : ℕ) (t_start t_end : ℝ) :
    Except BErr (Vars → Prop) := do
  let full ← lift (buArrPoints n_coll scheme order)
  let n_arr := full.length
  let coll_index ← lift (collIndices scheme)
  let rows := dynRows n_arr coll_index
  let h := t_end - t_start
  let start ← if scheme ∈ gaussLike ++ radauInv then do
      let start_mat ← lift (extremeMatrix n_coll scheme "start" order)
      pure fun (v : Vars) => ∀ j < n_q,
        v.lev order n_q order 0 j = ∑ c ∈ range n_coll, start_mat c * v.lev order n_q order (rows.getD c 0) j
    else pure fun (_ : Vars) => True
  let fin ← if scheme ∈ gaussLike ++ radauLike then do
      let end_mat ← lift (extremeMatrix n_coll scheme "end" order)
      pure fun (v : Vars) => ∀ j < n_q,
        v.lev order n_q order (n_arr - 1) j = ∑ c ∈ range n_coll, end_mat c * v.lev order n_q order (rows.getD c 0) j
    else pure fun (_ : Vars) => True
  let mats ← (List.range order).mapM fun ii => integrationMatrix n_coll scheme ii h order
  return fun v => start v ∧ fin v ∧
    (∀ ii < order, ∀ i < n_arr - 1, ∀ j < n_q,
      v.lev order n_q ii (i + 1) j
        = ∑ c ∈ range (order + n_coll), mats.getD ii (fun _ _ => 0) i c * polynomialData order n_q rows v j c) ∧
    dynConstraints F rows v

/-- `_TD_Pseudospectral.apply_scheme`, opti.py 1761-1833; `q_constr` are the extra variables. -/
noncomputable def tdConstraints (F : Dyn) (scheme : String) (n_coll order n_q : ℕ) (t_start t_end : ℝ) :
    Except Err (Vars → (ℕ → ℕ → ℝ) → Prop) := do
  let full ← tdConstructionPoints n_coll scheme order
  let n_arr := full.length
  let coll_index ← collIndices scheme
  let rows := dynRows n_arr coll_index
  let h := t_end - t_start
  let D_nu ← matrixDNu (order + n_coll)
  let L ← matrixL n_coll scheme order
  return fun v q_constr =>
    (∀ ii < order + 1, ∀ i < n_arr, ∀ j < n_q,
      v.lev order n_q ii i j = ∑ c ∈ range (order + n_coll),
        (∑ l ∈ range (order + n_coll), ((2 / h) ^ ii * L i l) * matPow (order + n_coll) D_nu ii l c) * q_constr c j) ∧
    dynConstraints F rows v

/-- First row of the node block: `x[:-1]` starts at row 0, `x[1:]` at row 1, opti.py 692-700. -/
def nodeOff (scheme : String) : ℕ := if scheme ∈ gaussLike then 0 else if scheme ∈ gaussInv then 1 else 0

/-- `_Pseudospectral.apply_scheme`, opti.py 945-1043. `opti_setup` (opti.py 651-654) asserts `order == 2` for the schemes
with a second order differentiation. -/
noncomputable def nodeConstraints (F : Dyn) (scheme : String) (n_coll order n_q : ℕ) (t_start t_end : ℝ) :
    Except BErr (Vars → Prop) :=
  if scheme ∈ gauss2 ++ ["D2"] ∧ order ≠ 2 then .error .assertion
  else do
    let n_nodes ← lift (nColToNNodes scheme n_coll)
    let full ← lift (arrPoints n_coll scheme)
    let n_arr := full.length
    let D_mat ← lift (matrixDBary n_nodes scheme)
    let off := nodeOff scheme
    let scale := 2 / (t_end - t_start)
    let schemeC : Vars → Prop := if scheme ∈ gauss2 ++ ["D2"] then
        fun v => (∀ i < n_nodes, ∀ j < n_q, v.lev order n_q 1 (off + i) j
            = scale * ∑ c ∈ range n_nodes, D_mat i c * v.lev order n_q 0 (off + c) j) ∧
          (∀ i < n_nodes, ∀ j < n_q, v.lev order n_q 2 (off + i) j
            = scale * ∑ c ∈ range n_nodes, D_mat i c * v.lev order n_q 1 (off + c) j)
      else fun v => ∀ i < n_nodes, ∀ col < order * n_q, v.xd (off + i) col
            = scale * ∑ c ∈ range n_nodes, D_mat i c * v.x (off + c) col
    let start ← if scheme ∈ gaussInv then do
        let f ← lift (baryExtreme scheme n_nodes "x" "start" order)
        pure fun (v : Vars) => (∀ col < order * n_q, v.x 0 col = f (fun c => v.x (off + c) col)) ∧
          ∀ j < n_q, v.lev order n_q order 0 j = f (fun c => v.lev order n_q order (off + c) j)
      else pure fun (_ : Vars) => True
    let fin ← if scheme ∈ gaussLike then do
        let f ← lift (baryExtreme scheme n_nodes "x" "end" order)
        pure fun (v : Vars) => (∀ col < order * n_q, v.x (n_arr - 1) col = f (fun c => v.x (off + c) col)) ∧
          ∀ j < n_q, v.lev order n_q order (n_arr - 1) j = f (fun c => v.lev order n_q order (off + c) j)
      else pure fun (_ : Vars) => True
    return fun v => schemeC v ∧ start v ∧ fin v ∧
      ∀ ii < n_coll, zero (F (v.x (i0 scheme + ii)) (v.xd (i0 scheme + ii)) (v.u ii) (v.lam ii))

end Chords.BuTd
