import Verif.Model.Gauss
import Verif.Model.TimeScale

/-! # Running costs of the pseudospectral problems
chords/opti.py 244-368 and the cost methods of the three pseudospectral problem classes. `scheme` is the name without
prefix, as stored in `self.scheme` (opti.py 428-449). A CasADi matrix is a function of row and column. -/

namespace Chords.PsCost
open Finset Chords.Points Chords.Spec Chords.Bary Chords.Gauss

/-- `_get_cost_obj_quad_int_cas`, opti.py 344-368, as a function of one column of `N` values. -/
noncomputable def quadIntCas (scheme : String) (N : ℕ) (order : ℕ := 2) (squared : Bool := false) (mode : String := "u") :
    Except Err ((ℕ → ℝ) → ℝ) := do
  let exp := if squared then 2 else 1
  let weights ← getWeights N scheme order mode
  return fun u => ∑ i ∈ range N, weights i * u i ^ exp

/-- `quad_cost` of the three pseudospectral classes, opti.py 840-880, 1325-1365 and 1677-1717: the value given to
`opti.minimize`, for an array with `N_arr` rows and `m` columns. -/
noncomputable def quadCost (scheme : String) (n_coll n_arr order : ℕ) (t_start t_end : ℝ) (N_arr m : ℕ)
    (a : ℕ → ℕ → ℝ) (squared : Bool := false) : Except Err ℝ := do
  let dt := t_end - t_start
  let mode ← if N_arr = n_coll then .ok "u" else if N_arr = n_arr then .ok "x" else .error .valueError
  let f_u_cost ← quadIntCas scheme N_arr order squared mode
  return dt * ∑ c ∈ range m, f_u_cost (fun i => a i c)

/-- `_Pseudospectral.u_sq_cost`, opti.py 882-901. -/
noncomputable def uSqCost (scheme : String) (n_coll n_arr order : ℕ) (t_start t_end : ℝ) (n_u : ℕ) (u : ℕ → ℕ → ℝ) :
    Except Err ℝ :=
  quadCost scheme n_coll n_arr order t_start t_end n_coll n_u u true

/-- `_BU_Pseudospectral.u_sq_cost` and `_TD_Pseudospectral.u_sq_cost`, opti.py 1292-1323 and 1644-1675: the order of the
problem is not passed on. -/
noncomputable def buUSqCost (scheme : String) (n_coll : ℕ) (t_start t_end : ℝ) (n_u : ℕ) (u : ℕ → ℕ → ℝ) :
    Except Err ℝ := do
  let dt := t_end - t_start
  let f_u_cost ← quadIntCas scheme n_coll (squared := true)
  return dt * ∑ c ∈ range n_u, f_u_cost (fun i => u i c)

/-- `list[j]` for a list that is long enough; Python raises `IndexError` otherwise. -/
abbrev at' (l : List ℝ) (j : ℕ) : ℝ := arr l j

/-- The loop at the end of `_get_cost_obj_trap_int`, opti.py 285-291. -/
noncomputable def trapSum (t_arr coef_list : List ℝ) (exp : ℕ) : ℝ :=
  ∑ jj ∈ range (t_arr.length - 1),
    (at' coef_list jj ^ exp + at' coef_list (jj + 1) ^ exp) * (at' t_arr (jj + 1) - at' t_arr jj) / 2

/-- A call of a CasADi function with the numbers or CasADi symbols `coefs`, or with SymPy symbols that stand for them (`sympy`): CasADi raises `NotImplementedError` for
arguments of a class that it does not know. -/
def casCall (f : (ℕ → ℝ) → ℝ) (sympy : Bool) (coefs : List ℝ) : Except Err ℝ := if sympy then .error .notImplemented else .ok (f (arr coefs))

/-- `_get_cost_obj_trap_int`, opti.py 243-295, with `mode = "u"`: `_get_cost_obj_trap_int_cas` (opti.py 299-341) does not
pass its `mode` on, so this is the only mode used. `coefs` is the list of values, `sympy` tells whether they are SymPy symbols. `start_p_f` and `end_p_f` are CasADi
functions (`get_bary_extreme_f_cas`, pseudospectral.py 1062-1083, made from `get_bary_extreme_f`). -/
noncomputable def trapInt (scheme : String) (N : ℕ) (order : ℕ := 2) (squared : Bool := true) :
    Except Err (Bool → List ℝ → Except Err ℝ) := do
  let constr ← buConstructionPoints N scheme order
  let t_arr := constr ++ [1]
  let start_p_f ← baryExtreme scheme N "u" "start" order
  let end_p_f ← baryExtreme scheme N "u" "end" order
  let exp := if squared then 2 else 1
  return fun sympy coefs => do
    let start_p ← casCall start_p_f sympy coefs
    let end_p ← casCall end_p_f sympy coefs
    if scheme ∈ ["LG", "JG", "LG2"] then .ok (trapSum t_arr ([start_p] ++ coefs ++ [end_p]) exp)
    else if scheme ∈ ["LGR", "JGR"] then .ok (trapSum t_arr (coefs ++ [end_p]) exp)
    else if scheme ∈ ["LGR_inv", "JGR_inv"] then .ok (trapSum t_arr ([start_p] ++ coefs) exp)
    else if scheme ∈ ["LGL", "JGL", "D2"] then .ok (trapSum t_arr coefs exp)
    else .error .notImplemented

/-- `N_arr` of `_get_cost_obj_trap_int_cas`, opti.py 306-326, for mode "u" or "x". -/
def trapSize (scheme : String) (N : ℕ) (mode : String) : Except Err ℕ :=
  if mode = "x" then
    if scheme ∈ ["JG", "LG2"] then .ok (N + 2)
    else if scheme ∈ ["LG", "LGR", "JGR", "LGR_inv", "JGR_inv"] then .ok (N + 1)
    else if scheme ∈ ["LGL", "JGL", "D2"] then .ok N
    else .error .notImplemented
  else .ok N

/-- `_get_cost_obj_trap_int_cas`, opti.py 298-341. The function of `_get_cost_obj_trap_int` is called with SymPy symbols (330); what that raises does not depend on the values
the symbols stand for. -/
noncomputable def trapIntCas (scheme : String) (N : ℕ) (order : ℕ) (mode : String) (squared : Bool) : Except Err (List ℝ → Except Err ℝ) := do
  let N_arr ← trapSize scheme N mode
  let fn ← trapInt scheme N order squared
  let _ ← fn true (List.replicate N_arr 0)
  return fn true

/-- The mode for an array with `len` rows, opti.py 925-935, 1389-1399 and 1741-1751. -/
def trapMode (len n_coll n_arr : ℕ) : Except Err String := if len = n_coll then .ok "u" else if len = n_arr then .ok "x" else .error .valueError

/-- `trapz_cost` of the three pseudospectral classes, opti.py 903-943, 1367-1407 and 1719-1759, for an array of one column. -/
noncomputable def trapzCost (scheme : String) (n_coll n_arr order : ℕ) (t_start t_end : ℝ) (a : List ℝ) (squared : Bool := false) :
    Except Err ℝ := do
  let dt := t_end - t_start
  let mode ← trapMode a.length n_coll n_arr
  let f_u_cost ← trapIntCas scheme n_coll order mode squared
  let v ← f_u_cost a
  return dt * v

end Chords.PsCost
