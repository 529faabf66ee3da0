import Mathlib.Data.Real.Basic
import Mathlib.Data.List.Basic

/-! # Changing the form of a dynamics function
chords/piecewise.py 120-549 and 1305-1334 (`expand_F`, `expand_G`, `reduce_F`, `increase_order_implicit_func`,
`get_x_divisions`), chords/opti.py 3659-3792 (`_Function_Dynamics.dynamic_setup`).

Simplifications. Floats and symbolic scalars are reals. A state is one state, not a series of them: a one-dimensional
array in numpy, a matrix of one row in casadi, and a list here. A user's function gets a list for each array argument
of state kind; `u`, the lambdas and the parameters are one value of any type. User functions return rows; the
transpositions that the code does for columns and the `DM(a)` test of piecewise.py 199 do nothing then. -/

namespace Chords.Expand

inductive EErr
  | assertion | value | name | unbound | zeroDiv | runtime | notImplemented
  deriving DecidableEq

/-- What an acceleration function may return: a number or an array. -/
inductive Ret
  | num (a : ℝ)
  | arr (l : List ℝ)

/-- `array(a)` or `array([a])`, piecewise.py 173-180. -/
def Ret.toList : Ret → List ℝ
  | .num a => [a]
  | .arr l => l

/-- `x[-dim:]`: everything when `dim` is zero. -/
def lastPart (x : List ℝ) (dim : ℕ) : List ℝ := if dim = 0 then x else x.drop (x.length - dim)

/-- `expand_F`, piecewise.py 120-238: the function that it returns, applied. -/
def expandF {U : Type} (F : List ℝ → U → Ret) (mode : String) (order : ℕ) : Except EErr (List ℝ → U → Except EErr (List ℝ)) :=
  if mode = "numpy" then .ok fun x u =>
    let a := F x u
    if order = 0 then .error .zeroDiv else
    let dim := x.length / order
    let v := x.drop dim
    let new_a := a.toList
    if new_a.length = v.length then .ok (v ++ new_a) else .error .assertion
  else if mode = "casadi" then .ok fun x u =>
    let a := F x u
    if order = 0 then .error .zeroDiv else
    let dim := x.length / order
    let v := x.drop dim
    .ok (v ++ a.toList)
  else .error .name

/-- The parts `x[dim * ii : dim * (ii + 1)]` for `ii` in `range(order)`. -/
def parts (x : List ℝ) (dim order : ℕ) : List (List ℝ) := (List.range order).map fun ii => (x.drop (dim * ii)).take dim

/-- `expand_G`, piecewise.py 241-297. The function is split in `order` parts, and handed to `expand_F` without `order`
(line 296), that is with order 2. `order = 0` is not considered. -/
def expandG {U : Type} (G : List (List ℝ) → U → Ret) (mode : String) (order : ℕ) :
    Except EErr (List ℝ → U → Except EErr (List ℝ)) :=
  expandF (fun x u => G (parts x (x.length / order) order) u) mode 2

/-- `reduce_F`, piecewise.py 300-384: the function that it returns, applied to the coordinates and their derivatives. -/
def reduceF {U : Type} (F : List ℝ → U → Except EErr (List ℝ)) (mode : String) :
    Except EErr (List (List ℝ) → U → Except EErr (List ℝ)) :=
  if mode = "numpy" ∨ mode = "casadi" then .ok fun q_and_der u => do
    let dim := (q_and_der.headD []).length
    let x := q_and_der.flatten
    let res ← F x u
    return lastPart res dim
  else .error .name

/-- `get_x_divisions`, piecewise.py 1305-1334, for arrays. -/
def getXDivisions (x : List ℝ) (order : ℕ) : List (List ℝ) := parts x (x.length / order) order

/-- `a - b` for numpy arrays of one length. -/
def sub (a b : List ℝ) : List ℝ := List.zipWith (· - ·) a b

/-- `increase_order_implicit_func`, piecewise.py 387-549. `F` takes `x` and `x'`. -/
def increaseOrder {U : Type} (F : List ℝ → List ℝ → U → List ℝ) (n_q new_order old_order : ℕ) (mode state_mode : String) :
    Except EErr (List ℝ → List ℝ → U → Except EErr (List ℝ)) :=
  if old_order ≤ new_order then
    if state_mode = "q" then .error .unbound
    else if state_mode = "x" then .ok fun x_new x_d_new u =>
      if x_new.length = x_d_new.length then
        if x_new.length = new_order * n_q then
          let q_and_der := getXDivisions x_new new_order
          let q_d_and_der := getXDivisions x_d_new new_order
          if mode = "numpy" ∨ mode = "casadi" then
            if old_order = 0 then .error .value else
            let x_old := (q_and_der.take old_order).flatten
            let x_d_old := (q_d_and_der.take old_order).flatten
            let old_result := F x_old x_d_old u
            let old_result_div := getXDivisions old_result old_order
            let intermediate := (List.range' old_order (new_order - old_order)).map fun ii =>
              sub (q_and_der.getD ii []) (q_d_and_der.getD (ii - 1) [])
            .ok (old_result_div.dropLast ++ intermediate ++ old_result_div.drop (old_result_div.length - 1)).flatten
          else .error .name
        else .error .assertion
      else .error .assertion
    else .error .name
  else .error .assertion

/-! ### `_Function_Dynamics` -/

/-- `a - b` for casadi rows: a row of one entry is taken as a number. -/
def casSub (a b : List ℝ) : Except EErr (List ℝ) :=
  if a.length = b.length then .ok (List.zipWith (· - ·) a b)
  else if a.length = 1 then .ok (b.map fun t => a.headD 0 - t)
  else if b.length = 1 then .ok (a.map fun t => t - b.headD 0)
  else .error .runtime

/-- What the user gives, together with `func_kind`. -/
inductive Given (U : Type)
  | f_x (F : List ℝ → U → List ℝ)
  | g_q (G : List (List ℝ) → U → List ℝ)
  | f_x_impl (F : List ℝ → List ℝ → U → List ℝ)
  | g_q_impl (G : List (List ℝ) → U → List ℝ)
  | unknown

/-- `dyn_f_restr(x, x_dot, u, lam, params)` made by `dynamic_setup`, opti.py 3715-3766, with `n_lambdas = 0`. Errors in the
construction are reported at the application. -/
def dynFRestr {U : Type} (given : Given U) (n_q order : ℕ) (x x_dot : List ℝ) (u : U) : Except EErr (List ℝ) :=
  match given with
  | .f_x F => casSub x_dot (F x u)
  | .g_q G => do
    let F_x ← expandG (fun q u => .arr (G q u)) "casadi" order
    let f ← F_x x u
    casSub x_dot f
  | .f_x_impl F => .ok (F x x_dot u)
  | .g_q_impl G => do
    let x_list := parts x n_q order
    let x_dot_list := parts x_dot n_q order
    let x_restr := G (x_list ++ [x_dot_list.getLastD []]) u
    let x_d_difs := (List.range (order - 1)).map fun ii => sub (x_dot_list.getD ii []) (x_list.getD (ii + 1) [])
    return x_restr ++ x_d_difs.flatten
  | .unknown => .error .notImplemented

/-- `dyn_g_restr(q, q_dot, …, u, lam, params)` made by `dynamic_setup`, opti.py 3715-3774; `q_and_ders` has `order + 1`
elements. -/
def dynGRestr {U : Type} (given : Given U) (n_q order : ℕ) (q_and_ders : List (List ℝ)) (u : U) : Except EErr (List ℝ) :=
  match given with
  | .f_x F => do
    let G_q ← reduceF (fun x u => .ok (F x u)) "casadi"
    let g ← G_q (q_and_ders.take order) u
    casSub (q_and_ders.getD order []) g
  | .g_q G => casSub (q_and_ders.getD order []) (G (q_and_ders.take order) u)
  | .f_x_impl F =>
    let x_union := (q_and_ders.take order).flatten
    let x_dot_union := (q_and_ders.drop 1).flatten
    .ok (lastPart (F x_union x_dot_union u) n_q)
  | .g_q_impl G => .ok (G q_and_ders u)
  | .unknown => .error .notImplemented

end Chords.Expand
