import Verif.Model.DynErr
import Verif.Model.Expand
import Mathlib.LinearAlgebra.Matrix.NonsingularInverse

/-! # Dynamic error of implicit systems, and errors by numerical integration
chords/analysis.py 259-296 and 757-1260.

Real numbers replace floats and `params` is folded into the functions. The warnings are left out. The states are given as
a two-dimensional array. -/

namespace Chords.Analysis
open Chords.Interp Chords.PsInterp Chords.BuTdInterp Chords.DynErr

/-- The same exceptions under the other type. -/
def liftE {A : Type} : Except Expand.EErr A → Except PsErr A
  | .ok a => .ok a
  | .error .assertion => .error .assertion
  | .error .value => .error .value
  | .error .name => .error .name
  | .error .unbound => .error .unbound
  | .error .zeroDiv => .error .zeroDivision
  | .error .runtime => .error .value
  | .error .notImplemented => .error .notImplemented

section
variable {d n : ℕ} {W : Type}

open Classical in
/-- The function that `generate_G(M, F_impl)` returns, analysis.py 286-294, for one state. `order` has its default value 2, as
in the only call (913). `solve` raises for singular matrices, and `reshape` for another number of unknowns than
accelerations; both are ValueError. -/
noncomputable def generateG (M : Arr d → Matrix (Fin n) (Fin n) ℝ) (F_impl : Arr d → W → Fin n → ℝ) (x : Arr d) (u : W) :
    Except PsErr (List ℝ) :=
  let dim := d / 2
  if (M x).det = 0 then .error .value
  else if n ≠ dim then .error .value
  else .ok ((List.ofFn (((M x)⁻¹).mulVec (F_impl x u))).take dim)

/-- `F = expand_F(G, mode="numpy", order=order)`, analysis.py 914, applied to one state. -/
noncomputable def implicitF (M : Arr d → Matrix (Fin n) (Fin n) ℝ) (F_impl : Arr d → W → Fin n → ℝ) (order : ℕ) (x : Arr d)
    (u : W) : Except PsErr (List ℝ) := do
  let a ← generateG M F_impl x u
  let F ← liftE (Expand.expandF (fun _ (_ : W) => .arr a) "numpy" order)
  liftE (F (List.ofFn x) u)

variable [AddCommGroup W] [Module ℝ W]

open Classical in
/-- `dynamic_error_implicit`, analysis.py 757-965. After line 914 it is `dynamic_error` (79-256) line by line. `F` is called at
the samples, at the inner points and at every interpolated state (948), of which there is at least one, since
`interpolated_array` raises without any. Simplification: the model also raises when `F` would only raise at states that are not visited. -/
noncomputable def dynamicErrorImplicit (lib : Interp.Lib d W) (x_arr : List (Arr d)) (u_arr : List W) (t_end : ℝ)
    (F_impl : Arr d → W → Fin n → ℝ) (M : Arr d → Matrix (Fin n) (Fin n) ℝ) (X_dot : Option (List (Arr d)))
    (scheme u_scheme : String) (scheme_params : Option (Params d W)) (n_interp order : ℕ) (mode : String) :
    Except PsErr (List (List Arr2) × Option (Params d W)) :=
  if h : ∃ F : Arr d → W → Arr d, ∀ x u, implicitF M F_impl order x u = .ok (List.ofFn (F x u)) then
    dynamicError lib x_arr u_arr t_end h.choose X_dot scheme u_scheme scheme_params n_interp order mode
  else .error .value

/-- `arr_mod`, analysis.py 968-970. -/
noncomputable def arrMod (x : Arr2) : List ℝ := x.rows.map fun r => √(∑ c ∈ Finset.range x.width, r c * r c)

/-- `arr_sum`, analysis.py 973-974. -/
noncomputable def arrSum (x : Arr2) : List ℝ := x.rows.map fun r => ∑ c ∈ Finset.range x.width, |r c|

/-- The largest entry of a list; the `max` of no numbers raises. -/
noncomputable def listMax : List ℝ → Except PsErr ℝ
  | [] => .error .value
  | a :: l => .ok (l.foldl max a)

/-- `arr_max`, analysis.py 977-978. numpy refuses arrays without columns, unless they have no rows either; that is done row
by row here. -/
noncomputable def arrMax (x : Arr2) : Except PsErr (List ℝ) :=
  x.rows.mapM fun r => listMax ((List.range x.width).map fun c => |r c|)

/-- `t_arr[0]` and `t_arr[-1]`. -/
def ends (t_arr : List ℝ) : Except PErr (ℝ × ℝ) :=
  match t_arr.head?, t_arr.getLast? with
  | some a, some b => .ok (a, b)
  | _, _ => .error .indexError

/-- `hermite(t_arr, x_arr, x_dot_arr)` and its value or derivative at `t`. SciPy refuses less than two samples, lists of different
lengths and times that do not increase. -/
noncomputable def hermiteAt (lib : Interp.Lib d W) (X X_dot : List (Arr d)) (t_arr : List ℝ) (deriv : ℕ) (t : ℝ) : Except PErr (Arr d) :=
  if 2 ≤ t_arr.length ∧ X.length = t_arr.length ∧ X_dot.length = t_arr.length ∧ t_arr.Pairwise (· < ·) then
    .ok (lib.spline t_arr X X_dot deriv t)
  else .error .valueError

/-- The state at `t`, analysis.py 1101-1107. -/
noncomputable def stateAt (lib : Interp.Lib d W) (X X_dot : List (Arr d)) (t_arr : List ℝ) (h t : ℝ) (scheme : String)
    (sp : Params d W) : Except PErr (Arr d) :=
  if scheme = "hs_scipy" then hermiteAt lib X X_dot t_arr 0 t
  else newpoint false X X_dot h t scheme sp

/-- Calls of `_newpoint_der` with the eight arguments of analysis.py 1127 and 1169, where `params` comes before the scheme: the function has seven
parameters (piecewise.py 2326), and Python raises before it begins. -/
def newpointDer8 : Except PErr (Arr d) := .error .typeError

/-- The derivative at `t`, analysis.py 1121-1128. -/
noncomputable def slopeAt (lib : Interp.Lib d W) (X X_dot : List (Arr d)) (t_arr : List ℝ) (t : ℝ) (scheme : String) : Except PErr (Arr d) :=
  if scheme = "hs_scipy" then hermiteAt lib X X_dot t_arr 1 t
  else newpointDer8

/-- `F_point`, analysis.py 991-1133: the value, and the dictionary after the call. With one sample the step is `0 / 0`, and
SciPy's spline or the conversion of `t // h` to an integer raises. A call that raises may also have changed the dictionary; that is not
modelled. -/
noncomputable def fPoint (lib : Interp.Lib d W) (x_arr : List (Arr d)) (u_arr : List W) (t_arr : List ℝ) (t : ℝ)
    (F : Arr d → W → Arr d) (x_dot_arr : Option (List (Arr d))) (scheme u_scheme : String) (scheme_params : Option (Params d W)) :
    Except PErr (List ℝ × Option (Params d W)) :=
  if x_arr.length = 1 then .error .valueError
  else do
    let sp := scheme_params.getD Params.empty
    let dim := d / 2
    let e ← ends t_arr
    let h := (e.2 - e.1) / ((x_arr.length : ℝ) - 1)
    let (x_dot_arr, sp) ← missing false x_arr u_arr h (some F) x_dot_arr scheme u_scheme sp
    let x ← stateAt lib x_arr x_dot_arr t_arr h t scheme sp
    let u ← newpointU lib false x_arr x_dot_arr (some F) scheme u_arr h t u_scheme sp
    let x_d ← slopeAt lib x_arr x_dot_arr t_arr t scheme
    let x_q : Arr d := fun i => if i.val < dim then x i else at' x_d (i.val - dim)
    return ((List.ofFn (F x_q u)).drop dim, scheme_params.map fun _ => sp)

/-- The function `dummy_F` of `quad_problem`, analysis.py 1155-1171, with the dictionary as `_calculate_missing_arrays` left
it; it holds all the arrays then, so that `F_point` does not change it. -/
noncomputable def accelError (lib : Interp.Lib d W) (x_arr : List (Arr d)) (u_arr : List W) (t_arr : List ℝ)
    (F : Arr d → W → Arr d) (scheme u_scheme : String) (sp : Params d W) (t : ℝ) : Except PErr (List ℝ) := do
  let dim := d / 2
  let E ← fPoint lib x_arr u_arr t_arr t F none scheme u_scheme (some sp)
  let x_d : Arr d ← newpointDer8
  return List.zipWith (fun a b => |a - b|) E.1 ((List.ofFn x_d).drop dim)

/-- The value of a call that succeeds. -/
def okD {A : Type} : Except PErr (List A) → List A
  | .ok l => l
  | .error _ => []

open Classical in
/-- `quad_problem`, analysis.py 1136-1192. `quad f a b` is the first result of `scipy.integrate.quad`, with the chosen break points
and limit; it evaluates the function at least once. The dictionary is given. Simplification: the model raises when the function to integrate raises anywhere
between the ends, and not only where `quad` evaluates it. -/
noncomputable def quadProblem (quad : (ℝ → ℝ) → ℝ → ℝ → ℝ) (lib : Interp.Lib d W) (x_arr : List (Arr d)) (u_arr : List W)
    (t_arr : List ℝ) (F : Arr d → W → Arr d) (scheme u_scheme : String) (sp : Params d W) (x_dot_arr : Option (List (Arr d))) :
    Except PErr (List ℝ) := do
  let dim := d / 2
  let e ← ends t_arr
  let h := (e.2 - e.1) / ((t_arr.length : ℝ) - 1)
  let (_, sp) ← missing false x_arr u_arr h (some F) x_dot_arr scheme u_scheme sp
  let dummy_F := accelError lib x_arr u_arr t_arr F scheme u_scheme sp
  if dim = 0 ∨ ∀ t ∈ Set.uIcc e.1 e.2, ∃ l, dummy_F t = .ok l then
    return (List.range dim).map fun ii => quad (fun t => (okD (dummy_F t)).getD ii 0) e.1 e.2
  else .error .valueError

open Classical in
/-- `doub_quad_problem`, analysis.py 1195-1260, with the same simplification. The first call of `F_point` may fill the dictionary, with
values that the later calls would compute too. -/
noncomputable def doubQuadProblem (quad : (ℝ → ℝ) → ℝ → ℝ → ℝ) (lib : Interp.Lib d W) (x_arr : List (Arr d)) (u_arr : List W)
    (t_arr : List ℝ) (F : Arr d → W → Arr d) (scheme u_scheme : String) (sp? : Option (Params d W)) :
    Except PErr (List ℝ) :=
  let dim := d / 2
  let dummy_F := fun t => (fPoint lib x_arr u_arr t_arr t F none scheme u_scheme sp?).map Prod.fst
  if dim = 0 then .ok []
  else do
    let e ← ends t_arr
    if ∀ t ∈ Set.uIcc e.1 e.2, ∃ l, dummy_F t = .ok l then
      let x0 ← pyGet x_arr 0
      let xN ← pyGet x_arr (-1)
      return (List.range dim).map fun ii =>
        at' xN ii - at' x0 ii - at' x0 (dim + ii) * e.2 - quad (fun t => quad (fun s => (okD (dummy_F s)).getD ii 0) e.1 t) e.1 e.2
    else .error .valueError

end
end Chords.Analysis
