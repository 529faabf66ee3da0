import Verif.Model.Bary
import Verif.Model.TimeScale
import Verif.Model.PhLayout
import Verif.Model.Interp

/-! # Interpolation of node based results
chords/pseudospectral.py 878-963, 1097-1126, 1208-1883.

A two-dimensional array is the list of its rows and a row is a function of the column. One-dimensional arrays have one
column. Real numbers replace floats, `precission` has no counterpart (it has in Model/Digits.lean). -/

namespace Chords.PsInterp
open Finset Polynomial Chords.Points Chords.Bary Chords.TimeScale
open Chords.Ph (linspace searchsorted)

/-- What can be raised. -/
inductive PsErr
  | value | notImplemented | name | index | assertion | unbound | zeroDivision | type | key
  deriving DecidableEq

def lift {A : Type} : Except Err A → Except PsErr A
  | .ok a => .ok a
  | .error .valueError => .error .value
  | .error .notImplemented => .error .notImplemented

/-- One row of a two-dimensional array. -/
abbrev Row := ℕ → ℝ

/-- Entry of a two-dimensional array. -/
def rows (l : List Row) : ℕ → ℕ → ℝ := fun i c => l.getD i 0 c

/-- `node_points` or `coll_points`, as chosen in `unit_Lag_pol`, pseudospectral.py 905-909, and `vector_interpolator`,
953-956. -/
noncomputable def kindPoints (N : ℕ) (scheme kind : String) : Except PsErr (List ℝ) :=
  if kind = "q" then lift (nodePoints N scheme)
  else if kind = "u" then lift (collPoints N scheme)
  else .error .assertion

/-- `unit_Lag_pol`, pseudospectral.py 878-914. The index is a natural number. -/
noncomputable def unitLagPol (N : ℕ) (scheme : String) (n : ℕ) (kind : String := "q") : Except PsErr (ℝ → ℝ) := do
  let x ← kindPoints N scheme kind
  if n < N then return baryPoly x.length (arr x) (fun i => if i = n then 1 else 0)
  else .error .index

/-- `vector_interpolator`, pseudospectral.py 917-963. -/
noncomputable def vectorInterpolator (N_from N_to : ℕ) (scheme_from scheme_to : String) (n : ℕ) (kind : String := "q") :
    Except PsErr (List ℝ) :=
  if ¬(kind = "q" ∨ kind = "u") then .error .assertion
  else if N_from = N_to ∧ scheme_from = scheme_to then
    if n < N_from then .ok ((List.range N_from).map fun i => if i = n then 1 else 0) else .error .index
  else do
    let node_points_to ← kindPoints N_to scheme_to kind
    match node_points_to[n]? with
    | none => .error .index
    | some point_to => (List.range N_from).mapM fun ii => do
      let Lag_pol_ii ← unitLagPol N_from scheme_from ii kind
      return Lag_pol_ii point_to

/-- `diff_end_p_fun`, pseudospectral.py 1095-1103 (and `diff_end_p_fun_cas`, pseudospectral.py 1152-1163): the function of the coefficients
that `lambdify` makes of the symbolic expression. -/
noncomputable def diffEndPFun (N : ℕ) (scheme : String := "LG") : Except PsErr (List ℝ → ℝ) := do
  let taus ← lift (nodePoints N scheme)
  return fun coefs => (derivative (lagrangePolynomial taus coefs)).eval 1

/-- `diff_start_p_fun`, pseudospectral.py 1116-1124 (and `diff_start_p_fun_cas`, pseudospectral.py 1191-1202). -/
noncomputable def diffStartPFun (N : ℕ) (scheme : String := "LG_inv") : Except PsErr (List ℝ → ℝ) := do
  let taus ← lift (nodePoints N scheme)
  return fun coefs => (derivative (lagrangePolynomial taus coefs)).eval 0

/-- `(yp[1:] - yp[:-1]) / (xp[1:] - xp[:-1])`, pseudospectral.py 1219 and 1221. -/
noncomputable def slopes (xp : List ℝ) (yp : List Row) : List Row :=
  List.zipWith (fun (d : ℝ) (r : Row) => d⁻¹ • r) (List.zipWith (fun b a => b - a) xp.tail xp.dropLast)
    (List.zipWith (fun b a => b - a) yp.tail yp.dropLast)

/-- `find_der_polyline`, pseudospectral.py 1208-1222, at one number. numpy's broadcasting of arrays of different lengths is
not modelled: they are refused. -/
noncomputable def findDerPolyline (x : ℝ) (xp : List ℝ) (yp : List Row) : Except PsErr Row :=
  let n : ℤ := searchsorted xp x
  let n : ℤ := if n - 1 > 0 then n - 1 else 0
  if xp.length = yp.length then
    match (slopes xp yp)[n.toNat]? with
    | some r => .ok r
    | none => .error .index
  else .error .value

/-- `interp_2d`, piecewise.py 74-98. `numpy.interp` raises `ValueError` when there are not as many values as points. -/
noncomputable def interp2d (ts old : List ℝ) (Y : List Row) : Except PsErr (List Row) :=
  if old.length = Y.length then
    match ts.mapM (Interp.interpAt old Y) with
    | .ok r => .ok r
    | .error _ => .error .value
  else .error .value

/-- `get_pol_u`, pseudospectral.py 1225-1233. -/
noncomputable def getPolU (scheme : String) (uu : List Row) : Except PsErr (ℝ → Row) := do
  let taus ← lift (collPoints uu.length scheme)
  return baryPoly2d taus.length (arr taus) (rows uu)

/-- What `get_pol_x` returns. -/
structure PolX where
  q : ℝ → Row
  v : ℝ → Row
  q_d : ℝ → Row
  v_d : ℝ → Row
  q_d_d : ℝ → Row

/-- `2 / (t1 - t0) * D @ y`, column by column. -/
noncomputable def timeDiff (N : ℕ) (D : ℕ → ℕ → ℝ) (t0 t1 : ℝ) (y : ℕ → ℕ → ℝ) : ℕ → ℕ → ℝ :=
  fun i c => 2 / (t1 - t0) * matVec N D (fun j => y j c) i

/-- `get_pol_x`, pseudospectral.py 1236-1295. `D @ vv` needs as many rows in `vv` as in `qq`. -/
noncomputable def getPolX (scheme : String) (qq vv : List Row) (t0 t1 : ℝ) : Except PsErr PolX := do
  let N := qq.length
  let tau_x ← lift (nodePoints N scheme)
  let D ← lift (matrixDBary N scheme)
  if vv.length = N then
    let qq_d := timeDiff N D t0 t1 (rows qq)
    let vv_d := timeDiff N D t0 t1 (rows vv)
    let qq_d_d := timeDiff N D t0 t1 qq_d
    let poly := baryPoly2d tau_x.length (arr tau_x)
    return { q := poly (rows qq), v := poly (rows vv), q_d := poly qq_d, v_d := poly vv_d, q_d_d := poly qq_d_d }
  else .error .value

/-- `f(qq)` for one of the functions of `get_bary_extreme_f`, on rows. -/
def onRows (f : (ℕ → ℝ) → ℝ) (l : List Row) : Row := fun c => f (fun i => rows l i c)

/-- `extend_x_arrays`, pseudospectral.py 1298-1383. -/
noncomputable def extendXArrays (qq vv : List Row) (scheme : String) : Except PsErr (List ℝ × List Row × List Row) :=
  let N := qq.length
  if scheme ∈ ["LG", "CG"] then do
    let tau_x ← lift (nodePoints N scheme)
    let endp_f ← lift (baryExtreme scheme N "x" "end")
    return (tau_x ++ [1], qq ++ [onRows endp_f qq], vv ++ [onRows endp_f vv])
  else if scheme ∈ ["LG_inv", "CG_inv"] then do
    let tau_x ← lift (nodePoints N scheme)
    let startp_f ← lift (baryExtreme scheme N "x" "start")
    return ([-1] ++ tau_x, qq ++ [onRows startp_f qq], vv ++ [onRows startp_f vv])
  else do
    let tau_x ← lift (nodePoints N scheme)
    return (tau_x, qq, vv)

/-- `extend_u_array`, pseudospectral.py 1386-1442. In `coll_points(N, scheme, order)` (1425) the order is received as
`precission`, so the points are those of the default order; that they have `order` digits only is in Model/Digits.lean. -/
noncomputable def extendUArray (uu : List Row) (scheme : String) (N : ℕ) (order : ℕ := 2) :
    Except PsErr (List ℝ × List Row) := do
  let tau_u ← lift (collPoints N scheme)
  let n_col := uu.length
  let f0 ← lift (baryExtreme scheme n_col "u" "start" order)
  let fe ← lift (baryExtreme scheme n_col "u" "end" order)
  if scheme ∈ ["LG2", "LG", "JG", "LG_inv", "LGLm", "CG", "CG_inv"] then
    return ([-1] ++ tau_u ++ [1], [onRows f0 uu] ++ uu ++ [onRows fe uu])
  else if scheme ∈ ["LGR", "JGR", "CGR"] then return (tau_u ++ [1], uu ++ [onRows fe uu])
  else if scheme ∈ ["LGR_inv", "JGR_inv", "CGR_inv"] then return ([-1] ++ tau_u, [onRows f0 uu] ++ uu)
  else if scheme ∈ ["LGL", "D2", "JGL", "CGL"] then return (tau_u, uu)
  else .error .value

/-- Library code: `CubicHermiteSpline(t, y, y')`, its derivative of order `k`, at an array of times, and
`numpy.gradient(y, t)`. A parameter here; Model/HermiteSpline.lean has their documented formulas. -/
structure Lib where
  hermite : List ℝ → List Row → List Row → ℕ → List ℝ → Except PsErr (List Row)
  gradient : List Row → List ℝ → Except PsErr (List Row)

/-- The times, in tau and in t, pseudospectral.py 1567-1572 and 1723-1729. -/
noncomputable def timesOf (t0 t1 : ℝ) (n_interp : ℕ) (given_t_arr : Option (List ℝ)) : List ℝ × List ℝ :=
  match given_t_arr with
  | none => (linspace (-1) 1 n_interp, linspace t0 t1 n_interp)
  | some l => (l.map fun t => tToTau t t0 t1, l)

/-- What `interpolations_pseudospectral` returns. -/
structure Out where
  q : List Row
  q_d : List Row
  v : List Row
  v_d : List Row
  q_d_d : List Row
  u : List Row

/-- The controls, `interpolations_pseudospectral`, pseudospectral.py 1574-1596. -/
noncomputable def interpU (lib : Lib) (N : ℕ) (uu : List Row) (scheme u_interp : String) (tau_arr : List ℝ) :
    Except PsErr (List Row) :=
  if u_interp = "pol" then do
    let pol_u ← getPolU scheme uu
    return tau_arr.map pol_u
  else if u_interp = "lin" then do
    let (tau_u, uu) ← extendUArray uu scheme N
    interp2d tau_arr tau_u uu
  else if u_interp = "smooth" then do
    let (tau_u, uu) ← extendUArray uu scheme N
    let uu_dot ← lib.gradient uu tau_u
    lib.hermite tau_u uu uu_dot 0 tau_arr
  else .error .name

/-- `interpolations_pseudospectral`, pseudospectral.py 1477-1640. The test of the scheme (1558) makes an exception object
without raising it. -/
noncomputable def interpolationsPs (lib : Lib) (qq vv uu : List Row) (scheme : String) (t0 t1 : ℝ)
    (u_interp x_interp : String) (n_interp : ℕ) (given_t_arr : Option (List ℝ)) : Except PsErr Out := do
  let N := qq.length
  let tau_arr := (timesOf t0 t1 n_interp given_t_arr).1
  let t_arr_lin := (timesOf t0 t1 n_interp given_t_arr).2
  let u_arr ← interpU lib N uu scheme u_interp tau_arr
  if x_interp = "pol" then
    let _ ← lift (nodePoints N scheme)
    let p ← getPolX scheme qq vv t0 t1
    return { q := tau_arr.map p.q, q_d := tau_arr.map p.q_d, v := tau_arr.map p.v, v_d := tau_arr.map p.v_d,
             q_d_d := tau_arr.map p.q_d_d, u := u_arr }
  else if x_interp = "lin" then
    let (tau_x, qq, vv) ← extendXArrays qq vv scheme
    let q_arr ← interp2d tau_arr tau_x qq
    let v_arr ← interp2d tau_arr tau_x vv
    let coll_p := tau_x.map fun τ => t0 + (1 + τ) * (t1 - t0) / 2
    let q_arr_d ← t_arr_lin.mapM fun t => findDerPolyline t coll_p qq
    let v_arr_d ← t_arr_lin.mapM fun t => findDerPolyline t coll_p vv
    return { q := q_arr, q_d := q_arr_d, v := v_arr, v_d := v_arr_d, q_d_d := q_arr.map fun _ => 0, u := u_arr }
  else if x_interp = "Hermite" then
    let (tau_x, qq, vv) ← extendXArrays qq vv scheme
    let D ← lift (matrixDBary vv.length scheme)
    let aa := (List.range vv.length).map (timeDiff vv.length D t0 t1 (rows vv))
    let coll_p := tau_x.map fun τ => t0 + (1 + τ) * (t1 - t0) / 2
    let q_arr ← lib.hermite coll_p qq vv 0 t_arr_lin
    let v_arr ← lib.hermite coll_p vv aa 0 t_arr_lin
    let q_arr_d ← lib.hermite coll_p qq vv 1 t_arr_lin
    let v_arr_d ← lib.hermite coll_p vv aa 1 t_arr_lin
    let q_arr_d_d ← lib.hermite coll_p qq vv 2 t_arr_lin
    return { q := q_arr, q_d := q_arr_d, v := v_arr, v_d := v_arr_d, q_d_d := q_arr_d_d, u := u_arr }
  else .error .name

/-- `(2 / h) ** k * matrix_power(D, k) @ xx`, column by column, pseudospectral.py 1745 and 1760. -/
noncomputable def timeDiffPow (N : ℕ) (D : ℕ → ℕ → ℝ) (t0 t1 : ℝ) (k : ℕ) (y : ℕ → ℕ → ℝ) : ℕ → ℕ → ℝ :=
  fun i c => (2 / (t1 - t0)) ^ k * matVec N (matPow N D k) (fun j => y j c) i

/-- `interpolations_deriv_pseudospectral`, pseudospectral.py 1643-1770. -/
noncomputable def interpolationsDerivPs (lib : Lib) (xx : List Row) (scheme : String) (deriv_order : ℕ) (t0 t1 : ℝ)
    (x_interp : String) (n_interp : ℕ) (given_t_arr : Option (List ℝ)) : Except PsErr (List Row) := do
  let N := xx.length
  let tau_arr := (timesOf t0 t1 n_interp given_t_arr).1
  let t_arr := (timesOf t0 t1 n_interp given_t_arr).2
  let tau_x ← lift (nodePoints N scheme)
  let t_x := tau_x.map fun τ => tauToT τ t0 t1
  if x_interp = "pol" then
    let D ← lift (matrixDBary N scheme)
    return tau_arr.map (baryPoly2d tau_x.length (arr tau_x) (timeDiffPow N D t0 t1 deriv_order (rows xx)))
  else if x_interp = "lin" then
    if deriv_order = 0 then interp2d tau_arr tau_x xx
    else if deriv_order = 1 then tau_arr.mapM fun τ => findDerPolyline τ tau_x xx
    else return tau_arr.map fun _ => 0
  else if x_interp = "Hermite" then
    let D ← lift (matrixDBary N scheme)
    let xx_d := (List.range N).map (timeDiffPow N D t0 t1 deriv_order (rows xx))
    lib.hermite t_x xx xx_d deriv_order t_arr
  else .error .name

/-- What `dynamic_error_pseudospectral` returns. -/
structure DynErr where
  err_q : List Row
  err_v : List Row
  err_2 : List Row

/-- `dynamic_error_pseudospectral`, pseudospectral.py 1773-1883. The call (1863-1875) has one positional argument more than
`interpolations_pseudospectral` expects there: `g_func` is received as `params`, `params` as `n_interp`, and `n_interp` as
`given_t_arr`. A number in place of that array is modelled as an array of one entry; this is right for polynomial
interpolation (linear interpolation of a number raises in numpy, which is not modelled). `g` is `g_func` with its
parameters filled in, on rows (`try_array_f` applies it to the rows if it cannot take arrays). -/
noncomputable def dynamicErrorPs (lib : Lib) (qq vv uu : List Row) (scheme : String) (t0 t1 : ℝ)
    (u_interp x_interp : String) (g : Row → Row → Row → Row) (n_interp : ℕ) (params : ℕ := 0) : Except PsErr DynErr := do
  let o ← interpolationsPs lib qq vv uu scheme t0 t1 u_interp x_interp params (some [(n_interp : ℝ)])
  let g3 := fun (a b c : List Row) => List.zipWith (fun f u => f u) (List.zipWith g a b) c
  let sub := List.zipWith fun (a b : Row) => a - b
  return { err_q := sub o.q_d o.v, err_v := sub o.v_d (g3 o.q o.v o.u), err_2 := sub o.q_d_d (g3 o.q o.q_d o.u) }

end Chords.PsInterp
