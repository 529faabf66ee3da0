import Verif.Model.PsInterp
import Verif.Model.BuTd

/-! # Interpolation and dynamic error of bottom-up and top-down results
chords/bu_pseudospectral.py 394-951, chords/td_pseudospectral.py 127-664, chords/piecewise.py 1305-1334.

Arrays are two-dimensional: a width and a list of rows. Real numbers replace floats. -/

namespace Chords.BuTdInterp
open Finset Chords.Points Chords.Bary Chords.Gauss Chords.TimeScale Chords.PsInterp
open Chords.BuTd (matrixDNu)
open Chords.Spec (pySlice)

/-- A two-dimensional array. -/
structure Arr2 where
  width : ℕ
  rows : List Row

/-- `if scheme[:3] == prefix: scheme = scheme[3:]`, bu_pseudospectral.py 397-398 and td_pseudospectral.py 136-137 (and at
the start of the other functions). -/
def strip (pre scheme : String) : String :=
  if scheme.toList.take 3 = pre.toList then String.ofList (scheme.toList.drop 3) else scheme

/-- `a[:, -n_q:]`. -/
def lastCols (a : Arr2) (n_q : ℕ) : List Row :=
  a.rows.map fun r c => r ((if n_q = 0 then 0 else a.width - n_q) + c)

/-- `bary_poly_2d(tau_to_t_points(taus, t0, tf), y)`. -/
noncomputable def polyAt (taus : List ℝ) (t0 tf : ℝ) (y : ℕ → ℕ → ℝ) : ℝ → Row :=
  let t := taus.map fun τ => tauToT τ t0 tf
  baryPoly2d t.length (arr t) y

/-- The loop of `Polynomial_interpolations_BU`, bu_pseudospectral.py 415-423: the function made in round `ii` from the one
before, `top` for the start. -/
noncomputable def buLevel (top : VFun) (n_col problem_order n_q : ℕ) (t0 tf : ℝ) (x_0 : Row) : ℕ → Except Err VFun
  | 0 => .ok top
  | ii + 1 => do
    let prev ← buLevel top n_col problem_order n_q t0 tf x_0 ii
    polyIntegral2d prev (n_col - 1 + ii) t0 tf ⟨some n_q, fun c => x_0 (n_q * (problem_order - ii - 1) + c)⟩

/-- `Polynomial_interpolations_BU`, bu_pseudospectral.py 394-427, without the controls: the list of functions for `q` and
its derivatives. `n_x` is `len(x_0)`. -/
noncomputable def polysBu (xx_dot : Arr2) (x_0 : Row) (n_x : ℕ) (scheme : String) (problem_order : ℕ) (t0 tf : ℝ)
    (scheme_order : ℕ := 2) : Except PsErr (List (ℝ → Row)) :=
  if problem_order = 0 then .error .zeroDivision
  else do
    let n_q := n_x / problem_order
    let highest_der := lastCols xx_dot n_q
    let coll_index ← lift (collIndices scheme)
    let highest_der_col := pySlice coll_index.1 coll_index.2 highest_der
    let n_col := highest_der_col.length
    let coll_points ← lift (buCollPoints n_col scheme scheme_order)
    let top := VFun.mk (some n_q) (polyAt coll_points t0 tf (rows highest_der_col))
    let polys ← lift ((List.range (problem_order + 1)).mapM (buLevel top n_col problem_order n_q t0 tf x_0))
    return (polys.map VFun.val).reverse

/-- `u_poly`, bu_pseudospectral.py 426 and td_pseudospectral.py 154. -/
noncomputable def polyU (uu : List Row) (n_col : ℕ) (scheme : String) (t0 tf : ℝ) (scheme_order : ℕ := 2) :
    Except PsErr (ℝ → Row) := do
  let coll_points ← lift (buCollPoints n_col scheme scheme_order)
  return polyAt coll_points t0 tf (rows uu)

/-- The controls, bu_pseudospectral.py 539-563 and td_pseudospectral.py 279-302. `u_pol` is the polynomial in time. In the
branch "smooth" the name `hermite` has a value only if `x_interp` is "Hermite" (519-520 and 258-259). -/
noncomputable def controls (lib : Lib) (u_pol : ℝ → Row) (uu : List Row) (n_col : ℕ) (scheme : String) (scheme_order : ℕ)
    (t0 tf : ℝ) (u_interp x_interp : String) (t_arr : List ℝ) : Except PsErr (List Row) :=
  if u_interp = "pol" then .ok (t_arr.map u_pol)
  else if u_interp = "lin" then do
    let (tau_u, uu) ← extendUArray uu scheme n_col scheme_order
    interp2d t_arr (tau_u.map fun τ => tauToT τ t0 tf) uu
  else if u_interp = "smooth" then do
    let (tau_u, uu) ← extendUArray uu scheme n_col scheme_order
    let t_u := tau_u.map fun τ => tauToT τ t0 tf
    let uu_dot ← lib.gradient uu t_u
    if x_interp = "Hermite" then lib.hermite t_u uu uu_dot 0 t_arr else .error .unbound
  else .error .name

/-- `concatenate` of the values of functions with `n_q` columns each, at one instant. -/
def conc (polys : List (ℝ → Row)) (n_q : ℕ) (t : ℝ) : Row := fun c => polys.getD (c / n_q) (fun _ _ => 0) t (c % n_q)

/-- What the interpolations return. -/
structure Out where
  x : Arr2
  x_dot : Arr2
  u : List Row

/-- The states, bu_pseudospectral.py 564-584 and td_pseudospectral.py 303-323. -/
noncomputable def states (lib : Lib) (polys : List (ℝ → Row)) (n_q order : ℕ) (xx xx_dot : Arr2) (t_x : List ℝ)
    (x_interp : String) (t_arr : List ℝ) (u_arr : List Row) : Except PsErr Out :=
  if x_interp = "pol" then
    .ok { x := ⟨n_q * order, t_arr.map fun t c => conc polys n_q t c⟩,
          x_dot := ⟨n_q * order, t_arr.map fun t c => conc polys n_q t (n_q + c)⟩, u := u_arr }
  else if x_interp = "lin" then do
    let x_arr ← interp2d t_arr t_x xx.rows
    let x_dot_arr ← interp2d t_arr t_x xx_dot.rows
    return { x := ⟨xx.width, x_arr⟩, x_dot := ⟨xx_dot.width, x_dot_arr⟩, u := u_arr }
  else if x_interp = "Hermite" then do
    let x_arr ← lib.hermite t_x xx.rows xx_dot.rows 0 t_arr
    let x_dot_arr ← lib.hermite t_x xx.rows xx_dot.rows 1 t_arr
    return { x := ⟨xx.width, x_arr⟩, x_dot := ⟨xx.width, x_dot_arr⟩, u := u_arr }
  else .error .name

/-- `interpolations_BU_pseudospectral`, bu_pseudospectral.py 430-585. The test of the scheme (522) makes an exception object
without raising it. `Polynomial_interpolations_BU` is called (534) without the order of the scheme. -/
noncomputable def interpolationsBu (lib : Lib) (xx xx_dot : Arr2) (uu : List Row) (scheme : String) (interp_order : ℕ)
    (t0 tf : ℝ) (scheme_order : ℕ) (u_interp x_interp : String) (n_interp : ℕ) (given_t_arr : Option (List ℝ)) :
    Except PsErr Out :=
  let scheme := strip "BU_" scheme
  match xx.rows[0]? with
  | none => .error .index
  | some x_0 =>
    if interp_order = 0 then .error .zeroDivision
    else do
      let n_q := xx.width / interp_order
      let coll_index ← lift (collIndices scheme)
      let n_col := (pySlice coll_index.1 coll_index.2 (lastCols xx_dot n_q)).length
      let t_arr := (timesOf t0 tf n_interp given_t_arr).2
      let constr ← lift (buConstructionPoints n_col scheme scheme_order)
      let t_x := ([-1] ++ constr).map fun τ => tauToT τ t0 tf
      if x_interp = "pol" ∨ u_interp = "pol" then
        let polys ← polysBu xx_dot x_0 xx.width scheme interp_order t0 tf
        let u_pol ← polyU uu n_col scheme t0 tf
        let u_arr ← controls lib u_pol uu n_col scheme scheme_order t0 tf u_interp x_interp t_arr
        states lib polys n_q interp_order xx xx_dot t_x x_interp t_arr u_arr
      else
        let u_arr ← controls lib (fun _ _ => 0) uu n_col scheme scheme_order t0 tf u_interp x_interp t_arr
        states lib [] n_q interp_order xx xx_dot t_x x_interp t_arr u_arr

/-- `_v_sum`, bu_pseudospectral.py 588-609. -/
noncomputable def vProd (n : ℕ) (t : ℕ → ℝ) (i : ℕ) : ℝ := 1 / ∏ j ∈ (range n).erase i, (t i - t j)

/-- The derivatives above the highest one in `xx_dot`, bu_pseudospectral.py 743-746: `D @ ... @ highest_der` with the matrix
of `_matrix_D_bary`, bu_pseudospectral.py 611-636. -/
noncomputable def higher (t_x : List ℝ) (highest_der : List Row) (k : ℕ) : ℝ → Row :=
  let D := dMat t_x.length (arr t_x) (vProd t_x.length (arr t_x))
  baryPoly2d t_x.length (arr t_x) fun i c => (matVec t_x.length D)^[k] (fun j => rows highest_der j c) i

/-- Derivatives of a polyline, bu_pseudospectral.py 755-761 and td_pseudospectral.py 461-467. `z` are the zeros of higher orders. `isList` tells whether the times `t_x` are a
list, as for top-down schemes (`tau_to_t_points` of a list, td_pseudospectral.py 420-422), and not an array: the difference of lists in `find_der_polyline`
(pseudospectral.py 1219-1221) is a `TypeError`. -/
noncomputable def linDeriv (isList : Bool) (t_arr t_x : List ℝ) (xx : Arr2) (deriv_order : ℕ) (z : Arr2) : Except PsErr Arr2 :=
  if deriv_order = 0 then do
    let r ← interp2d t_arr t_x xx.rows
    return ⟨xx.width, r⟩
  else if deriv_order = 1 then if isList then .error .type else do
    let r ← t_arr.mapM fun t => findDerPolyline t t_x xx.rows
    return ⟨xx.width, r⟩
  else .ok z

/-- `interpolations_deriv_BU_pseudospectral`, bu_pseudospectral.py 641-772. `D @ highest_der` needs as many rows as there
are times. -/
noncomputable def interpolationsDerivBu (lib : Lib) (xx xx_dot : Arr2) (scheme : String) (problem_order deriv_order : ℕ)
    (t0 tf : ℝ) (scheme_order : ℕ) (x_interp : String) (n_interp : ℕ) (given_t_arr : Option (List ℝ)) :
    Except PsErr Arr2 :=
  let scheme := strip "BU_" scheme
  match xx.rows[0]? with
  | none => .error .index
  | some x_0 =>
    if problem_order = 0 then .error .zeroDivision
    else do
      let n_q := xx.width / problem_order
      let highest_der := lastCols xx_dot n_q
      let coll_index ← lift (collIndices scheme)
      let n_col := (pySlice coll_index.1 coll_index.2 highest_der).length
      let t_arr := (timesOf t0 tf n_interp given_t_arr).2
      let constr ← lift (buConstructionPoints n_col scheme scheme_order)
      let t_x := ([-1] ++ constr).map fun τ => tauToT τ t0 tf
      if x_interp = "pol" then
        let polys ← polysBu xx_dot x_0 xx.width scheme problem_order t0 tf
        if 2 ≤ deriv_order ∧ highest_der.length ≠ t_x.length then .error .value
        else
          let all := polys ++ (List.range (deriv_order - 1)).map fun jj => higher t_x highest_der (jj + 1)
          return ⟨n_q * problem_order, t_arr.map (conc (all.drop deriv_order) n_q)⟩
      else if x_interp = "lin" then linDeriv false t_arr t_x xx deriv_order ⟨xx.width, t_arr.map fun _ _ => 0⟩
      else if x_interp = "Hermite" then
        let r ← lib.hermite t_x xx.rows xx_dot.rows deriv_order t_arr
        return ⟨xx.width, r⟩
      else .error .name

/-- `get_x_divisions` of a two-dimensional array, piecewise.py 1305-1334. -/
def getXDivisions (x : Arr2) (order : ℕ) : List Arr2 :=
  let dim := x.width / order
  (List.range order).map fun ii => ⟨dim, x.rows.map fun r c => r (dim * ii + c)⟩

/-- numpy broadcasting of one axis: the length of the result. -/
def bLen (a b : ℕ) : Option ℕ := if a = b then some a else if a = 1 then some b else if b = 1 then some a else none

/-- numpy broadcasting of one axis: the index read. -/
def bIdx (a i : ℕ) : ℕ := if a = 1 then 0 else i

/-- `a - b` of two-dimensional arrays. -/
def bSub (a b : Arr2) : Except PsErr Arr2 :=
  match bLen a.width b.width, bLen a.rows.length b.rows.length with
  | some w, some n => .ok ⟨w, (List.range n).map fun i c =>
      rows a.rows (bIdx a.rows.length i) (bIdx a.width c) - rows b.rows (bIdx b.rows.length i) (bIdx b.width c)⟩
  | _, _ => .error .value

/-- `x[:, a:b] = blk`. -/
def setCols (x : Arr2) (a b : ℕ) (blk : Arr2) : Except PsErr Arr2 :=
  let w := min x.width b - min x.width a
  if (blk.width = w ∨ blk.width = 1) ∧ (blk.rows.length = x.rows.length ∨ blk.rows.length = 1) then
    .ok ⟨x.width, (List.range x.rows.length).map fun i c =>
      if a ≤ c ∧ c < b then rows blk.rows (bIdx blk.rows.length i) (bIdx blk.width (c - a)) else rows x.rows i c⟩
  else .error .value

/-- `l[i]`. -/
def getE {A : Type} (l : List A) (i : ℕ) : Except PsErr A :=
  match l[i]? with
  | some a => .ok a
  | none => .error .index

/-- The loop that fills `q_and_d_interp`, bu_pseudospectral.py 921-923 and td_pseudospectral.py 634-636, after `k` rounds. -/
def fillQ (n_q : ℕ) (x_and_derivs : List (List Arr2)) (x : Arr2) : ℕ → Except PsErr Arr2
  | 0 => .ok x
  | jj + 1 => do
    let y ← fillQ n_q x_and_derivs x jj
    let l ← getE x_and_derivs jj
    let b ← getE l 0
    setCols y (n_q * jj) (n_q * (jj + 1)) b

/-- `x_in_f`, bu_pseudospectral.py 925-932 and td_pseudospectral.py 638-645. With mode "x" it is the string `x_interp`, and `F`
of a letter raises (as soon as there is an instant). -/
def pickX (mode : String) (n_interp : ℕ) (q_and_d_interp : Arr2) : Except PsErr Arr2 :=
  if mode = "q" then .ok q_and_d_interp
  else if mode = "x" then if n_interp = 0 then .ok ⟨0, []⟩ else .error .type
  else .error .value

/-- The lists of errors, bu_pseudospectral.py 943-951, td_pseudospectral.py 656-664 and analysis.py 247-255. -/
def errTable (problem_order : ℕ) (x_divs : List Arr2) (ders : List (List Arr2)) (f_interp : Arr2) :
    Except PsErr (List (List Arr2)) :=
  let first := x_divs ++ [f_interp]
  (List.range problem_order).mapM fun jj =>
    (List.range (problem_order - jj)).mapM fun ii => do
      let l ← getE ders jj
      let a ← getE l ii
      let b ← getE first (ii + jj + 1)
      bSub a b

/-- The end of `dynamic_error_BU`, bu_pseudospectral.py 921-951, and `dynamic_error_TD`, td_pseudospectral.py 634-664. `F` has
its parameters filled in and returns as many numbers as `x` has. `ders` are the divisions of the derivatives. -/
def dynErrs (F : Row → Row → Row) (n_x n_q problem_order : ℕ) (mode : String) (n_interp : ℕ) (x_interp_arr : Arr2)
    (x_divs : List Arr2) (ders : List (List Arr2)) (u_interp_arr : List Row) : Except PsErr (List (List Arr2)) := do
  let q_and_d_interp ← fillQ n_q (x_divs :: ders) x_interp_arr problem_order
  let x_in_f ← pickX mode n_interp q_and_d_interp
  errTable problem_order x_divs ders ⟨n_q, (List.range n_interp).map fun ii c =>
    F (fun c => rows x_in_f.rows ii c) (fun c => rows u_interp_arr ii c) (n_x - n_q + c)⟩

/-- `dynamic_error_BU`, bu_pseudospectral.py 775-951. The derivatives are divided (918) with the order of the scheme instead
of the order of the problem. -/
noncomputable def dynamicErrorBu (lib : Lib) (x_arr x_dot_arr : Arr2) (u_arr : List Row) (scheme : String) (tf : ℝ)
    (F : Row → Row → Row) (t0 : ℝ) (problem_order scheme_order : ℕ) (u_interp x_interp : String) (n_interp : ℕ)
    (interp_order : Option ℕ) (mode : String) : Except PsErr (List (List Arr2)) :=
  let scheme := strip "BU_" scheme
  if x_arr.rows = [] then .error .index
  else if problem_order = 0 then .error .zeroDivision
  else do
    let n_q := x_arr.width / problem_order
    let interp_order := interp_order.getD problem_order
    let o ← interpolationsBu lib x_arr x_dot_arr u_arr scheme interp_order t0 tf scheme_order u_interp x_interp n_interp none
    let ders ← (List.range problem_order).mapM fun jj => do
      let d ← interpolationsDerivBu lib x_arr x_dot_arr scheme interp_order (jj + 1) t0 tf scheme_order x_interp n_interp none
      return getXDivisions d scheme_order
    dynErrs F x_arr.width n_q problem_order mode n_interp o.x (getXDivisions o.x problem_order) ders o.u

/-- The function for derivative `ii` of `q`, td_pseudospectral.py 148-149 and 451-452. -/
noncomputable def tdPoly (N : ℕ) (nu : List ℝ) (D : ℕ → ℕ → ℝ) (t0 tf : ℝ) (q_constr : List Row) (ii : ℕ) : ℝ → Row :=
  polyAt nu t0 tf (timeDiffPow N D t0 tf ii (rows q_constr))

/-- `Polynomial_interpolations_TD`, td_pseudospectral.py 127-155, without the controls. -/
noncomputable def polysTd (q_constr : List Row) (t0 tf : ℝ) (n_coll : ℕ) (scheme : String) (scheme_order : ℕ) :
    Except PsErr (List (ℝ → Row)) := do
  let N := q_constr.length
  let _ ← lift (buCollPoints n_coll scheme scheme_order)
  let nu ← lift (collPoints N "LGL")
  let D_nu ← lift (matrixDNu N)
  return (List.range (N + 1 - n_coll)).map (tdPoly N nu D_nu t0 tf q_constr)

/-- `interpolations_TD_pseudospectral`, td_pseudospectral.py 158-324. -/
noncomputable def interpolationsTd (lib : Lib) (q_constr xx xx_dot : Arr2) (uu : List Row) (scheme : String)
    (t0 tf : ℝ) (scheme_order : ℕ) (u_interp x_interp : String) (n_interp : ℕ) (given_t_arr : Option (List ℝ)) :
    Except PsErr Out :=
  let scheme := strip "TD_" scheme
  let n_coll := uu.length
  let N := q_constr.rows.length
  let n_q := q_constr.width
  if n_q = 0 then .error .zeroDivision
  else
    let problem_order := xx.width / n_q
    if N ≠ problem_order + n_coll then .error .assertion
    else do
      let constr ← lift (tdConstructionPoints n_coll scheme scheme_order)
      let t_x := constr.map fun τ => tauToT τ t0 tf
      let t_arr := (timesOf t0 tf n_interp given_t_arr).2
      if x_interp = "pol" ∨ u_interp = "pol" then
        let polys ← polysTd q_constr.rows t0 tf n_coll scheme scheme_order
        let u_pol ← polyU uu n_coll scheme t0 tf scheme_order
        let u_arr ← controls lib u_pol uu n_coll scheme scheme_order t0 tf u_interp x_interp t_arr
        states lib polys n_q problem_order xx xx_dot t_x x_interp t_arr u_arr
      else
        let u_arr ← controls lib (fun _ _ => 0) uu n_coll scheme scheme_order t0 tf u_interp x_interp t_arr
        states lib [] n_q problem_order xx xx_dot t_x x_interp t_arr u_arr

/-- `interpolations_deriv_TD_pseudospectral`, td_pseudospectral.py 327-478. -/
noncomputable def interpolationsDerivTd (lib : Lib) (q_constr xx xx_dot : Arr2) (scheme : String) (deriv_order : ℕ)
    (t0 tf : ℝ) (n_coll scheme_order : ℕ) (x_interp : String) (n_interp : ℕ) (given_t_arr : Option (List ℝ)) :
    Except PsErr Arr2 :=
  let scheme := strip "TD_" scheme
  let N := q_constr.rows.length
  let n_q := q_constr.width
  if n_q = 0 then .error .zeroDivision
  else
    let problem_order := xx.width / n_q
    if N ≠ problem_order + n_coll then .error .assertion
    else do
      let constr ← lift (tdConstructionPoints n_coll scheme scheme_order)
      let t_x := constr.map fun τ => tauToT τ t0 tf
      let nu ← lift (collPoints N "LGL")
      let t_arr := (timesOf t0 tf n_interp given_t_arr).2
      if x_interp = "pol" then
        let polys ← polysTd q_constr.rows t0 tf n_coll scheme scheme_order
        let D_nu ← lift (matrixDNu N)
        let all := polys ++ (List.range (deriv_order - 1)).map fun jj =>
          tdPoly N nu D_nu t0 tf q_constr.rows (jj + problem_order + 1)
        if problem_order = 0 then .error .value
        else return ⟨n_q * problem_order, t_arr.map (conc (all.drop deriv_order) n_q)⟩
      else if x_interp = "lin" then linDeriv true t_arr t_x xx deriv_order ⟨xx.width, xx.rows.map fun _ _ => 0⟩
      else if x_interp = "Hermite" then
        let r ← lib.hermite t_x xx.rows xx_dot.rows deriv_order t_arr
        return ⟨xx.width, r⟩
      else .error .name

/-- `dynamic_error_TD`, td_pseudospectral.py 481-664. -/
noncomputable def dynamicErrorTd (lib : Lib) (q_constr xx xx_dot : Arr2) (uu : List Row) (scheme : String) (tf : ℝ)
    (F : Row → Row → Row) (problem_order : ℕ) (t0 : ℝ) (scheme_order : ℕ) (u_interp x_interp : String) (n_interp : ℕ)
    (mode : String) : Except PsErr (List (List Arr2)) :=
  let scheme := strip "TD_" scheme
  if problem_order = 0 then .error .zeroDivision
  else do
    let n_q := xx.width / problem_order
    let n_coll := uu.length
    let o ← interpolationsTd lib q_constr xx xx_dot uu scheme t0 tf scheme_order u_interp x_interp n_interp none
    let ders ← (List.range problem_order).mapM fun jj => do
      let d ← interpolationsDerivTd lib q_constr xx xx_dot scheme (jj + 1) t0 tf n_coll scheme_order x_interp n_interp none
      return getXDivisions d problem_order
    dynErrs F xx.width n_q problem_order mode n_interp o.x (getXDivisions o.x problem_order) ders o.u

end Chords.BuTdInterp
