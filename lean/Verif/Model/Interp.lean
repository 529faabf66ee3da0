import Verif.Model.Schemes
import Verif.Spec.PyStr
import Mathlib.Algebra.Order.Floor.Ring
import Mathlib.Algebra.Module.Pi
import Mathlib.Data.Real.Archimedean

/-! # Interpolation of a trajectory known at equispaced times
chords/piecewise.py 74-117, 1563-1643, 1668-2114, 2326-2496.

Simplifications.
* Floats are reals; `t // h` is the floor of `t / h` and `t % h` is `t - h * floor(t / h)`, as they are for `h > 0`.
* A state is an array of `d` entries, `Arr d`. `flat` tells that the user gave the series of states as a one-dimensional
  array, so that a state is a number; `d` is one then, and the series of derivatives is two-dimensional.
* A control is an element of a real vector space `W`: a number or an array.
* `params` is folded into `F`.
* `scipy.interpolate.CubicHermiteSpline` (scheme `hs_scipy`), `scipy.optimize.minimize` and the pseudoinverse dynamics are
  parameters. The pseudoinverse dynamics get the whole state and its derivative instead of their halves.
* The entries `X`, `X_dot`, `F`, `scheme`, `params` of `scheme_params` are written by every call that reads them, so they
  are passed as arguments instead. -/

namespace Chords.Interp

open Chords.Spec

inductive PErr
  | valueError | indexError | keyError | typeError | nameError | unbound
  deriving DecidableEq

/-- A state. -/
abbrev Arr (d : ℕ) := Fin d → ℝ

/-- `l[i]` with a Python index. -/
def pyGet {A : Type} (l : List A) (i : ℤ) : Except PErr A :=
  match (if 0 ≤ i then l[i.toNat]? else if 0 ≤ i + l.length then l[(i + l.length).toNat]? else none) with
  | some a => .ok a
  | none => .error .indexError

/-- `d[key]` of a dictionary. -/
def key {A : Type} : Option A → Except PErr A
  | some a => .ok a
  | none => .error .keyError

/-- The dictionary `scheme_params`. `u_c` may be present with the value `None`. -/
structure Params (d : ℕ) (W : Type) where
  order : Option ℕ := none
  u_c : Option (Option (List W)) := none
  x_c : Option (List (Arr d)) := none
  x_dot_c : Option (List (Arr d)) := none
  pinv_f : Option (Arr d → Arr d → W) := none

/-- The dictionary `{}`. -/
def Params.empty {d : ℕ} {W : Type} : Params d W := {}

/-- Entry number `j` of an array; only used with `j < d`. -/
def at' {d : ℕ} (x : Arr d) (j : ℕ) : ℝ := if h : j < d then x ⟨j, h⟩ else 0

/-- `tz_interp` of `generate_tz_interp(M, deriv)`, piecewise.py 1563-1587, entry by entry: entry `i` of the result belongs
to division `i / dim`, and only uses the entries at the same place of the divisions of the arguments. Entries after the
last division are those of `copy(x)`. For numbers instead of arrays (`flat`) the divisions are new arrays
(`get_x_divisions`, 1305-1317), which are filled, and `x_interp`, which is returned, stays a copy of `x`. -/
noncomputable def tzArr {d : ℕ} (flat : Bool) (M deriv : ℕ) (x x_dot x_dot_n : Arr d) (τ h : ℝ) :
    Except PErr (Arr d) :=
  if M = 0 then .error .indexError
  else if flat then if M = 1 then .ok x else .error .unbound
  else
    let dim := d / M
    .ok fun i =>
      let p := i.val / dim
      let j := i.val % dim
      if 0 < dim ∧ p < M then
        tzInterp M deriv (fun q => at' x (dim * q + j)) (at' x_dot (dim * (M - 1) + j)) (at' x_dot_n (dim * (M - 1) + j)) τ h p
      else x i

/-- `hs_interp` of `generate_hs_interp(M, deriv)`, piecewise.py 1590-1620, likewise; here the last lines return the filled
array when `x` is a number. -/
noncomputable def hsArr {d : ℕ} (flat : Bool) (M deriv : ℕ) (x x_dot x_dot_n : Arr d) (τ h : ℝ) (x_dot_c : Arr d) :
    Except PErr (Arr d) :=
  if M = 0 then .error .indexError
  else if flat ∧ M ≠ 1 then .error .unbound
  else
    let dim := d / M
    .ok fun i =>
      let p := i.val / dim
      let j := i.val % dim
      if 0 < dim ∧ p < M then
        hsInterp M deriv (fun q => at' x (dim * q + j)) (at' x_dot (dim * (M - 1) + j)) (at' x_dot_n (dim * (M - 1) + j)) τ h
          (at' x_dot_c (dim * (M - 1) + j)) p
      else x i

/-- The pair of entries `j` and `d / 2 + j`, as a second order state: `_gen_basic_values`, piecewise.py 1444-1451, at a coordinate. -/
noncomputable def pairAt {d : ℕ} (x : Arr d) (j : ℕ) : ℝ × ℝ := (at' x j, at' x (d / 2 + j))

/-- Elementwise formula of second order: entry `j` of the first half and entry `j` of the second half of the result are the
two components of the formula at place `j`. -/
noncomputable def byPairs {d : ℕ} (f : ℕ → ℝ × ℝ) : Arr d := fun i =>
  if i.val < d / 2 then (f i.val).1 else (f (i.val - d / 2)).2

/-- `hsj_interp` (`deriv = none`), `hsj_dot_interp` and `hsj_dot_dot_interp` (orders 1 and 2), piecewise.py 1623-1643,
2199-2218, 2307-2323; other orders of the derivative leave `x_interp` undefined (2369-2376). Meant for an even `d`. -/
noncomputable def hsjArr {d : ℕ} (flat : Bool) (deriv : Option ℕ) (x x_n x_dot x_dot_n : Arr d) (τ h : ℝ) (x_dot_c : Arr d) :
    Except PErr (Arr d) :=
  if flat then if deriv = none ∨ deriv = some 1 ∨ deriv = some 2 then .error .indexError else .error .unbound
  else if deriv = none then .ok (byPairs fun j =>
    hsjInterp (pairAt x j) (pairAt x_n j) (pairAt x_dot j) (pairAt x_dot_n j) τ h (pairAt x_dot_c j))
  else if deriv = some 1 then .ok (byPairs fun j =>
    hsjDotInterp (pairAt x j) (pairAt x_n j) (pairAt x_dot j) (pairAt x_dot_n j) τ h (pairAt x_dot_c j))
  else if deriv = some 2 then .ok (byPairs fun j =>
    hsjDotDotInterp (pairAt x j) (pairAt x_n j) (pairAt x_dot j) (pairAt x_dot_n j) τ h (pairAt x_dot_c j))
  else .error .unbound

section
variable {d : ℕ} {W : Type}

/-- The branches on the scheme of `_newpoint` (piecewise.py 1761-1793, `deriv = none`) and of `_newpoint_der` (2344-2378). -/
noncomputable def piece (flat : Bool) (scheme : String) (deriv : Option ℕ) (sp : Params d W) (n : ℤ)
    (x x_n x_dot x_dot_n : Arr d) (τ h : ℝ) : Except PErr (Arr d) :=
  if scheme = "trapz_mod" then tzArr flat 2 (deriv.getD 0) x x_dot x_dot_n τ h
  else if scheme = "trapz" then tzArr flat 1 (deriv.getD 0) x x_dot x_dot_n τ h
  else if scheme = "trapz_n" then do
    let order ← key sp.order
    tzArr flat order (deriv.getD 0) x x_dot x_dot_n τ h
  else if scheme = "hs" ∨ scheme = "hs_parab" then do
    let X_dot_c ← key sp.x_dot_c
    let x_dot_c ← pyGet X_dot_c n
    hsArr flat 1 (deriv.getD 0) x x_dot x_dot_n τ h x_dot_c
  else if scheme = "hs_mod" ∨ scheme = "hs_mod_parab" then do
    let X_dot_c ← key sp.x_dot_c
    let x_dot_c ← pyGet X_dot_c n
    hsArr flat 2 (deriv.getD 0) x x_dot x_dot_n τ h x_dot_c
  else if scheme = "hsn" ∨ scheme = "hsn_parab" then do
    let order ← key sp.order
    let X_dot_c ← key sp.x_dot_c
    let x_dot_c ← pyGet X_dot_c n
    hsArr flat order (deriv.getD 0) x x_dot x_dot_n τ h x_dot_c
  else if scheme = "hsj" ∨ scheme = "hsj_parab" then do
    let X_dot_c ← key sp.x_dot_c
    let x_dot_c ← pyGet X_dot_c n
    hsjArr flat deriv x x_n x_dot x_dot_n τ h x_dot_c
  else .error .nameError

/-- `_newpoint`, piecewise.py 1747-1795. -/
noncomputable def newpoint (flat : Bool) (X X_dot : List (Arr d)) (h t : ℝ) (scheme : String) (sp : Params d W) :
    Except PErr (Arr d) :=
  let n := ⌊t / h⌋
  let τ := t - h * n
  if n + 1 > X.length then .error .valueError
  else if |τ| < h * 1e-8 then pyGet X n
  else if |τ - h| < h * 1e-8 then pyGet X (n + 1)
  else do
    let x ← pyGet X n
    let x_n ← pyGet X (n + 1)
    let x_dot ← pyGet X_dot n
    let x_dot_n ← pyGet X_dot (n + 1)
    piece flat scheme none sp n x x_n x_dot x_dot_n τ h

/-- `_newpoint_der`, piecewise.py 2326-2379. -/
noncomputable def newpointDer (flat : Bool) (X X_dot : List (Arr d)) (h t : ℝ) (scheme : String) (order : ℕ)
    (sp : Params d W) : Except PErr (Arr d) :=
  let last := |t - h * ((X.length : ℝ) - 1)| < h * 1e-8
  let n : ℤ := if last then (X.length : ℤ) - 2 else ⌊t / h⌋
  let τ := if last then h else t - h * n
  if n + 1 ≥ X.length then .error .valueError
  else do
    let x ← pyGet X n
    let x_n ← pyGet X (n + 1)
    let x_dot ← pyGet X_dot n
    let x_dot_n ← pyGet X_dot (n + 1)
    piece flat scheme (some order) sp n x x_n x_dot x_dot_n τ h

/-- `linspace(0, (N - 1) * h, N)` -/
noncomputable def times (h : ℝ) (N : ℕ) : List ℝ := (List.range N).map fun (k : ℕ) => (k : ℝ) * h

/-- piecewise.py 1805-1806 with `extend_array`, 101-117: the last control is repeated when there is one control less than states. -/
def extendU (X : List (Arr d)) (U : List W) : Except PErr (List W) :=
  if X.length = U.length + 1 then
    match U.getLast? with
    | some u => .ok (U ++ [u])
    | none => .error .indexError
  else .ok U

/-- `_prepare_interp`, piecewise.py 1798-1815: the extended `U`, and the times. -/
noncomputable def prepare (X : List (Arr d)) (U : List W) (h : ℝ) (t_array : List ℝ) : Except PErr (List W × List ℝ) := do
  let U ← extendU X U
  if X.length = U.length then
    match t_array.getLast?, (times h X.length).getLast? with
    | some t, some t' => if t - t' > h * 1e-9 then .error .valueError else .ok (U, times h X.length)
    | _, _ => .error .indexError
  else .error .valueError

section U
variable [AddCommGroup W] [Module ℝ W]

/-- `numpy.interp(x, xp, fp)` for increasing `xp`, given as points `(xp, fp)`, the first of them apart. -/
noncomputable def npInterp : ℝ × W → List (ℝ × W) → ℝ → W
  | p, [], _ => p.2
  | p, q :: rest, x =>
    if x < p.1 then p.2
    else if x < q.1 then p.2 + ((x - p.1) / (q.1 - p.1)) • (q.2 - p.2)
    else npInterp q rest x

/-- `numpy.interp` of one time, and `interp_2d`, piecewise.py 74-98. numpy refuses empty data. -/
noncomputable def interpAt (ts : List ℝ) (U : List W) (t : ℝ) : Except PErr W :=
  match ts.zip U with
  | p :: rest => .ok (npInterp p rest t)
  | [] => .error .valueError

/-- The parameters that stand for library and user code. -/
structure Lib (d : ℕ) (W : Type) where
  /-- `CubicHermiteSpline(t, X, X_dot)`, its derivative of order `k` at time `t`. -/
  spline : List ℝ → List (Arr d) → List (Arr d) → ℕ → ℝ → Arr d
  /-- `minimize(fun, u_0).x` -/
  minimize : (W → ℝ) → W → W

/-- `_u_min_err_opti_step`, piecewise.py 1668-1685. -/
noncomputable def minErr (F : Arr d → W → Arr d) (x x_dot : Arr d) (u : W) : ℝ :=
  ((List.finRange d).map fun i => if d / 2 ≤ i.val then |F x u i - x_dot i| else 0).sum

/-- `_newpoint_u`, piecewise.py 1688-1744. `F` is `None` or a function; a missing one cannot be reached with `min_err`. -/
noncomputable def newpointU (lib : Lib d W) (flat : Bool) (X X_dot : List (Arr d)) (F : Option (Arr d → W → Arr d))
    (scheme : String) (U : List W) (h t : ℝ) (u_scheme : String) (sp : Params d W) : Except PErr W :=
  let n := ⌊t / h⌋
  let τ := t - h * n
  if n + 1 > U.length then .error .valueError
  else if |τ| < h * 1e-8 then pyGet U n
  else if |τ - h| < h * 1e-8 then pyGet U (n + 1)
  else do
    let u ← pyGet U n
    let u_n ← pyGet U (n + 1)
    if u_scheme = "lin" then return (1 / h) • ((h - τ) • u + τ • u_n)
    else if u_scheme = "parab" then
      let U_c ← key sp.u_c
      match U_c with
      | none => .error .typeError
      | some U_c => do
        let u_c ← pyGet U_c n
        return interpParab τ h u u_c u_n
    else if u_scheme = "parab_j" then
      let U_c ← key sp.u_c
      match U_c with
      | none => .error .typeError
      | some U_c => do
        let u_c ← pyGet U_c n
        return interpParabJ τ h u u_c u_n
    else if u_scheme = "min_err" then
      let F ← key F
      let x_interp ← newpoint flat X X_dot h t scheme sp
      let x_dot_interp ← newpointDer flat X X_dot h t scheme 1 sp
      let ξ := τ / h
      return lib.minimize (minErr F x_interp x_dot_interp) (ξ • u_n + (1 - ξ) • u)
    else if u_scheme = "pinv_dyn" then
      let x_interp ← newpoint flat X X_dot h t scheme sp
      let x_dot_interp ← newpointDer flat X X_dot h t scheme 1 sp
      let pinv_F ← key sp.pinv_f
      return pinv_F x_interp x_dot_interp
    else .error .nameError

/-- `interpolate_u`, piecewise.py 1818-1879. The step length is computed from the times; with one sample it is `0 / 0` and
the conversion of `t // h` to an integer raises. -/
noncomputable def interpolateU (lib : Lib d W) (flat : Bool) (X X_dot : List (Arr d)) (F : Option (Arr d → W → Arr d))
    (scheme : String) (U : List W) (old_t t_array : List ℝ) (u_scheme : String) (sp : Params d W) :
    Except PErr (List W) :=
  if u_scheme = "lin" then t_array.mapM (interpAt old_t U)
  else if old_t.length = 1 then .error .valueError
  else
    let h := (old_t.getLastD 0 - old_t.headD 0) / ((old_t.length : ℝ) - 1)
    t_array.mapM fun t => newpointU lib flat X X_dot F scheme U h t u_scheme sp

/-- `F(X[ii], U[ii])` for all `ii`, with `F` possibly `None`, which cannot be called. `U` has at least as many elements. -/
def callF (F : Option (Arr d → W → Arr d)) (X : List (Arr d)) (U : List W) : Except PErr (List (Arr d)) :=
  match X with
  | [] => .ok []
  | X => if X.length ≤ U.length then
      match F with
      | none => .error .typeError
      | some F => .ok (List.zipWith F X U)
    else match F with
      | none => .error .typeError
      | some _ => .error .indexError

/-- The middle states, piecewise.py 1894-1939: one for each pair of consecutive samples. -/
noncomputable def midStates (flat : Bool) (scheme : String) (X X_dot : List (Arr d)) (h : ℝ) : Except PErr (List (Arr d)) :=
  if X.length ≤ X_dot.length then
    if pyIn "mod" scheme then
      if flat ∧ 2 ≤ X.length then .error .indexError else
      .ok ((List.range (X.length - 1)).map fun ii => byPairs fun j =>
        hsModMidpoint (pairAt (X.getD ii 0) j) (pairAt (X.getD (ii + 1) 0) j) (pairAt (X_dot.getD ii 0) j)
          (pairAt (X_dot.getD (ii + 1) 0) j) h)
    else if pyIn "j" scheme then
      if flat ∧ 2 ≤ X.length then .error .indexError else
      .ok ((List.range (X.length - 1)).map fun ii => byPairs fun j =>
        hsjMidpoint (pairAt (X.getD ii 0) j) (pairAt (X.getD (ii + 1) 0) j) (pairAt (X_dot.getD ii 0) j)
          (pairAt (X_dot.getD (ii + 1) 0) j) h)
    else .ok ((List.range (X.length - 1)).map fun ii =>
      hsMidpoint (X.getD ii 0) (X.getD (ii + 1) 0) (X_dot.getD ii 0) (X_dot.getD (ii + 1) 0) h)
  else if X.length ≤ 1 then .ok [] else .error .indexError

/-- `0.6 * U[:-1] + 0.4 * U[1:]` and `(U[:-1] + U[1:]) / 2`, piecewise.py 1945-1948. -/
noncomputable def midControls (scheme : String) (U : List W) : List W :=
  if pyIn "j" scheme then List.zipWith (fun u v => (0.6 : ℝ) • u + (0.4 : ℝ) • v) U.dropLast U.tail
  else List.zipWith (fun u v => (1 / 2 : ℝ) • (u + v)) U.dropLast U.tail

/-- `X_dot`, given or computed, piecewise.py 1885-1888. -/
def givenXdot (F : Option (Arr d → W → Arr d)) (X : List (Arr d)) (U : List W) :
    Option (List (Arr d)) → Except PErr (List (Arr d))
  | some X_dot => .ok X_dot
  | none => match F with
    | none => .error .valueError
    | some F => callF (some F) X U

/-- `X_c`, given or computed, piecewise.py 1892-1939. -/
noncomputable def givenXc (flat : Bool) (scheme : String) (X X_dot : List (Arr d)) (h : ℝ) :
    Option (List (Arr d)) → Except PErr (List (Arr d))
  | some X_c => .ok X_c
  | none => midStates flat scheme X X_dot h

/-- piecewise.py 1940-1949. -/
noncomputable def fillUc (scheme u_scheme : String) (U : List W) (sp : Params d W) : Params d W :=
  if ¬ pyIn "parab" u_scheme ∧ (sp.u_c.getD none).isNone then { sp with u_c := some (some (midControls scheme U)) } else sp

/-- `F(X_c[ii], U_c[ii], params)` for all `ii`, piecewise.py 1952-1954, where `U_c` may be `None`. -/
def derivsAt (F : Option (Arr d → W → Arr d)) (X_c : List (Arr d)) : Option (List W) → Except PErr (List (Arr d))
  | some U_c => callF F X_c U_c
  | none => if X_c = [] then .ok [] else .error .typeError

/-- `_calculate_missing_arrays`, piecewise.py 1882-1956: `X_dot`, and `scheme_params` after the call, which is the
caller's dictionary. -/
noncomputable def missing (flat : Bool) (X : List (Arr d)) (U : List W) (h : ℝ) (F : Option (Arr d → W → Arr d))
    (X_dot : Option (List (Arr d))) (scheme u_scheme : String) (sp : Params d W) :
    Except PErr (List (Arr d) × Params d W) := do
  let X_dot ← givenXdot F X U X_dot
  if pyIn "hs" scheme ∧ scheme ≠ "hs_scipy" ∧ sp.x_dot_c = none then
    let X_c ← givenXc flat scheme X X_dot h sp.x_c
    let U_c ← key (fillUc scheme u_scheme U sp).u_c
    let X_dot_c ← derivsAt F X_c U_c
    return (X_dot, { fillUc scheme u_scheme U sp with x_dot_c := some X_dot_c })
  else return (X_dot, sp)

/-- piecewise.py 2037-2050 and 2466-2479 (in another order). -/
def supportedSchemes : List String :=
  ["trapz", "trapz_mod", "trapz_n", "hs", "hs_scipy", "hs_mod", "hs_parab", "hs_mod_parab", "hsj", "hsj_parab", "hsn",
    "hsn_parab"]

/-- piecewise.py 2055-2061. -/
def supportedUSchemes : List String := ["lin", "parab", "parab_j", "min_err", "pinv_dyn"]

/-- piecewise.py 2078-2084: the schemes of any order need the key `order`; without a dictionary `in` raises a
TypeError. -/
def checkOrder (scheme : String) (scheme_params : Option (Params d W)) : Except PErr Unit :=
  if pyIn "hsn" scheme ∨ pyIn "trapz_n" scheme then
    match scheme_params with
    | none => .error .typeError
    | some sp => if sp.order = none then .error .valueError else .ok ()
  else .ok ()

/-- piecewise.py 2093-2103. -/
def checkF (u_scheme : String) (F : Option (Arr d → W → Arr d)) : Except PErr Unit :=
  if u_scheme = "min_err" ∧ F.isNone then .error .valueError else .ok ()

/-- piecewise.py 2106-2114. -/
noncomputable def statesAt (lib : Lib d W) (flat : Bool) (X X_dot : List (Arr d)) (h : ℝ) (old_t t_array : List ℝ)
    (scheme : String) (sp : Params d W) : Except PErr (List (Arr d)) :=
  if scheme = "hs_scipy" then .ok (t_array.map (lib.spline old_t X X_dot 0))
  else t_array.mapM fun t => newpoint flat X X_dot h t scheme sp

/-- piecewise.py 2483-2495. With `hs_scipy` and an order other than 1 and 2 the array of zeros of line 1804 is returned. -/
noncomputable def derivativesAt (lib : Lib d W) (flat : Bool) (X X_dot : List (Arr d)) (h : ℝ) (old_t t_array : List ℝ)
    (scheme : String) (order : ℕ) (sp : Params d W) : Except PErr (List (Arr d)) :=
  if scheme = "hs_scipy" then
    if order = 1 ∨ order = 2 then .ok (t_array.map (lib.spline old_t X X_dot order)) else .ok (t_array.map fun _ => 0)
  else t_array.mapM fun t => newpointDer flat X X_dot h t scheme order sp

/-- `interpolated_array`, piecewise.py 1959-2114: the interpolated states and controls, and the caller's dictionary after
the call (`none` when the caller gave none). A call that raises may also have changed the dictionary; that is not
modelled. -/
noncomputable def interpolatedArray (lib : Lib d W) (flat : Bool) (X : List (Arr d)) (U : List W) (h : ℝ)
    (t_array : List ℝ) (F : Option (Arr d → W → Arr d)) (X_dot : Option (List (Arr d))) (scheme u_scheme : String)
    (scheme_params : Option (Params d W)) : Except PErr ((List (Arr d) × List W) × Option (Params d W)) :=
  if scheme ∉ supportedSchemes then .error .valueError
  else if u_scheme ∉ supportedUSchemes then .error .valueError
  else if pyIn "j" scheme ∧ u_scheme = "parab" then .error .valueError
  else if pyIn "j" u_scheme ∧ ¬ pyIn "j" scheme then .error .valueError
  else do
    checkOrder scheme scheme_params
    let sp := scheme_params.getD Params.empty
    let (U, old_t) ← prepare X U h t_array
    let (X_dot, sp) ← missing flat X U h F X_dot scheme u_scheme sp
    checkF u_scheme F
    let new_U ← interpolateU lib flat X X_dot F scheme U old_t t_array u_scheme sp
    let new_X ← statesAt lib flat X X_dot h old_t t_array scheme sp
    return ((new_X, new_U), scheme_params.map fun _ => sp)

/-- `interpolated_array_derivative`, piecewise.py 2382-2496. -/
noncomputable def interpolatedDerivative (lib : Lib d W) (flat : Bool) (X : List (Arr d)) (U : List W) (h : ℝ)
    (t_array : List ℝ) (F : Option (Arr d → W → Arr d)) (X_dot : Option (List (Arr d))) (scheme : String) (order : ℕ)
    (scheme_params : Option (Params d W)) : Except PErr (List (Arr d) × Option (Params d W)) :=
  if scheme ∉ supportedSchemes then .error .valueError
  else do
    let sp := scheme_params.getD Params.empty
    let (U, old_t) ← prepare X U h t_array
    let (X_dot, sp) ← missing flat X U h F X_dot scheme "None" sp
    let new_X ← derivativesAt lib flat X X_dot h old_t t_array scheme order sp
    return (new_X, scheme_params.map fun _ => sp)

end U
end
end Chords.Interp
