import Verif.Model.Interp
import Verif.Model.Problem

/-! # Initial guesses
chords/opti.py 461-474 and 3795-4048 (`_Zero_init`, `_Lin_init`, `_Waypoints_init`, `_Custom_init`).

Simplifications. Floats are reals. The effect of `initial_guess` is the list of its calls of `opti.set_initial`, with the
name of the array in `opti_arrs` and the value. A row is an array of `d` entries, where `d` is the number of coordinates,
and all rows of an argument have that length. The number of rows of the velocity guess, `self.N + 1` or `self.n_arr`, is
the number of times in `opti_arrs["t"]`. `opti_setup` has been called, so that `opti_arrs` exists. -/

namespace Chords.Guess

open Chords.Interp (interpAt)
open Chords.Problem (hasHs)

inductive GErr
  | index | notImplemented | value | casadi
  deriving DecidableEq

/-- A row of coordinates. -/
abbrev Row (d : ℕ) := Fin d → ℝ

/-- A value of `opti.set_initial`: zero, one row for each point, or a block of those for each derivative. -/
inductive Val (d : ℕ)
  | zero
  | rows (l : List (Row d))
  | levels (l : List (List (Row d)))

abbrev Sets (d : ℕ) := List (String × Val d)

/-- The last value set for an array. -/
def Sets.get {d : ℕ} (s : Sets d) (name : String) : Option (Val d) := (s.reverse.find? fun e => e.1 = name).map (·.2)

/-- The problem: `opti_arrs["t"]`, `opti_arrs["t_col"]`, and the times of the LGL points of `q_constr` (opti.py 3867-3872). -/
structure Prob where
  mode : String
  scheme : String
  order : ℕ
  t_start : ℝ
  t_end : ℝ
  t : List ℝ
  t_col : List ℝ
  t_constr : List ℝ

/-- The modes of the list in opti.py 3839-3846 and 3917-3924, and "equispaced". -/
def modes : List String := ["equispaced", "bottom-up pseudospectral", "top-down pseudospectral", "pseudospectral",
  "ph bottom-up pseudospectral", "ph top-down pseudospectral", "ph pseudospectral"]

/-- `a_opti` of `_ini_guess_start`, opti.py 461-474: `None` for problems of order 1. casadi rejects `set_initial(None, 0)`. -/
def setA {d : ℕ} (p : Prob) (v : Val d) : Except GErr (Sets d) := if 1 < p.order then .ok [("a", v)] else .error .casadi

/-- `opti_arrs["t_c"]`, opti.py 1954-1957. -/
noncomputable def tCentre (scheme : String) (a b : ℝ) : ℝ :=
  if 'j' ∈ scheme.toList then 0.6 * a + 0.4 * b else (a + b) / 2

/-- `(arr[:-1, :] + arr[1:, :]) / 2` -/
noncomputable def mids {d : ℕ} (l : List (Row d)) : List (Row d) := List.zipWith (fun a b => (1 / 2 : ℝ) • (a + b)) l l.tail

/-- `interp_2d`, piecewise.py 74-98. `numpy.interp` raises `ValueError` when there are not as many values as points. -/
noncomputable def interp2d {d : ℕ} (ts old : List ℝ) (Y : List (Row d)) : Except GErr (List (Row d)) :=
  if old.length = Y.length then
    match ts.mapM (interpAt old Y) with
    | .ok r => .ok r
    | .error _ => .error .value
  else .error .value

/-- `_Zero_init.initial_guess`, opti.py 3795-3810. -/
def zeroGuess {d : ℕ} (p : Prob) : Except GErr (Sets d) := do
  let a ← if p.mode = "equispaced" then setA p .zero else .ok []
  return [("q", .zero), ("v", .zero)] ++ a

/-- What the user may give as `q_s` and `q_e`: a number or a row. -/
inductive Ini (d : ℕ)
  | num (a : ℝ)
  | row (r : Row d)

/-- `_Lin_init.initial_guess`, opti.py 3813-3886. With numbers the stacked array (3859) is one-dimensional and `Y[:, ii]`
(piecewise.py 97) raises `IndexError`. A number next to a row is refused by `concatenate`. -/
noncomputable def linGuess {d : ℕ} (p : Prob) (q_s q_e : Ini d) : Except GErr (Sets d) :=
  if p.mode ∈ modes then
    let h := p.t_end - p.t_start
    match q_s, q_e with
    | .row q_s, .row q_e => do
      let q ← interp2d p.t [p.t_start, p.t_end] [q_s, q_e]
      let v := List.replicate p.t.length ((1 / h) • (q_e - q_s))
      let constr ← interp2d p.t_constr [p.t_start, p.t_end] [q_s, q_e]
      return [("q", .rows q), ("v", .rows v)] ++
        (if p.mode = "top-down pseudospectral" then [("q_constr", .rows constr)] else []) ++
        (if 1 < p.order ∧ p.mode = "equispaced" then
          [("a", .zero)] ++ (if hasHs p.scheme then [("q_c", .rows (mids q)), ("v_c", .rows v.tail), ("a_c", .zero)] else [])
        else [])
    | .num _, .num _ => .error .index
    | _, _ => .error .value
  else .error .notImplemented

/-- `numpy.gradient(f, t, axis=0)`: one-sided at the ends, the formula of second order for uneven spacing in between. It
needs two points. -/
noncomputable def gradient {d : ℕ} (f : List (Row d)) (t : List ℝ) : Except GErr (List (Row d)) :=
  if 2 ≤ f.length ∧ f.length = t.length then
    let n := f.length
    let T (i : ℕ) : ℝ := t.getD i 0
    let Y (i : ℕ) : Row d := f.getD i 0
    .ok ((List.range n).map fun i =>
      if i = 0 then (1 / (T 1 - T 0)) • (Y 1 - Y 0)
      else if i = n - 1 then (1 / (T (n - 1) - T (n - 2))) • (Y (n - 1) - Y (n - 2))
      else
        let hs := T i - T (i - 1)
        let hd := T (i + 1) - T i
        (-hd / (hs * (hs + hd))) • Y (i - 1) + ((hd - hs) / (hd * hs)) • Y i + (hs / (hd * (hs + hd))) • Y (i + 1))
  else .error .value

/-- The waypoints and their first `n` derivatives, opti.py 3938-3947. -/
noncomputable def gradients {d : ℕ} (q : List (Row d)) (t : List ℝ) : ℕ → Except GErr (List (List (Row d)))
  | 0 => .ok [q]
  | n + 1 => do
    let g ← gradient q t
    let r ← gradients g t n
    return q :: r

/-- `linspace(a, b, n)` -/
noncomputable def linspace (a b : ℝ) (n : ℕ) : List ℝ := (List.range n).map fun (i : ℕ) => a + i * ((b - a) / (n - 1 : ℕ))

/-- `_Waypoints_init.initial_guess`, opti.py 3889-3974: the part about the states. `order` is positive. -/
noncomputable def waypointsGuess {d : ℕ} (p : Prob) (q_points : List (Row d)) (t_points : Option (List ℝ)) :
    Except GErr (Sets d) :=
  if p.mode ∈ modes then do
    let t_points := t_points.getD (linspace p.t_start p.t_end q_points.length)
    let pts ← gradients q_points t_points p.order
    let guess ← pts.mapM (interp2d p.t t_points)
    let constr ← interp2d p.t_constr t_points q_points
    return [("x", .levels guess.dropLast), ("x_d", .levels guess.tail)] ++
      (if p.mode = "top-down pseudospectral" then [("q_constr", .rows constr)] else []) ++
      (if p.mode = "equispaced" ∧ hasHs p.scheme then
        [("x_c", .levels (guess.dropLast.map mids)), ("x_d_c", .levels (guess.tail.map mids))] else [])
  else .error .notImplemented

/-- The part of `_Waypoints_init.initial_guess` about the controls, opti.py 3976-3992. `n` is the number of waypoints, the
number of points of `linspace` in 3930-3931. `u_like_x` of the modes which start with "ph " has one row for each time in
`opti_arrs["t"]`. -/
noncomputable def waypointsControl {m : ℕ} (p : Prob) (n : ℕ) (t_points : Option (List ℝ)) (u_points : Option (List (Row m))) :
    Except GErr (Sets m) :=
  match u_points with
  | none => .ok []
  | some u_points => do
    let t_points := t_points.getD (linspace p.t_start p.t_end n)
    if p.mode.toList.take 3 = "ph ".toList then
      let u ← interp2d p.t t_points u_points
      return [("u_like_x", .rows u)]
    else
      let u ← interp2d p.t_col t_points u_points
      return [("u", .rows u)] ++ (if p.mode = "equispaced" ∧ hasHs p.scheme then [("u_c", .rows (mids u))] else [])

/-- `_Waypoints_init.initial_guess`, opti.py 3889-3992: what is set for the states and for the controls. -/
noncomputable def waypoints {d m : ℕ} (p : Prob) (q_points : List (Row d)) (t_points : Option (List ℝ))
    (u_points : Option (List (Row m))) : Except GErr (Sets d × Sets m) := do
  let x ← waypointsGuess p q_points t_points
  let u ← waypointsControl p q_points.length t_points u_points
  return (x, u)

/-- The accelerations and the central points, opti.py 4025-4036. -/
noncomputable def customEq {d : ℕ} (p : Prob) (q v a : List (Row d)) : Except GErr (Sets d) :=
  if p.mode = "equispaced" then do
    let s ← setA p .zero
    return s ++ (if hasHs p.scheme then [("q_c", .rows (mids q)), ("v_c", .rows (mids v)), ("a_c", .rows (mids a))] else [])
  else .ok []

/-- The guess of `q_constr`, opti.py 4040-4048. -/
noncomputable def customConstr {d : ℕ} (p : Prob) (q : List (Row d)) : Except GErr (Sets d) :=
  if p.mode = "top-down pseudospectral" then do
    let r ← interp2d p.t_constr p.t q
    return [("q_constr", .rows r)]
  else .ok []

/-- `_Custom_init.initial_guess`, opti.py 3995-4048: the part about the states. -/
noncomputable def customGuess {d : ℕ} (p : Prob) (q v a : List (Row d)) : Except GErr (Sets d) := do
  let eq ← customEq p q v a
  let constr ← customConstr p q
  return [("q", .rows q), ("v", .rows v)] ++ eq ++ constr

/-- The control in `_Custom_init.initial_guess`, opti.py 4020-4022 and 4037-4039. -/
noncomputable def customControl {m : ℕ} (p : Prob) (u : List (Row m)) : Sets m :=
  [("u", .rows u)] ++ (if p.mode = "equispaced" ∧ hasHs p.scheme then [("u_c", .rows (mids u))] else [])

/-- `_Custom_init.initial_guess`, opti.py 3995-4048: what is set for the states and for the controls. -/
noncomputable def custom {d m : ℕ} (p : Prob) (q v a : List (Row d)) (u : List (Row m)) : Except GErr (Sets d × Sets m) := do
  let x ← customGuess p q v a
  return (x, customControl p u)

end Chords.Guess
