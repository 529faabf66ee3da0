import Verif.Model.Points

/-! # The problem object: factory, names of the arrays, order of the calls, saved results
chords/opti.py 91-129, 413-600, the `opti_setup` methods (only which attributes and dictionary keys they write and in
which order) and 4051-4217 (`Opti_Problem`).

Simplifications. Strings are Python strings. Objects are reduced to the attributes that decide which branch is taken.
The set-up sizes are taken as valid numbers. -/

namespace Chords.Problem
open Chords.Points

/-- `_implemented_equispaced_schemes`, opti.py 91-105. -/
def equispaced : List String :=
  ["euler", "trapz", "trapz_mod", "trapz_n", "hs", "hs_mod", "hs_parab", "hs_mod_parab", "hsj", "hsj_parab",
    "hsj_parab_mod", "hsn", "hsn_parab"]

/-- `_implemented_top_down_pseudospectral_schemes`, opti.py 108-110. -/
def topDown : List String := buImplemented.map fun s => "TD_" ++ s

/-- `_implemented_bottom_up_pseudospectral_schemes`, opti.py 112-114. -/
def bottomUp : List String := buImplemented.map fun s => "BU_" ++ s

/-- `get_q_and_ders_names`, opti.py 125-129. -/
def qAndDersNames (order : ℕ) : List String :=
  let names := ["q", "v", "a", "jerk", "snap", "crackle", "pop"] ++
    (List.range (order + 1 - 7)).map fun (k : ℕ) => "d" ++ toString (7 + k) ++ "q"
  names.take (order + 1)

/-! ### Factory -/

inductive PErr
  | notImplemented | attribute | runtime | key | value | assertion
  deriving DecidableEq

/-- `s[:3]`. -/
def take3 (s : String) : String := String.ofList (s.toList.take 3)

/-- `s[3:]`. -/
def drop3 (s : String) : String := String.ofList (s.toList.drop 3)

/-- The beginning of `_Opti_Problem.__init__`, opti.py 424-451: `scheme_mode` and `scheme`. -/
def initScheme (scheme : String) : Except PErr (String × String) :=
  let ph_scheme := take3 scheme = "ph_"
  let scheme := if ph_scheme then drop3 scheme else scheme
  let mode := fun (m : String) => if ph_scheme then "ph " ++ m else m
  if scheme ∈ equispaced then .ok (mode "equispaced", scheme)
  else if scheme ∈ implemented then .ok (mode "pseudospectral", scheme)
  else if scheme ∈ bottomUp then .ok (mode "bottom-up pseudospectral", drop3 scheme)
  else if scheme ∈ topDown then .ok (mode "top-down pseudospectral", drop3 scheme)
  else .error .notImplemented

/-- The kind of the object that is given as dynamics. -/
inductive LM
  | implicitLagrange | simpLagrange | sympyLagrange | callable | other
  deriving DecidableEq

/-- The class that gives `dynamic_setup`. -/
inductive DynClass
  | implicit | explicit | func
  deriving DecidableEq

/-- The class that gives `opti_setup` and `apply_scheme`. -/
inductive SchemeClass
  | equispaced | pseudo | bu | td | multi
  deriving DecidableEq

/-- The class that gives `initial_guess`. -/
inductive InitClass
  | zero | lin | waypoints | custom
  deriving DecidableEq

structure Problem where
  dyn : Option DynClass
  cls : SchemeClass
  ini : InitClass
  mode : String
  scheme : String
  deriving DecidableEq

/-- opti.py 4156-4171. The last branch builds a `ValueError` and drops it. -/
def dynClass : LM → Option DynClass
  | .implicitLagrange => some .implicit
  | .simpLagrange => some .explicit
  | .sympyLagrange => some .explicit
  | .callable => some .func
  | .other => none

/-- opti.py 4174-4187. -/
def schemeClass (scheme : String) : Except PErr SchemeClass :=
  if scheme ∈ equispaced then .ok .equispaced
  else if scheme ∈ implemented then .ok .pseudo
  else if scheme ∈ bottomUp then .ok .bu
  else if scheme ∈ topDown then .ok .td
  else if take3 scheme = "ph_" then .ok .multi
  else .error .notImplemented

/-- opti.py 4190-4201. -/
def initClass (ini_guess : String) : Except PErr InitClass :=
  if ini_guess = "zero" then .ok .zero
  else if ini_guess = "lin" then .ok .lin
  else if ini_guess = "waypoints" then .ok .waypoints
  else if ini_guess = "custom" then .ok .custom
  else .error .notImplemented

/-- `Opti_Problem`, opti.py 4051-4217. -/
def optiProblem (lm : LM) (scheme ini_guess : String) : Except PErr Problem := do
  let cls ← schemeClass scheme
  let ini ← initClass ini_guess
  let ms ← initScheme scheme
  return { dyn := dynClass lm, cls := cls, ini := ini, mode := ms.1, scheme := ms.2 }

/-! ### Keys of the dictionaries -/

/-- What is stored under a key of `opti_arrs`, `opti_lists` or `results`: a variable or a part of it, known by the name
it has in the code, a derivative level with the part of the rows that is kept, or a list of the problem. -/
inductive Src
  | item (s : String)
  | level (k : ℕ) (rows : String)
  | arr (key : String)
  | list (key : String)
  deriving DecidableEq

/-- A Python dictionary as the list of assignments made to it, oldest first. -/
abbrev Dict := List (String × Src)

/-- `d[key]`: the last assignment counts. -/
def Dict.get (d : Dict) (key : String) : Option Src := (d.reverse.find? fun p => p.1 == key).map (·.2)

/-- The keys. -/
def Dict.keys (d : Dict) : List String := d.map (·.1)

/-- Assignments `d[name + suffix] = level` for all names. -/
def levels (order : ℕ) (suffix rows : String) : Dict :=
  (List.range (order + 1)).map fun (k : ℕ) => ((qAndDersNames order).getD k "" ++ suffix, .level k rows)

/-- `opti_arrs` of `_Equispaced.opti_setup`, opti.py 1907-1978. The loops over the names assign several keys in each round;
they are listed here key kind by key kind, which does not change the dictionary as the keys are different
(`C86_keys`). `hs in scheme` is whether the name contains "hs". -/
def arrsEquispaced (scheme : String) (hs : Bool) (order : ℕ) : Dict :=
  [("x", .item "x"), ("x_d", .item "x_dot"), ("x_like_u", .item "x"), ("x_d_like_u", .item "x_dot"), ("u", .item "u"),
    ("u_like_x", .item "u"), ("t", .item "t"), ("t_col", .item "t"), ("lam", .item "lam")] ++
  levels order "" "all" ++ levels order "_like_u" "all" ++
  (if hs then
    [("x_c", .item "x_c"), ("x_d_c", .item "x_dot_c"), ("u_c", .item "u_c"), ("t_c", .item "t_c"), ("lam_c", .item "lam_c")] ++
      levels order "_c" "centre" ++ (if scheme = "hsj_parab_mod" then [("u_j", .item "u_j")] else [])
  else [])

/-- `opti_arrs` of `_Pseudospectral.opti_setup`, opti.py 738-791. -/
def arrsPseudo (order : ℕ) : Dict :=
  [("x", .item "x"), ("x_node", .item "x_node"), ("x_like_u", .item "x[coll]"), ("x_d", .item "x_dot"),
    ("x_d_node", .item "x_dot_node"), ("x_d_like_u", .item "x_dot[coll]"), ("u", .item "u"), ("t", .item "t"),
    ("t_node", .item "t_node"), ("t_col", .item "t_col"), ("tau", .item "tau"), ("tau_node", .item "tau_node"),
    ("tau_col", .item "tau_col"), ("lam", .item "lam"), ("u_like_x", .item "u_like_x")] ++
  levels order "" "all" ++ levels order "_node" "node" ++ levels order "_like_u" "coll"

/-- `opti_arrs` of `_BU_Pseudospectral.opti_setup`, opti.py 1246-1290. -/
def arrsBu (order : ℕ) : Dict :=
  [("x", .item "x"), ("x_like_u", .item "x[coll]"), ("x_d", .item "x_dot"), ("x_d_like_u", .item "x_dot[coll]"),
    ("u", .item "u"), ("t", .item "t"), ("t_col", .item "t_col"), ("tau", .item "tau"), ("tau_col", .item "tau_col"),
    ("lam", .item "lam"), ("u_like_x", .item "u_like_x")] ++
  levels order "" "all" ++ levels order "_like_u" "coll"

/-- `opti_arrs` of `_TD_Pseudospectral.opti_setup`, opti.py 1597-1642. -/
def arrsTd (order : ℕ) : Dict :=
  [("x", .item "x"), ("x_like_u", .item "x[coll]"), ("x_d", .item "x_dot"), ("x_d_like_u", .item "x_dot[coll]"),
    ("u", .item "u"), ("t", .item "t"), ("t_col", .item "t_col"), ("tau", .item "tau"), ("tau_col", .item "tau_col"),
    ("lam", .item "lam"), ("q_constr", .item "q_constr"), ("u_like_x", .item "u_like_x")] ++
  levels order "" "all" ++ levels order "_like_u" "coll"

/-- `opti_arrs` of `_multi_pseudospectral.opti_setup`, opti.py 2478-2491 and 2548-2554. -/
def arrsMulti (order : ℕ) : Dict :=
  [("x", .item "x"), ("x_like_u", .item "x[coll]"), ("x_d", .item "x_dot"), ("x_d_like_u", .item "x_dot[coll]"),
    ("u", .item "u"), ("u_like_x", .item "u_like_x"), ("t", .item "t"), ("t_col", .item "t_col"),
    ("tau_col", .item "tau_col"), ("t_knot", .item "t_knot"), ("t_knot_ext", .item "t_knot_ext"), ("lam", .item "lam")] ++
  levels order "" "all" ++ levels order "_like_u" "coll"

/-- `opti_lists` of `_multi_pseudospectral.opti_setup`, opti.py 2493-2528 and 2556-2621. `topDown` tells whether `scheme_mode`
is "ph top-down pseudospectral". -/
def listsMulti (topDown : Bool) (order : ℕ) : Dict :=
  [("x_col", .item "x_col"), ("x_knot", .item "x_knot"), ("x_knot_ext", .item "x_knot_ext"), ("x_d_col", .item "x_d_col"),
    ("x_d_knot", .item "x_d_knot"), ("x_d_knot_ext", .item "x_d_knot_ext"), ("u_col", .item "u_col"),
    ("u_knot", .item "u_knot"), ("u_knot_ext", .item "u_knot_ext"), ("t_col", .item "t_col"), ("tau_col", .item "tau_col"),
    ("t_col_since_knot", .item "t_col_since_knot")] ++
  levels order "_col" "col" ++ levels order "_knot" "knot" ++ levels order "_knot_ext" "knot_ext" ++
  (if topDown then [("q_constr", .item "q_constr"), ("t_constr", .item "t_constr")] else [])

/-- Does the name contain "hs"? -/
def hasHs (scheme : String) : Bool := decide ("hs".toList <:+: scheme.toList)

/-- `opti_arrs` after `opti_setup`. -/
def optiArrs (p : Problem) (order : ℕ) : Dict :=
  match p.cls with
  | .equispaced => arrsEquispaced p.scheme (hasHs p.scheme) order
  | .pseudo => arrsPseudo order
  | .bu => arrsBu order
  | .td => arrsTd order
  | .multi => arrsMulti order

/-- `opti_lists` after `opti_setup`; only problems with segments have it. -/
def optiLists (p : Problem) (order : ℕ) : Dict :=
  match p.cls with
  | .multi => listsMulti (p.mode == "ph top-down pseudospectral") order
  | _ => []

/-- The part of `_save_results` before the arrays, opti.py 476-514, without the lists. -/
def resultsHead (p : Problem) : Dict :=
  [("cpudt", .item "cpudt"), ("iter_count", .item "iter_count"), ("cost", .item "cost"), ("opti_stats", .item "opti_stats"),
    ("scheme_mode", .item p.mode), ("n_q", .item "n_q"), ("n_u", .item "n_u"), ("solve_order", .item "order"),
    ("params", .item "params")] ++
  (if p.mode = "equispaced" then [("N", .item "N"), ("scheme", .item p.scheme)]
  else
    (if p.mode ∈ ["bottom-up pseudospectral", "top-down pseudospectral", "pseudospectral"] then [("n_coll", .item "n_coll")]
      else if take3 p.mode = "ph " then
        [("h_arr", .item "h_arr"), ("point_structure", .item "point_structure"), ("n_segments", .item "n_segments"),
          ("n_coll_total", .item "n_coll_total")]
      else []) ++
    (if p.mode = "bottom-up pseudospectral" then [("scheme", .item ("BU_" ++ p.scheme))]
      else if p.mode = "top-down pseudospectral" then [("scheme", .item ("TD_" ++ p.scheme))]
      else [("scheme", .item p.scheme)]))

/-- `_save_results`, opti.py 476-518, with the entries that `simple_solve` and `chrono_solve` (opti.py 548-553 and 594-599) put first. The
lists are written by opti.py 502-507, which is before "scheme" and the arrays. -/
def results (p : Problem) (order : ℕ) : Dict :=
  resultsHead p ++
  (if take3 p.mode = "ph " then (optiLists p order).keys.map fun k => (k ++ "_list", .list k) else []) ++
  (optiArrs p order).keys.map fun k => (k, .arr k)

/-! ### Order of the calls -/

/-- The methods. `guess` is `initial_guess`, `solve` is `simple_solve` or `chrono_solve`, `cost` is `u_sq_cost`. -/
inductive Call
  | dynamic | setup | apply | cost | guess | solve
  deriving DecidableEq

/-- Which attributes exist: `dyn` for those of `dynamic_setup` (`order`, `n_q`, `n_u`, `n_lambdas`, `dyn_f_restr`), `size` for
`N` or `n_coll`, `arrs` for `n_arr`, `opti_arrs`, `opti_points`, `opti_lists` and `q_and_ders_names`, `opti` for `opti`; and
`applied`, whether the constraints of the scheme are in the object `opti`. -/
structure St where
  dyn : Bool := false
  size : Bool := false
  arrs : Bool := false
  opti : Bool := false
  applied : Bool := false
  deriving DecidableEq

/-- `None` for a normal return. -/
abbrev Outcome := Option PErr

/-- `opti_setup` of each class: opti.py 1861-1904 (`N` and `opti` are stored before the dynamics are looked up), opti.py
639-654, opti.py 1186-1213, opti.py 1536-1563, opti.py 2349-2356. -/
def setup (c : SchemeClass) (s : St) : Outcome × St :=
  match c with
  | .equispaced =>
    let s' := { s with size := true, opti := true, applied := false }
    if s.dyn then (none, { s' with arrs := true }) else (some .runtime, s')
  | .pseudo =>
    if s.dyn then (none, { s with size := true, opti := true, applied := false, arrs := true }) else (some .attribute, s)
  | _ =>
    if s.dyn then (none, { s with size := true, opti := true, applied := false, arrs := true }) else (some .runtime, s)

/-- `apply_scheme` of each class: opti.py 2153-2163, 963-975, 1427-1443, 1779-1795, 2794-2812. The part that depends on the scheme
name is `applyName`. -/
def apply (c : SchemeClass) (s : St) : Outcome × St :=
  match c with
  | .multi => if s.arrs && s.dyn && s.opti then (none, { s with applied := true }) else (some .runtime, s)
  | _ =>
    if s.size then
      if s.arrs && s.dyn && s.opti then (none, { s with applied := true }) else (some .attribute, s)
    else (some .runtime, s)

/-- `u_sq_cost` of each class: opti.py 2073-2079, 899 (no `try`), 1310-1316, 1662-1668, 2641-2647. -/
def cost (c : SchemeClass) (s : St) : Outcome × St :=
  match c with
  | .pseudo => if s.arrs then (none, s) else (some .attribute, s)
  | _ => if s.arrs then (none, s) else (some .runtime, s)

/-- One call. `guess` is `_ini_guess_start`, opti.py 461-474; `solve` is opti.py 533-538 and 577-583, and a normal return means
that the solver is called; `dynamic_setup` is taken as successful. -/
def call (c : SchemeClass) (s : St) : Call → Outcome × St
  | .dynamic => (none, { s with dyn := true })
  | .setup => setup c s
  | .apply => apply c s
  | .cost => cost c s
  | .guess => if s.arrs then (none, s) else (some .runtime, s)
  | .solve => if s.opti then (none, s) else (some .runtime, s)

/-- A sequence of calls; exceptions are caught by the caller. -/
def runCalls (c : SchemeClass) : St → List Call → St
  | s, [] => s
  | s, k :: ks => runCalls c (call c s k).2 ks

/-- The parts of `opti_setup` and `apply_scheme` that depend on the scheme name: the table of restrictions of the equispaced
problems (opti.py 2190-2206), the point functions of the others, and the branches on `scheme_mode` (opti.py 2815, 2857, 2950 and
3033). `coll_points` for the problems with segments is called in opti.py 2453. -/
noncomputable def applyName (p : Problem) (n_coll order : ℕ) : Except PErr Unit :=
  let ok {α : Type} (e : Except Err α) : Except PErr Unit := match e with
    | .ok _ => .ok ()
    | .error .valueError => .error .value
    | .error .notImplemented => .error .notImplemented
  match p.cls with
  | .equispaced =>
    if p.scheme ∈ ["trapz", "trapz_mod", "trapz_n", "hs", "hs_mod", "hs_parab", "hs_mod_parab", "hsj", "hsj_parab",
      "hsj_parab_mod", "hsn", "hsn_parab"] then .ok () else .error .key
  | .pseudo => do
    ok (collIndicesFromNodes p.scheme)
    let n ← match nColToNNodes p.scheme n_coll with
      | .ok n => .ok n
      | .error _ => .error .notImplemented
    ok (collPoints n_coll p.scheme)
    ok (nodePoints n p.scheme)
  | .bu => do
    ok (collIndices p.scheme)
    ok (buConstructionPoints n_coll p.scheme order)
    ok (buCollPoints n_coll p.scheme order)
  | .td => do
    ok (collIndices p.scheme)
    ok (tdConstructionPoints n_coll p.scheme order)
    ok (buCollPoints n_coll p.scheme order)
  | .multi => do
    ok (collPoints n_coll p.scheme order)
    ok (collIndices p.scheme)
    if p.mode = "ph top-down pseudospectral" ∨ p.mode = "ph bottom-up pseudospectral" ∨ p.mode = "ph pseudospectral" then
      .ok () else .error .value

/-! ### Functions stored in the dynamics object -/

/-- `_Explicit_Dynamics.dynamic_setup`, opti.py 3570-3588 (and 3621-3648): the functions made for the first problem are stored in
the object `LM` and used from then on. `build` makes the function for the given `u_vars`; the result is the function used by the
problem and the new content of the object. -/
def dynamicSetup {V F : Type} (build : V → F) (stored : Option F) (u_vars : V) : F × Option F :=
  match stored with
  | some f => (f, stored)
  | none => (build u_vars, some (build u_vars))

end Chords.Problem
