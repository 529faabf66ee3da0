import Verif.Model.Problem

/-! # The attributes of the problem object
chords/opti.py 413-600 (`_Opti_Problem`), 603-3080 (the classes of the schemes), 3548-3792 (dynamics), 3795-4048 (initial guesses): which attributes of `self` each
method reads and writes.

Simplifications. A method reads all its attributes and then writes; those that it writes before it reads them are not in its list of reads. A call that raises may
have written some of its attributes. Attributes read in a branch on `scheme_mode` or on the class count when the problem takes that branch; other branches
are taken as possible. Attributes of the object `LM` are not considered. -/

namespace Chords.Attrs
open Chords.Problem

/-- The methods. -/
inductive Call
  | dynamic | setup | apply | uSqCost | quadCost | trapzCost | sqCost | guess | solve
  deriving DecidableEq

/-- `_Opti_Problem.__init__`, opti.py 413-459. -/
def initAttrs : List String := ["scheme_mode", "LM", "params", "scheme", "ini_guess", "t_start", "t_end", "verbose", "silent"]

/-- Which methods a problem has: `trapz_cost` is missing from `_Equispaced` (opti.py 1836-2284), which alone has `sq_cost` (2022-2053). A problem without class of
dynamics has no `dynamic_setup`. -/
def has (p : Problem) : Call → Bool
  | .dynamic => p.dyn.isSome
  | .trapzCost => p.cls != .equispaced
  | .sqCost => p.cls == .equispaced
  | _ => true

/-- Reads of `dynamic_setup`, opti.py 3549-3591, 3595-3656 and 3660-3792. -/
def readsDynamic : Option DynClass → List String
  | some .func => ["params", "LM"]
  | some _ => ["LM", "silent", "verbose"]
  | none => []

/-- Reads of `opti_setup`, opti.py 604-838, 1151-1290, 1501-1642, 1837-1978, and 2288-2621 with `_check_structure_consistency`. -/
def readsSetup : SchemeClass → List String
  | .multi => ["n_q", "n_u", "scheme", "t_start", "t_end", "order", "verbose", "n_lambdas", "scheme_mode"]
  | _ => ["scheme", "t_start", "t_end", "order", "n_q", "n_u", "verbose", "n_lambdas"]

/-- Writes of `opti_setup`. -/
def writesSetup : SchemeClass → List String
  | .pseudo => ["n_coll", "coll_index", "opti", "n_nodes", "n_arr", "D_mat", "q_and_ders_opti", "q_and_ders_node_opti", "q_and_ders_names", "opti_arrs", "opti_points"]
  | .bu => ["n_coll", "precission", "coll_index", "opti", "n_arr", "q_and_ders_names", "opti_arrs", "opti_points"]
  | .td => ["n_coll", "precission", "coll_index", "opti", "n_arr", "q_and_ders_names", "opti_arrs", "opti_points"]
  | .equispaced => ["N", "opti", "q_and_ders_names", "opti_arrs", "opti_points"]
  | .multi => ["n_segments", "point_structure", "n_arr", "n_coll_total", "precission", "opti", "t_knots_and_extremes_arr", "h_arr", "opti_arrs", "opti_lists",
      "opti_points", "q_and_ders_names"]

/-- Reads of `apply_scheme`, opti.py 945-1147, 1409-1497, 1761-1833, 2120-2284 and 2771-3080. -/
def readsApply : SchemeClass → List String
  | .pseudo => ["scheme", "n_coll", "dyn_f_restr", "opti_arrs", "params", "q_and_ders_opti", "q_and_ders_node_opti", "D_mat", "t_start", "t_end", "n_nodes", "opti",
      "order"]
  | .equispaced => ["scheme", "N", "q_and_ders_names", "t_end", "t_start", "dyn_f_restr", "opti_arrs", "params", "order", "n_q", "opti"]
  | .multi => ["scheme", "scheme_mode", "q_and_ders_names", "opti_points", "opti_arrs", "opti_lists", "order", "params", "n_segments", "n_q", "n_coll_total",
      "point_structure", "opti", "dyn_f_restr", "h_arr", "precission"]
  | _ => ["scheme", "n_arr", "n_coll", "order", "t_end", "t_start", "dyn_f_restr", "opti_arrs", "params", "coll_index", "opti_points", "precission", "opti"]

/-- Reads of `quad_cost`, opti.py 840-880, 1325-1365, 1677-1717, 1980-2020 and 2663-2727. -/
def readsQuad : SchemeClass → List String
  | .equispaced => ["t_end", "t_start", "N", "opti"]
  | .multi => ["n_coll_total", "n_arr", "h_arr", "n_segments", "scheme", "point_structure", "opti"]
  | _ => ["t_end", "t_start", "n_coll", "n_arr", "scheme", "order", "opti"]

/-- Reads of `u_sq_cost`, opti.py 882-901 (which calls `quad_cost`), 1292-1323, 1644-1675, 2055-2118 and 2623-2661. -/
def readsUSq : SchemeClass → List String
  | .pseudo => "opti_arrs" :: readsQuad .pseudo
  | .equispaced => ["opti_arrs", "t_end", "t_start", "scheme", "opti", "N"]
  | .multi => ["opti_lists", "h_arr", "n_segments", "scheme", "point_structure", "opti"]
  | _ => ["opti_arrs", "t_end", "t_start", "scheme", "n_coll", "opti"]

/-- Reads of `trapz_cost`, opti.py 903-943, 1367-1407, 1719-1759 and 2729-2769: the same in all classes. -/
def readsTrapz : List String := ["t_end", "t_start", "n_arr", "n_coll", "scheme", "order", "opti"]

/-- Reads of `initial_guess`, opti.py 3795-4048, with `_ini_guess_start`, 461-474. -/
def readsGuess (p : Problem) : List String :=
  ["opti_arrs", "order", "opti", "scheme_mode"] ++
  match p.ini with
  | .zero => []
  | .custom => ["scheme", "t_start", "t_end"]
  | _ => ["scheme", "t_start", "t_end"] ++
    (if p.mode = "equispaced" then ["N"]
      else if p.mode ∈ ["bottom-up pseudospectral", "top-down pseudospectral", "pseudospectral", "ph bottom-up pseudospectral", "ph top-down pseudospectral",
        "ph pseudospectral"] then ["n_arr"]
      else [])

/-- Reads of `_save_results`, opti.py 476-518. -/
def readsSave (p : Problem) : List String :=
  ["scheme_mode", "n_q", "n_u", "order", "params", "scheme", "opti_arrs"] ++
  (if p.mode = "equispaced" then ["N"]
    else if p.mode ∈ ["bottom-up pseudospectral", "top-down pseudospectral", "pseudospectral"] then ["n_coll"]
    else if take3 p.mode = "ph " then ["h_arr", "point_structure", "n_segments", "n_coll_total", "opti_lists"]
    else [])

/-- What a method reads. `simple_solve` and `chrono_solve`, opti.py 520-601: `self.cost` is compared with `None`. -/
def reads (p : Problem) : Call → List String
  | .dynamic => readsDynamic p.dyn
  | .setup => readsSetup p.cls
  | .apply => readsApply p.cls
  | .uSqCost => readsUSq p.cls
  | .quadCost => readsQuad p.cls
  | .trapzCost => readsTrapz
  | .sqCost => ["t_end", "t_start", "N", "opti"]
  | .guess => readsGuess p
  | .solve => ["opti", "cost"] ++ readsSave p

/-- What a method writes. -/
def writes (p : Problem) : Call → List String
  | .dynamic => ["n_q", "params_sym", "dyn_f_restr", "dyn_g_restr", "n_u", "n_lambdas", "order"]
  | .setup => writesSetup p.cls
  | .uSqCost => ["cost"]
  | .quadCost => ["cost"]
  | .trapzCost => ["cost"]
  | .sqCost => ["cost"]
  | .solve => ["sol", "results"]
  | _ => []

/-- The histories of a problem: the attributes that it has after some calls, and the calls that returned. -/
inductive Hist (p : Problem) : List String → List Call → Prop
  | new : Hist p initAttrs []
  | ok {attrs : List String} {done : List Call} (m : Call) : Hist p attrs done → has p m = true → reads p m ⊆ attrs → Hist p (attrs ++ writes p m) (m :: done)
  | raised {attrs : List String} {done : List Call} (m : Call) (w : List String) : Hist p attrs done → w ⊆ writes p m → Hist p (attrs ++ w) done

end Chords.Attrs
