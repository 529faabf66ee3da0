import Verif.Model.Interpolation
import Verif.Model.Adaptive
import Verif.Model.PhLayout
import Verif.Model.NumTools

/-! # The errors that guide the refinement of the mesh
chords/adaptive.py 27-40 (`calc_test_point_arr`), 43-71 (`analyze_res_err`), 74-99 (`max_err`), 211-248 (`analyze_ph_run`). -/

namespace Chords.MeshErr
open Chords.PsInterp Chords.BuTdInterp Chords.Interpolation Chords.TimeScale

/-- The results of a problem in segments: `res`, the key "point_structure", and the keys that adaptive.py adds to `res["error"]`. -/
structure SegRes where
  res : Res
  point_structure : List ℕ
  t_err : Option (List ℝ) := none
  t_err_list : Option (List (List ℝ)) := none
  dyn_err_interp_list : Option (List Arr2) := none
  max_q : Option (List ℝ) := none
  max_abs_err : Option (List ℝ) := none
  max_rel_err : Option (List ℝ) := none

/-- `calc_test_point_arr`, adaptive.py 27-40. -/
noncomputable def calcTestPointArr (r : SegRes) : Except PsErr (List (List ℝ)) := do
  let new_point_str := r.point_structure.map (· + 1)
  let s ← need r.res.segs
  (List.range s.n_segments).mapM fun seg_ii => do
    let t0 ← getE s.t_knot_ext seg_ii
    let t1 ← getE s.t_knot_ext (seg_ii + 1)
    let N ← getE new_point_str seg_ii
    let coll ← lift (Points.collPoints N r.res.scheme)
    return coll.map fun τ => tauToT τ t0 t1

/-- `analyze_res_err`, adaptive.py 43-71: what it returns and the results after the call. The number of instants, `None` in the code, is not
used because the instants are given. With `save_in_res` the dictionary `res["error"]` is a new one. -/
noncomputable def analyzeResErr (elib : (d : ℕ) → Interp.Lib d Row) (lib : PsInterp.Lib) (r : SegRes) (F : Row → Row → Row)
    (save_in_res : Bool) : Except PsErr ((List (List ℝ) × List Arr2) × SegRes) := do
  let new_point_str := r.point_structure.map (· + 1)
  let s ← need r.res.segs
  let test_points_arr ← calcTestPointArr r
  let (err, res) ← dynamicErrors elib lib r.res F "q" 2 2 none none 0 save_in_res (.lists test_points_arr)
  let dyn_err ← need (err.get "dyn_err_interp")
  if test_points_arr = [] then throw .value
  let t_err := test_points_arr.flatten
  let lens ← (List.range s.n_segments).mapM fun seg_ii => getE new_point_str seg_ii
  let dyn_err_list := (Adaptive.splitErr lens dyn_err.rows).map fun l => (⟨dyn_err.width, l⟩ : Arr2)
  return ((test_points_arr, dyn_err_list),
    if save_in_res then ⟨res, r.point_structure, some t_err, some test_points_arr, some dyn_err_list, none, none, none⟩
    else { r with res := res })

/-- `npmax(npabs(a))`. -/
noncomputable def absMax (a : Arr2) : Except PsErr ℝ :=
  match a.rows.flatMap fun row => (List.range a.width).map fun c => |row c| with
  | [] => .error .value
  | e :: es => .ok (es.foldl max e)

/-- The quotient of two arrays of one dimension, as numpy broadcasts them. -/
noncomputable def quotient (a b : List ℝ) : Except PsErr (List ℝ) :=
  if a.length = b.length then .ok (List.zipWith (· / ·) a b)
  else match a, b with
    | [x], _ => .ok (b.map fun y => x / y)
    | _, [y] => .ok (a.map fun x => x / y)
    | _, _ => .error .value

/-- `max_err`, adaptive.py 74-99. Results that are changed before an exception are left out. -/
noncomputable def maxErr (elib : (d : ℕ) → Interp.Lib d Row) (lib : PsInterp.Lib) (r : SegRes) :
    Except PsErr (List ℝ × SegRes) := do
  let s ← need r.res.segs
  let err_list ← need r.dyn_err_interp_list
  let test_points_arr ← need r.t_err_list
  let (interpolations, res) ← interpolation elib lib r.res 2 2 none none 0 false (.lists test_points_arr)
  let q_list ← need (interpolations.list "q_list")
  let q_list_max ← q_list.mapM absMax
  let max_err_list ← (List.range s.n_segments).mapM fun seg_ii => do absMax (← getE err_list seg_ii)
  let max_err_rel ← quotient max_err_list (q_list_max.map fun q => 1 + q)
  return (max_err_rel, { r with
    res := res, max_q := some q_list_max, max_abs_err := some max_err_list, max_rel_err := some max_err_rel })

/-- An entry of the list made by `adaptive_refinement_system`. -/
structure Case where
  res : Res
  cost : ℝ
  cpudt : ℝ
  iter_count : ℕ
  n_coll_total : ℕ

structure Summary where
  cost : List ℝ
  cpudt : List ℝ
  iter_count : List ℕ
  err_2_acum : List (List ℝ)
  err_q_acum : List (List ℝ)
  N_arr : List ℕ

/-- `total_state_error`, analysis.py 986-988: one number for each column. -/
noncomputable def totalStateError (t : List ℝ) (a : Arr2) : Except PsErr (List ℝ) :=
  (List.range a.width).mapM fun c => match NumTools.trapz (a.rows.map fun r => |r c|) t with
    | .ok v => .ok v
    | .error _ => .error .value

/-- `analyze_ph_run`, adaptive.py 211-248. That `dynamic_errors` stores its errors in the results is left out, as are the exceptions of `array` for
results with different numbers of coordinates. -/
noncomputable def analyzePhRun (elib : (d : ℕ) → Interp.Lib d Row) (lib : PsInterp.Lib) (run : List Case) (F : Row → Row → Row)
    (n_interp : ℕ) : Except PsErr Summary := do
  let t_arr := Ph.linspace 0 2 n_interp
  let errs ← run.mapM fun case => do
    let (errors, _) ← dynamicErrors elib lib case.res F "q" 2 2 none none n_interp true .absent
    let dyn_err_2 ← need (errors.get "dyn_err_interp")
    let dyn_err_q ← need (errors.get "compat_err_1_interp")
    let tot_dyn_err_2 ← totalStateError t_arr dyn_err_2
    let tot_dyn_err_q ← totalStateError t_arr dyn_err_q
    return (tot_dyn_err_2, tot_dyn_err_q)
  return ⟨run.map (·.cost), run.map (·.cpudt), run.map (·.iter_count), errs.map (·.1), errs.map (·.2), run.map (·.n_coll_total)⟩

end Chords.MeshErr
