import Verif.Model.MeshErr

/-! # The refinement of a mesh with the errors of the solutions
chords/adaptive.py 102-105 (`add_points`), 139-208 (`adaptive_refinement_system`), with the functions that it calls as modelled in
`Verif.Model.MeshErr` and `Verif.Model.Adaptive`. -/

namespace Chords.RefineSys
open Chords.PsInterp Chords.BuTdInterp Chords.Interpolation Chords.MeshErr Chords.Adaptive

/-- Where an exception comes from: the line that is printed, the user's problem, `analyze_res_err` and `max_err`, `add_points`, `calc_new_struct`. -/
inductive SysErr
  | print
  | problem (e : Err)
  | analysis (e : PsErr)
  | increments
  | mesh (e : Err)

/-- One entry of `add_points`, adaptive.py 102-105, with `log_base`, util.py 580-581. `bad` is the integer that numpy makes of an infinite or undefined
number (on most machines the smallest one): the logarithm of zero or of a negative number, and the division by the logarithm of one. The logarithm
of zero points is minus infinity and gives zero, as `Real.log 0 = 0` does here. -/
noncomputable def increment (bad : ℤ) (eps e : ℝ) (p : ℕ) : ℤ :=
  if eps = 0 ∨ e / eps ≤ 0 ∨ p = 1 then bad else addPoints eps e p

/-- `add_points`, adaptive.py 102-105, with the broadcasting of numpy; `none` is ValueError. -/
noncomputable def addPointsArr (bad : ℤ) (eps : ℝ) (m_err : List ℝ) (points : List ℕ) : Option (List ℤ) :=
  if m_err.length = points.length then some (List.zipWith (increment bad eps) m_err points)
  else match m_err, points with
    | [e], _ => some (points.map (increment bad eps e))
    | _, [p] => some (m_err.map fun e => increment bad eps e p)
    | _, _ => none

/-- The user's problem, called with the knots and the numbers of points, of which the number `N` is the sum; it may depend on the iteration, as it can
keep a state. `.runtime` is a RuntimeError. -/
abbrev Problem := ℕ → List ℝ → List ℤ → Except Err SegRes

open Classical in
/-- The loop of `adaptive_refinement_system`, adaptive.py 168-206. `fuel` iterations are left, `iter` is the loop variable, `run` is `ph_run`. As in
`Adaptive.refineLoop`, a line that is printed raises AttributeError. The sums of numbers of points do not overflow. -/
noncomputable def refineLoop (elib : (d : ℕ) → Interp.Lib d Row) (lib : Lib) (problem : Problem) (F : Row → Row → Row) (bad min_p max_p : ℤ) (eps : ℝ)
    (maxColl : ℤ) (silent : Bool) : (fuel iter : ℕ) → List ℝ → List ℤ → List SegRes → Except SysErr (List SegRes)
  | 0, _, _, _, run => .ok run
  | fuel + 1, iter, knots, points, run =>
    if silent = false then .error .print
    else match problem iter knots points with
      | .error .runtime =>
        refineLoop elib lib problem F bad min_p max_p eps maxColl silent fuel (iter + 1) knots (points.map (· + 1)) run
      | .error e => .error (.problem e)
      | .ok r0 => match analyzeResErr elib lib r0 F true with
        | .error e => .error (.analysis e)
        | .ok (_, r1) => match maxErr elib lib r1 with
          | .error e => .error (.analysis e)
          | .ok (rel, r) =>
            if ∀ e ∈ rel, e < eps then .ok (run ++ [r])
            else match addPointsArr bad eps rel r.point_structure with
              | none => .error .increments
              | some addP => match r.res.segs with
                | none => .error (.analysis .key)
                | some s => match calcNewStruct min_p max_p points addP s.t_knot_ext with
                  | .error e => .error (.mesh e)
                  | .ok (knots', points') =>
                    if points'.sum > maxColl then .ok (run ++ [r])
                    else refineLoop elib lib problem F bad min_p max_p eps maxColl silent fuel (iter + 1) knots' points' (run ++ [r])

/-- `adaptive_refinement_system`, adaptive.py 139-208. The argument `problem_kwargs` is not used by the code. -/
noncomputable def refineSystem (elib : (d : ℕ) → Interp.Lib d Row) (lib : Lib) (problem : Problem) (F : Row → Row → Row) (bad : ℤ) (knots : List ℝ)
    (points : List ℤ) (min_p max_p : ℤ) (eps : ℝ) (maxIter : ℕ) (maxColl : ℤ) (silent : Bool) : Except SysErr (List SegRes) :=
  refineLoop elib lib problem F bad min_p max_p eps maxColl silent maxIter 0 knots points []

end Chords.RefineSys
