import Mathlib.Data.Real.Basic
import Mathlib.Algebra.Order.Floor.Ring
import Mathlib.Analysis.SpecialFunctions.Log.Basic
import Verif.Model.TimeScale

/-!
# Model of chords/adaptive.py

Times are real numbers (floats without rounding).  Arrays of collocation-point numbers are lists of
integers, because nothing in the code keeps them positive.
-/

namespace Chords.Adaptive

/-- Exceptions that can leave the modelled functions. -/
inductive Err
  | assertion      -- AssertionError
  | index          -- IndexError
  | overflow       -- OverflowError / ValueError in `int(ceil(inf or nan))`
  | value          -- ValueError of `linspace`
  | attribute      -- AttributeError
  | runtime        -- RuntimeError
  | other          -- any other exception raised by the user's problem
  deriving DecidableEq

/-- `linspace(a, b, n + 1)[1:]` for natural `n` (numpy). -/
noncomputable def linspaceTail (a b : ℝ) (n : ℕ) : List ℝ :=
  (List.range n).map (fun i => a + (b - a) * ((i + 1 : ℕ) : ℝ) / (n : ℝ))

/-- One pass of the loop of `calc_new_struct`, adaptive.py 119-134: the knots and the point numbers
appended for one old segment. -/
noncomputable def newSegment (min_p max_p : ℤ) (new_n : ℤ) (min_t max_t : ℝ) :
    Except Err (List ℝ × List ℤ) :=
  if new_n ≤ max_p then .ok ([max_t], [new_n])
  else if max_p = 0 then .error .overflow
  else
    let div_n : ℤ := ⌈(new_n : ℚ) / max_p⌉
    if div_n = 0 then .error .overflow
    else
      let each : ℤ := max ⌈(new_n : ℚ) / div_n⌉ min_p
      if div_n + 1 < 0 then .error .value
      else .ok (linspaceTail min_t max_t div_n.toNat, List.replicate div_n.toNat each)

/-- The loop over old segments, adaptive.py 119-134. -/
noncomputable def newStructLoop (min_p max_p : ℤ) : List ℤ → List ℝ → Except Err (List ℝ × List ℤ)
  | [], _ => .ok ([], [])
  | n :: ns, t0 :: t1 :: ts => do
    let (k, p) ← newSegment min_p max_p n t0 t1
    let (ks, ps) ← newStructLoop min_p max_p ns (t1 :: ts)
    .ok (k ++ ks, p ++ ps)
  | _ :: _, _ => .error .index

/-- `calc_new_struct`, adaptive.py 108-136.  `new_t_knot_ext[1:-1]` drops the first entry and the
last. -/
noncomputable def calcNewStruct (min_p max_p : ℤ) (p_str add_p : List ℤ) (t_knot_ext : List ℝ) :
    Except Err (List ℝ × List ℤ) :=
  if p_str.length ≠ add_p.length then .error .assertion
  else match t_knot_ext with
    | [] => .error .index
    | t0 :: ts => do
      let (ks, ps) ← newStructLoop min_p max_p (List.zipWith (· + ·) p_str add_p) (t0 :: ts)
      .ok (((t0 :: ks).drop 1).dropLast, ps)

/-- `add_points`, adaptive.py 102-105 with `log_base`, util.py 580-581 (natural logarithms).  Only for
positive errors and at least two points; otherwise numpy produces inf or nan, which is not modelled. -/
noncomputable def addPoints (eps relErr : ℝ) (points : ℤ) : ℤ :=
  ⌈Real.log (relErr / eps) / Real.log points⌉

/-- What the loop needs from one successful solve: the structure it was called with, the extended
knots, the relative errors and the increments computed from them. -/
structure Sol where
  points : List ℤ
  knots : List ℝ
  t_knot_ext : List ℝ
  relErr : List ℝ
  addP : List ℤ

/-- The user's problem: may depend on the iteration (any history), on knots and on points; `.runtime`
is a RuntimeError. -/
abbrev Problem := ℕ → List ℝ → List ℤ → Except Err Sol

/-- `npmax(arr) < eps` for a non-empty array (there is at least one segment). -/
def converged (eps : ℝ) (s : Sol) : Prop := ∀ e ∈ s.relErr, e < eps

open Classical in
/-- The loop of `adaptive_refinement_system`, adaptive.py 168-206.  `fuel` iterations are left, `iter`
is the loop variable, `run` is `ph_run`.  With `silent=False` the first print evaluates
`time.strftime` on the *function* `time` (adaptive.py 24, 173): AttributeError. -/
noncomputable def refineLoop (problem : Problem) (min_p max_p : ℤ) (eps : ℝ) (maxColl : ℤ)
    (silent : Bool) : (fuel iter : ℕ) → List ℝ → List ℤ → List Sol → Except Err (List Sol)
  | 0, _, _, _, run => .ok run
  | fuel + 1, iter, knots, points, run =>
    if silent = false then .error .attribute
    else match problem iter knots points with
      | .error .runtime =>
        refineLoop problem min_p max_p eps maxColl silent fuel (iter + 1) knots (points.map (· + 1)) run
      | .error e => .error e
      | .ok s =>
        if converged eps s then .ok (run ++ [s])
        else match calcNewStruct min_p max_p points s.addP s.t_knot_ext with
          | .error e => .error e
          | .ok (knots', points') =>
            if points'.sum > maxColl then .ok (run ++ [s])
            else refineLoop problem min_p max_p eps maxColl silent fuel (iter + 1) knots' points'
              (run ++ [s])

/-- `adaptive_refinement_system`, adaptive.py 139-208. -/
noncomputable def refine (problem : Problem) (knots : List ℝ) (points : List ℤ) (min_p max_p : ℤ)
    (eps : ℝ) (maxIter : ℕ) (maxColl : ℤ) (silent : Bool) : Except Err (List Sol) :=
  refineLoop problem min_p max_p eps maxColl silent maxIter 0 knots points []

/-- The slicing loop of `analyze_res_err`, adaptive.py 60-65: `dyn_err[i : i + len]`. -/
def splitErr {E : Type} : List ℕ → List E → List (List E)
  | [], _ => []
  | len :: lens, errs => errs.take len :: splitErr lens (errs.drop len)

/-- `calc_test_point_arr`, adaptive.py 27-40, for given collocation points `coll n` (pseudospectral.py
172-228) and `tau_to_t_points`, pseudospectral.py 400-428.  Missing knots (IndexError) end the list. -/
noncomputable def testPoints (coll : ℕ → List ℝ) : List ℕ → List ℝ → List (List ℝ)
  | p :: ps, t0 :: t1 :: ts =>
    (coll (p + 1)).map (fun τ => TimeScale.tauToT τ t0 t1) :: testPoints coll ps (t1 :: ts)
  | _, _ => []

end Chords.Adaptive
