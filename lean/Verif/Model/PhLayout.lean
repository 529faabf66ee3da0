import Mathlib.Data.Real.Basic
import Mathlib.Algebra.BigOperators.Group.Finset.Basic
import Mathlib.Data.Fintype.Basic
import Verif.Spec.PyBind
import Verif.Model.TimeScale

/-! # Segmented (ph) problems: structure check, array layout, time arrays, costs
chords/opti.py 2286-2727 and the segmented branch of `interpolation`, chords/analysis.py 594-646 -/

namespace Chords.Ph
open Finset Chords.Spec

/-- What can be raised. -/
inductive Err
  | assertion | valueError | typeError | casadiShape
  deriving DecidableEq

/-- An entry of `point_structure` as given by the user: whether `is_integer` accepts it, and its value as
`int`. `is_integer` (util.py 572-577) is `int(n) == n`. -/
abbrev PointEntry := ℚ

/-- `is_integer`, util.py 572-577, for numbers. -/
def isInteger (n : PointEntry) : Bool := n.den == 1

/-- `_check_structure_consistency`, opti.py 2287-2315, in source order. The shape tests of one-dimensional
arrays are not modelled (the arguments are lists). Returns the knots and the integer structure. -/
noncomputable def checkStructure (t_start t_end : ℝ) (knots : List ℝ) (points : List PointEntry) :
    Except Err (List ℝ × List ℤ) :=
  let n_segments := knots.length + 1
  open Classical in
  let assert (c : Prop) (next : Except Err (List ℝ × List ℤ)) := if c then next else .error .assertion
  assert (∀ k ∈ knots, k > t_start) <|
  assert (∀ k ∈ knots, k < t_end) <|
  assert (∀ kk ∈ knots.dropLast.zip knots.tail, kk.1 ≤ kk.2) <|
  assert (∀ p ∈ points, isInteger p = true) <|
  assert (points.length = n_segments) <|
  .ok (knots, points.map (·.num))

/-- `t_knots_and_extremes_arr`, opti.py 2437-2440. -/
def knotsExt (t_start t_end : ℝ) (knots : List ℝ) : List ℝ := t_start :: (knots ++ [t_end])

/-- `h_arr`, opti.py 2442. -/
noncomputable def hArr (ext : List ℝ) : List ℝ := List.zipWith (fun b a => b - a) ext.tail ext.dropLast

/-- The index loop of `opti_setup`, opti.py 2400-2408 and 2427-2432: for each segment the rows of its
collocation block and the row after it. `point_structure` entries are taken non-negative here (negative
entries pass the check; see C69). -/
def segRows : ℕ → List ℕ → List (List ℕ × ℕ)
  | _, [] => []
  | ii_inf, p :: ps =>
    let ii_sup := ii_inf + p
    (List.range' ii_inf (ii_sup - ii_inf), ii_sup) :: segRows (ii_sup + 1) ps

/-- `n_arr`, opti.py 2366. -/
def nArr (points : List ℕ) : ℕ := points.sum + points.length + 1

/-- `t_coll_list`, opti.py 2453-2460. `coll p` is `coll_points(p, scheme, precission, order)`. -/
noncomputable def tColl (coll : ℕ → List ℝ) : List ℕ → List ℝ → List (List ℝ)
  | p :: ps, a :: b :: ts => (coll p).map (fun τ => TimeScale.tauToT τ a b) :: tColl coll ps (b :: ts)
  | _, _ => []

/-- `t_arr` after its first entry, opti.py 2449-2468. -/
noncomputable def tArrTail (coll : ℕ → List ℝ) : List ℕ → List ℝ → List ℝ
  | p :: ps, a :: b :: ts =>
    (coll p).map (fun τ => TimeScale.tauToT τ a b) ++ b :: tArrTail coll ps (b :: ts)
  | _, _ => []

/-- `t_arr`, opti.py 2449-2468. -/
noncomputable def tArr (coll : ℕ → List ℝ) (points : List ℕ) (ext : List ℝ) : List ℝ :=
  ext.head?.toList ++ tArrTail coll points ext

/-- `t_coll_since_knot_list`, opti.py 2469-2470. -/
noncomputable def tCollSinceKnot (coll : ℕ → List ℝ) (points : List ℕ) (h : List ℝ) : List (List ℝ) :=
  List.zipWith (fun p h => (coll p).map (fun τ => TimeScale.tauToT τ 0 h)) points h

/-! ## Costs -/

/-- Python objects passed to the cost builder. -/
inductive PyObj
  | str (s : String) | int (n : ℤ) | bool (b : Bool)
  deriving DecidableEq

/-- Truth value. -/
def PyObj.truthy : PyObj → Bool
  | .str s => s ≠ ""
  | .int n => n ≠ 0
  | .bool b => b

/-- Use as a number: `False` is 0 and `True` is 1. -/
def PyObj.asInt : PyObj → Option ℤ
  | .str _ => none
  | .int n => some n
  | .bool b => some (if b then 1 else 0)

/-- Signature of `_get_cost_obj_quad_int_cas`, opti.py 345. -/
def quadIntSig : List (Param PyObj) :=
  [⟨"scheme", .pos, none⟩, ⟨"N", .pos, none⟩, ⟨"order", .pos, some (.int 2)⟩,
   ⟨"squared", .pos, some (.bool false)⟩, ⟨"mode", .pos, some (.str "u")⟩]

/-- `weights N scheme order mode i` is entry `i` of `get_weights(N, scheme, order, mode)`. -/
abbrev Weights := ℕ → String → ℤ → String → ℕ → ℝ

/-- The body of `_get_cost_obj_quad_int_cas`, opti.py 350-368, after binding: number of rows accepted and the
function of one column. A mode other than "u" and "x" raises `ValueError` in `get_weights` (util.py 561).
The `BU_`/`TD_` prefix is taken as already removed. -/
noncomputable def quadIntBody (w : Weights) :
    List (String × Bound PyObj) → Except Err (ℕ × ((ℕ → ℝ) → ℝ))
  | [("scheme", .one (.str scheme)), ("N", .one (.int N)), ("order", .one order),
      ("squared", .one squared), ("mode", .one (.str mode))] =>
    match order.asInt with
    | none => .error .typeError
    | some o =>
      if mode = "u" ∨ mode = "x" then
        let exp := if squared.truthy then 2 else 1
        .ok (N.toNat, fun u => ∑ i ∈ range N.toNat, w N.toNat scheme o mode i * u i ^ exp)
      else .error .valueError
  | _ => .error .typeError

/-- A call of `_get_cost_obj_quad_int_cas`. -/
noncomputable def quadIntCas (w : Weights) (args : List PyObj) (kws : List (String × PyObj)) :
    Except Err (ℕ × ((ℕ → ℝ) → ℝ)) :=
  match pyBind quadIntSig args kws with
  | none => .error .typeError
  | some b => quadIntBody w b

/-- `cas.sum2(f_u_cost(block))` for a block of `rows` rows and `m` columns: the casadi function is applied
to each column; a number of rows different from the declared one raises. -/
noncomputable def applyCost {m : ℕ} (f : ℕ × ((ℕ → ℝ) → ℝ)) (rows : ℕ) (block : ℕ → Fin m → ℝ) : Except Err ℝ :=
  if rows = f.1 then .ok (∑ j, f.2 (fun i => block i j)) else .error .casadiShape

/-- The cost loop of `quad_cost`, opti.py 2716-2724 with the slice loop 2711-2714 merged: `off` is `ii_inf`,
`mode` "u" has `d1 = d2 = 0`, "x" has `d1 = 2`, `d2 = -1`. The slices have full length because
`arr` has the number of rows that was tested. -/
noncomputable def quadCostLoop {m : ℕ} (w : Weights) (scheme mode : String) (squared : Bool)
    (arr : ℕ → Fin m → ℝ) : ℕ → List ℕ → List ℝ → Except Err ℝ
  | off, p :: ps, h :: hs => do
    let d1 := if mode = "x" then 2 else 0
    let sup := off + p + d1
    let f ← quadIntCas w [.str scheme, .int p, .bool squared, .str mode] []
    let c ← applyCost f (sup - off) (fun i => arr (off + i))
    let rest ← quadCostLoop w scheme mode squared arr (if mode = "x" then sup - 1 else sup) ps hs
    .ok (h * c + rest)
  | _, _, _ => .ok 0

/-- `_multi_pseudospectral.quad_cost`, opti.py 2663-2727: the cost. `n` is the number of rows of `arr`. -/
noncomputable def quadCost {m : ℕ} (w : Weights) (scheme : String) (points : List ℕ) (h : List ℝ)
    (n : ℕ) (arr : ℕ → Fin m → ℝ) (squared : Bool) : Except Err ℝ :=
  if n = points.sum then quadCostLoop w scheme "u" squared arr 0 points h
  else if n = nArr points then quadCostLoop w scheme "x" squared arr 0 points h
  else .error .valueError

/-- `_multi_pseudospectral.u_sq_cost`, opti.py 2645-2661: the collocation blocks are `u_like_x[rows]` with the
rows of `segRows`. -/
noncomputable def uSqCostLoop {m : ℕ} (w : Weights) (scheme : String) (u_like_x : ℕ → Fin m → ℝ) :
    List (List ℕ × ℕ) → List ℕ → List ℝ → Except Err ℝ
  | (rows, _) :: rs, p :: ps, h :: hs => do
    let f ← quadIntCas w [.str scheme, .int p] [("squared", .bool true)]
    let c ← applyCost f rows.length (fun i => u_like_x (rows.getD i 0))
    let rest ← uSqCostLoop w scheme u_like_x rs ps hs
    .ok (h * c + rest)
  | _, _, _ => .ok 0

noncomputable def uSqCost {m : ℕ} (w : Weights) (scheme : String) (points : List ℕ) (h : List ℝ)
    (u_like_x : ℕ → Fin m → ℝ) : Except Err ℝ :=
  uSqCostLoop w scheme u_like_x (segRows 1 points) points h

/-! ## Interpolation over segments -/

/-- `linspace(a, b, n)`. -/
noncomputable def linspace (a b : ℝ) (n : ℕ) : List ℝ :=
  if n = 1 then [a] else (List.range n).map fun i : ℕ => a + (i : ℝ) * ((b - a) / ((n : ℝ) - 1))

open Classical in
/-- `searchsorted(arr, v)`, side "left", on a sorted array: number of entries below `v`. -/
noncomputable def searchsorted (arr : List ℝ) (v : ℝ) : ℕ := (arr.filter (fun x => decide (x < v))).length

/-- `_jj[ii + 1] - _jj[ii] + 1` along the list, analysis.py 612-613 (integers). -/
def midLens : List ℤ → List ℤ
  | a :: b :: rest => (b - a + 1) :: midLens (b :: rest)
  | _ => []

/-- `_in_len`, analysis.py 610-616. -/
noncomputable def inLens (t0 tf : ℝ) (n : ℕ) (knots : List ℝ) : List ℤ :=
  let t_arr := linspace t0 tf n
  let jj : List ℤ := knots.map fun k => (searchsorted t_arr k : ℤ)
  match jj with
  | [] => [(n : ℤ)]
  | j0 :: rest => (j0 + 1) :: (midLens (j0 :: rest) ++ [(n : ℤ) - (j0 :: rest).getLastD 0])

/-- The concatenation of the per-segment arrays, analysis.py 634-642, when no times are given
(`conc_end = -1`): all but the last lose their last sample. -/
def joinSegments {A : Type} : List (List A) → List A
  | [] => []
  | [s] => s
  | s :: ss => s.dropLast ++ joinSegments ss

/-- The time arrays of the segments: each segment is interpolated with `linspace` between its own ends,
analysis.py 395 applied to the sub-problem, with the length found above (the sub-problem times start and
end at the knots for every scheme group that `_generate_sub_problems`, analysis.py 299-364, extends). -/
noncomputable def segTimes : List ℤ → List ℝ → List (List ℝ)
  | l :: ls, a :: b :: ts => linspace a b l.toNat :: segTimes ls (b :: ts)
  | _, _ => []

/-- The time array returned by `interpolation` on a segmented problem, key "t". -/
noncomputable def interpTimes (t0 tf : ℝ) (n : ℕ) (knots : List ℝ) : List ℝ :=
  joinSegments (segTimes (inLens t0 tf n knots) (knotsExt t0 tf knots))

end Chords.Ph
