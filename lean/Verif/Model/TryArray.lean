import Verif.Model.ArrayProgs

/-! # Functions of single samples on tables
chords/pseudospectral.py 1461-1477 and its use in 1878-1881. Arrays are those of Model/ArrayProgs.lean. -/

namespace Chords.TryArray
open ArrayProgs

/-- What NumPy functions take and return: numbers and arrays with one or two axes. -/
inductive Val
  | num (v : ℝ)
  | arr (c : Cell)

/-- `index`, `value` or `type` are the exceptions of the code itself, `own` is any exception of the function of the user. An array with three axes is not modelled. -/
inductive TErr | index | value | type | own | unmodelled
  deriving DecidableEq

/-- The function of the user with the parameters filled in. -/
abbrev UserF := Val → Val → Val → Except TErr Val

/-- `a[ii]` with `ii` not negative. -/
def Val.item : Val → ℕ → Except TErr Val
  | .num _, _ => .error .type
  | .arr c, i =>
    if c.two then if i < c.rows then .ok (.arr ⟨false, 1, c.cols, c.int, fun _ j => c.val i j⟩) else .error .index
    else if i < c.cols then .ok (.num (c.val 0 i)) else .error .index

/-- `squeeze`: the axes of size 1 are discarded. -/
def Val.squeeze : Val → Val
  | .num v => .num v
  | .arr c =>
    if c.two then
      if c.rows = 1 then if c.cols = 1 then .num (c.val 0 0) else .arr ⟨false, 1, c.cols, c.int, c.val⟩
      else if c.cols = 1 then .arr ⟨false, 1, c.rows, c.int, fun _ j => c.val j 0⟩
      else .arr c
    else if c.cols = 1 then .num (c.val 0 0) else .arr c

/-- The numbers of a list, if all are. -/
def nums : List Val → Option (List ℝ)
  | [] => some []
  | .num v :: l => (nums l).map (v :: ·)
  | .arr _ :: _ => none

/-- The arrays of a list, if all are and have one axis with `w` entries. -/
def vecs (w : ℕ) : List Val → Option (List Cell)
  | [] => some []
  | .num _ :: _ => none
  | .arr c :: l => if c.two = false ∧ c.cols = w then (vecs w l).map (c :: ·) else none

/-- `array(f_out)`, whose entries are here floats. Lists of numbers and arrays, or of arrays with several lengths, are a `ValueError`. -/
def fromList (l : List Val) : Except TErr Val :=
  match nums l with
  | some vs => .ok (.arr ⟨false, 1, vs.length, false, fun _ j => vs.getD j 0⟩)
  | none =>
    match l with
    | .arr c :: _ =>
      if c.two then .error .unmodelled
      else match vecs c.cols l with
        | some cs => .ok (.arr ⟨true, cs.length, c.cols, false, fun i j => ((cs[i]?).map fun d => d.val 0 j).getD 0⟩)
        | none => .error .value
    | _ => .error .value

/-- `q.shape[0]`. -/
def Val.size : Val → Except TErr ℕ
  | .num _ => .error .index
  | .arr c => .ok (if c.two then c.rows else c.cols)

/-- An iteration of the loop, lines 1468-1471. -/
def sample (function : UserF) (q v u : Val) (ii : ℕ) : Except TErr Val := do
  let a ← q.item ii
  let b ← v.item ii
  let c ← u.item ii
  let o ← function a b c
  return o.squeeze

/-- `try_array_f`, pseudospectral.py 1461-1477: `except` without a class catches every exception. -/
def tryF (function : UserF) (q v u : Val) : Except TErr Val :=
  match function q v u with
  | .ok o => .ok o
  | .error _ => do
    let n ← q.size
    let f_out ← (List.range n).mapM (sample function q v u)
    fromList f_out

/-- `v_arr_d - g_func(q_arr, v_arr, u_arr, params)`, pseudospectral.py 1880, and `q_arr_d_d - ...`, 1881, with arrays. -/
def residual (function : UserF) (d : Cell) (q v u : Val) : Except TErr Cell := do
  let g ← tryF function q v u
  let c := match g with
    | .num x => ⟨false, 1, 1, false, fun _ _ => x⟩
    | .arr c => c
  match bop .numpy (· - ·) d c with
  | .ok o => .ok o
  | .error _ => .error .value

end Chords.TryArray
