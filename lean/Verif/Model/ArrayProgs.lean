import Mathlib.Data.Real.Basic
import Mathlib.Data.Nat.Factorial.Basic
import Mathlib.Algebra.Order.Floor.Ring
import Mathlib.Algebra.Order.Archimedean.Real.Basic

/-! # Restrictions on arrays
The restriction functions of chords/piecewise.py 1172-1438 as programs on arrays: NumPy arrays, whose slices are views of the same memory,
and CasADi matrices, whose slices are copies. An array has one or two axes and contains floats or integers; an integer array truncates what is
stored in it. Floats are reals. An array with one axis is a row. -/

namespace Chords.ArrayProgs

inductive Lib | numpy | casadi
  deriving DecidableEq

inductive AErr | assertion | index | value
  deriving DecidableEq

/-- An array: does it have two axes, sizes, does it contain integers, and entries. -/
structure Cell where
  two : Bool
  rows : ℕ
  cols : ℕ
  int : Bool := false
  val : ℕ → ℕ → ℝ

/-- Storing a float in an array of integers discards its decimals. -/
noncomputable def trunc (v : ℝ) : ℝ := if 0 ≤ v then ⌊v⌋ else ⌈v⌉

noncomputable def store (int : Bool) (v : ℝ) : ℝ := if int then trunc v else v

/-- `x.shape`. -/
def Cell.shape (c : Cell) : List ℕ := if c.two then [c.rows, c.cols] else [c.cols]

/-- `arr[index]` with a tuple of integers. -/
def Cell.at (c : Cell) : List ℕ → ℝ
  | [j] => c.val 0 j
  | [i, j] => c.val i j
  | _ => 0

/-- The size of an axis of the result of an operation. NumPy repeats axes of size 1. -/
def axis (m n : ℕ) : Except AErr ℕ :=
  if m = n then .ok m else if m = 1 then .ok n else if n = 1 then .ok m else .error .value

/-- The sizes of the result of an operation. CasADi only repeats scalars. -/
def sizes (lib : Lib) (A B : Cell) : Except AErr (ℕ × ℕ) :=
  match lib with
  | .numpy => do
    let r ← axis A.rows B.rows
    let c ← axis A.cols B.cols
    return (r, c)
  | .casadi =>
    if A.rows = B.rows ∧ A.cols = B.cols then .ok (A.rows, A.cols)
    else if A.rows = 1 ∧ A.cols = 1 then .ok (B.rows, B.cols)
    else if B.rows = 1 ∧ B.cols = 1 then .ok (A.rows, A.cols)
    else .error .value

/-- The entry of an operand that corresponds to an entry of the result. -/
def Cell.get (c : Cell) (i j : ℕ) : ℝ := c.val (if c.rows = 1 then 0 else i) (if c.cols = 1 then 0 else j)

/-- An operation entry by entry. All operations in these functions involve a float, so that the result has floats. -/
def bop (lib : Lib) (f : ℝ → ℝ → ℝ) (A B : Cell) : Except AErr Cell := do
  let s ← sizes lib A B
  return { two := A.two || B.two, rows := s.1, cols := s.2, val := fun i j => f (A.get i j) (B.get i j) }

/-- The product of a number and an array. -/
def scale (k : ℝ) (A : Cell) : Cell := { A with int := false, val := fun i j => k * A.val i j }

/-! ### Memory -/

structure Mem where
  cells : ℕ → Cell
  next : ℕ

/-- The columns `lo`, ..., `lo + cols - 1` of an array in memory. -/
structure Ref where
  id : ℕ
  lo : ℕ
  cols : ℕ

/-- The contents of an array. -/
def Mem.read (m : Mem) (r : Ref) : Cell :=
  let c := m.cells r.id
  { c with cols := r.cols, val := fun i j => c.val i (r.lo + j) }

/-- A new array. -/
def Mem.alloc (m : Mem) (c : Cell) : Ref × Mem :=
  (⟨m.next, 0, c.cols⟩, ⟨Function.update m.cells m.next c, m.next + 1⟩)

/-- `arr[index] = v` with a tuple of integers. -/
noncomputable def Mem.set (m : Mem) (r : Ref) (index : List ℕ) (v : ℝ) : Mem :=
  let c := m.cells r.id
  let ij := match index with
    | [j] => (0, j)
    | [i, j] => (i, j)
    | _ => (0, 0)
  ⟨Function.update m.cells r.id
      { c with val := fun i j => if i = ij.1 ∧ j = r.lo + ij.2 then store c.int v else c.val i j }, m.next⟩

/-- `x[index]`, where `index` are the columns `lo`, ..., `lo + cols - 1`: a view in NumPy and a copy in CasADi. -/
def slice (lib : Lib) (m : Mem) (r : Ref) (lo cols : ℕ) : Ref × Mem :=
  match lib with
  | .numpy => (⟨r.id, r.lo + lo, cols⟩, m)
  | .casadi => m.alloc (m.read ⟨r.id, r.lo + lo, cols⟩)

/-- `get_x_divisions`, piecewise.py 1305-1334, of an array. -/
def divisions (lib : Lib) (m : Mem) (r : Ref) (order : ℕ) : List Ref × Mem :=
  let dim := r.cols / order
  (List.range order).foldl (fun s ii =>
    let p := slice lib s.2 r (dim * ii) dim
    (s.1 ++ [p.1], p.2)) ([], m)

/-- `_itemequal`, piecewise.py 1337-1346. -/
noncomputable def itemequalLoop (tgt : Ref) (fr : Cell) : List ℕ → List ℕ → Mem → Mem
  | [], _, m => m
  | [n], index, m => (List.range n).foldl (fun m ii => m.set tgt (index ++ [ii]) (fr.at (index ++ [ii]))) m
  | n :: shape, index, m => (List.range n).foldl (fun m ii => itemequalLoop tgt fr shape (index ++ [ii]) m) m

/-- `itemequal`, piecewise.py 1349-1352. -/
noncomputable def itemequal (m : Mem) (tgt : Ref) (fr : Cell) : Except AErr Mem :=
  if fr.shape = (m.read tgt).shape then .ok (itemequalLoop tgt fr fr.shape [] m) else .error .assertion

/-- `arr[index] = value` for columns and an array with as many. -/
noncomputable def Mem.paste (m : Mem) (r : Ref) (v : Cell) : Mem :=
  let c := m.cells r.id
  ⟨Function.update m.cells r.id
      { c with val := fun i j => if i < c.rows ∧ r.lo ≤ j ∧ j < r.lo + r.cols then store c.int (v.val i (j - r.lo)) else c.val i j }, m.next⟩

/-- `l[k]`, for `k` that is not negative. -/
def nth (l : List Ref) (k : ℕ) : Except AErr Ref := match l[k]? with
  | some r => .ok r
  | none => .error .index

/-- `reunite_matrix`, piecewise.py 1355-1358. -/
noncomputable def reunite (m : Mem) (arr : Ref) (l : List Ref) (order : ℕ) : Except AErr Mem :=
  let dim := arr.cols / order
  (List.range order).foldlM (fun m ii => do
    let r ← nth l ii
    return m.paste ⟨arr.id, arr.lo + dim * ii, dim⟩ (m.read r)) m

/-- The loops shared by the functions of order `M`, piecewise.py 1374-1380, 1410-1421 and 1429-1435: for `l` in `range(1, M + 1)` division `M - l` is set to
`first l`, and then the terms `coef i` times division `i + M - l` of `x` are added to it for `i` in `range(count l)`. -/
noncomputable def fill (lib : Lib) (M : ℕ) (m : Mem) (x_list out_list : List Ref) (first : Mem → ℕ → Except AErr Cell)
    (coef : ℕ → ℝ) (count : ℕ → ℕ) : Except AErr Mem :=
  (List.range M).foldlM (fun m k => do
    let l := k + 1
    let tgt ← nth out_list (M - l)
    let t ← first m l
    let m ← itemequal m tgt t
    (List.range (count l)).foldlM (fun m i => do
      let xi ← nth x_list (i + M - l)
      let t ← bop lib (· + ·) (m.read tgt) (scale (coef i) (m.read xi))
      itemequal m tgt t) m) m

/-- `trapz_m_accel_restr` of `generate_trapz_m_func`, piecewise.py 1361-1383. -/
noncomputable def trapzM (lib : Lib) (M : ℕ) (m : Mem) (x x_n a a_n : Ref) (dt : ℝ) : Except AErr (Cell × Mem) := do
  let (res, m) := m.alloc (m.read x)
  let (x_list, m) := divisions lib m x M
  let (res_list, m) := divisions lib m res M
  let m ← fill lib M m x_list res_list
    (fun m l => do
      let t ← bop lib (· + ·) (scale l (m.read a)) (m.read a_n)
      return scale (dt ^ l * (1 / (Nat.factorial (l + 1) : ℝ))) t)
    (fun i => dt ^ i * (1 / (Nat.factorial i : ℝ))) (fun l => l)
  let m ← reunite m res res_list M
  let out ← bop lib (· - ·) (m.read x_n) (m.read res)
  return (out, m)

/-- `hs_m_accel_restr` of `generate_hs_m_funcs`, piecewise.py 1424-1436; `scheme_params` is `a_c`. -/
noncomputable def hsM (lib : Lib) (M : ℕ) (m : Mem) (x x_n a a_n : Ref) (dt : ℝ) (a_c : Ref) : Except AErr (Cell × Mem) := do
  let (res, m) := m.alloc (m.read x)
  let (x_list, m) := divisions lib m x M
  let (res_list, m) := divisions lib m res M
  let m ← fill lib M m x_list res_list
    (fun m l => do
      let t ← bop lib (· + ·) (scale ((l : ℝ) ^ 2) (m.read a)) (scale (4 * l) (m.read a_c))
      let t ← bop lib (· + ·) t (scale (2 - l) (m.read a_n))
      return scale (dt ^ l / (Nat.factorial (l + 2) : ℝ)) t)
    (fun i => dt ^ i * (1 / (Nat.factorial i : ℝ))) (fun l => l)
  let m ← reunite m res res_list M
  let out ← bop lib (· - ·) (m.read x_n) (m.read res)
  return (out, m)

/-- `hs_m_half_x` of `generate_hs_m_funcs`, piecewise.py 1386-1422; `x_list[-1]` is the last one of `M`. -/
noncomputable def hsMHalf (lib : Lib) (M : ℕ) (m : Mem) (x x_n a a_n : Ref) (dt : ℝ) : Except AErr (Cell × Mem) := do
  let (x_c, m) := m.alloc (m.read x)
  let (x_list, m) := divisions lib m x M
  let (x_n_list, m) := divisions lib m x_n M
  let (x_c_list, m) := divisions lib m x_c M
  let v ← nth x_list (M - 1)
  let v_n ← nth x_n_list (M - 1)
  let m ← fill lib M m x_list x_c_list
    (fun m l => do
      let t ← bop lib (· + ·) (scale 3 (m.read v_n)) (scale (2 * (l : ℝ) ^ 2 + 4 * l - 3) (m.read v))
      let s ← bop lib (· + ·) (scale (2 * (l : ℝ) ^ 2 + 2 * l - 1) (m.read a)) (scale (-2 * (l : ℝ) - 1) (m.read a_n))
      bop lib (· + ·) (scale (dt ^ (l - 1) / (2 ^ l * Nat.factorial l * (l + 2) : ℝ)) t)
        (scale (dt ^ l / (2 ^ (l + 1) * Nat.factorial (l + 2) : ℝ)) s))
    (fun i => dt ^ i * (1 / (2 ^ i * Nat.factorial i : ℝ))) (fun l => l - 1)
  let m ← reunite m x_c x_c_list M
  return (m.read x_c, m)

end Chords.ArrayProgs
