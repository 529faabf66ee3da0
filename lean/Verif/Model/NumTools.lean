import Mathlib.Algebra.Module.Basic
import Mathlib.Algebra.Order.Floor.Ring
import Mathlib.Data.Real.Archimedean
import Mathlib.Data.List.Sort

/-! # Numeric helpers, function evaluation on series, segment plots and figure names
chords/numpy.py 25-75 and 78-232 (`RHS2numpy`, `Sym2Fx`: the function they return), chords/util.py 259-353.

Floats are reals. An array keeps the kind of its numbers: `zeros_like` of an array of integers is an array of integers, and
storing a float in it drops the fractional part. -/

namespace Chords.NumTools

inductive NErr
  | value | index | assertion | typeError
  deriving DecidableEq

/-- `x[1:] - x[:-1]` -/
def diffs (x : List ℝ) : List ℝ := List.zipWith (fun b a => b - a) x.tail x

/-- `y[1:] + y[:-1]` -/
def pairSums (y : List ℝ) : List ℝ := List.zipWith (fun b a => b + a) y.tail y

/-- `numpy.trapz(y, x)` of one-dimensional arrays, with the broadcasting rule. -/
noncomputable def trapz (y x : List ℝ) : Except NErr ℝ :=
  let d := diffs x
  let s := pairSums y
  if d.length = s.length then .ok (List.zipWith (fun a b => a * b / 2) d s).sum
  else if d.length = 1 then .ok (s.map fun b => d.headD 0 * b / 2).sum
  else if s.length = 1 then .ok (d.map fun a => a * s.headD 0 / 2).sum
  else .error .value

/-- Conversion of a float to an integer when it is stored in an array of integers. -/
noncomputable def trunc (r : ℝ) : ℤ := if 0 ≤ r then ⌊r⌋ else ⌈r⌉

/-- `trapz_integrate`, numpy.py 63-67, one-dimensional array of floats. -/
noncomputable def trapzIntegrate (X t : List ℝ) : Except NErr (List ℝ) :=
  (List.range X.length).mapM fun i => if i = 0 then .ok 0 else trapz (X.take (i + 1)) (t.take (i + 1))

/-- `trapz_integrate`, numpy.py 63-67, one-dimensional array of integers. -/
noncomputable def trapzIntegrateInt (X : List ℤ) (t : List ℝ) : Except NErr (List ℤ) := do
  let l ← trapzIntegrate (X.map fun (k : ℤ) => (k : ℝ)) t
  return l.map trunc

/-- `trapz_integrate`, numpy.py 63-67, two-dimensional array of floats with `m` columns. `numpy.trapz` works along the last
axis, that is inside each row, and gives one number for each of the `i + 1` rows; these are stored in row `i`, which has
`m` places. -/
noncomputable def trapzIntegrate2 {m : ℕ} (X : List (Fin m → ℝ)) (t : List ℝ) : Except NErr (List (List ℝ)) :=
  (List.range X.length).mapM fun i =>
    if i = 0 then .ok (List.replicate m 0)
    else do
      let v ← (X.take (i + 1)).mapM fun row => trapz (List.ofFn row) (t.take (i + 1))
      if v.length = m then return v
      else if v.length = 1 then return List.replicate m (v.headD 0)
      else .error .value

section
variable {V : Type} [AddCommGroup V] [Module ℝ V]

/-- `num_derivative`, numpy.py 70-75, for floats; a sample is a number or a row. -/
noncomputable def numDerivative (X : List V) (h : ℝ) : Except NErr (List V) :=
  let n := X.length
  if n < 2 then .error .index
  else .ok ((List.range n).map fun i =>
    if i = n - 1 then (1 / h) • (X.getD (n - 2) 0 - X.getD (n - 1) 0)
    else if i = 0 then (1 / h) • (X.getD 1 0 - X.getD 0 0)
    else (1 / (2 * h)) • (X.getD (i + 1) 0 - X.getD (i - 1) 0))

end

/-- `num_derivative`, numpy.py 70-75, for an array of integers. -/
noncomputable def numDerivativeInt (X : List ℤ) (h : ℝ) : Except NErr (List ℤ) := do
  let l ← numDerivative (X.map fun (k : ℤ) => (k : ℝ)) h
  return l.map trunc

/-- `total_state_error` (and `arr_abs_integr_vert`), analysis.py 981-988, column `j`. -/
noncomputable def totalStateError {m : ℕ} (t : List ℝ) (dyn_err : List (Fin m → ℝ)) (j : Fin m) : Except NErr ℝ :=
  trapz (dyn_err.map fun r => |r j|) t

/-! ## Evaluation of generated functions -/

/-- A numpy value: a number, an array of one dimension, of two (with its number of columns), or of more. -/
inductive Val
  | scal (a : ℝ)
  | vec (l : List ℝ)
  | mat (m : ℕ) (rows : List (Fin m → ℝ))
  | high

/-- `unpack`, numpy.py 25-40. The elements are numbers or one-dimensional arrays. -/
def unpack : Val → Except NErr (List Val)
  | .scal a => .ok [.scal a]
  | .vec l => .ok (l.map .scal)
  | .mat m rows => .ok ((List.finRange m).map fun j => .vec (rows.map fun r => r j))
  | .high => .error .value

/-- The list behind a one-dimensional array. -/
def Val.toVec? : Val → Option (List ℝ)
  | .vec l => some l
  | _ => none

/-- The number behind a number. -/
def Val.toScal? : Val → Option ℝ
  | .scal a => some a
  | _ => none

/-- `x.size == 1` -/
def Val.sizeOne : Val → Bool
  | .scal _ => true
  | .vec l => l.length == 1
  | .mat m rows => rows.length * m == 1
  | .high => false

/-- `concatenate` of columns of length `n`. -/
def joinColumns (cols : List (List ℝ)) (n : ℕ) : Val :=
  .mat cols.length ((List.range n).map fun i => fun j => (cols.get j).getD i 0)

/-- `congruent_concatenate`, numpy.py 51-60. -/
def congruentConcatenate (varlist : List Val) : Except NErr Val :=
  match varlist with
  | [] => .error .index
  | x :: _ =>
    if x.sizeOne then
      match varlist.mapM Val.toScal? with
      | some l => .ok (.vec l)
      | none => .error .assertion
    else
      match varlist.mapM Val.toVec? with
      | some cols =>
        let n := (cols.headD []).length
        if ∀ c ∈ cols, c.length = n then .ok (joinColumns cols n) else .error .value
      | none => .error .assertion

/-- A symbolic expression: the variables that occur in it and its value for given values of the variables. -/
structure Expr where
  deps : List ℕ
  fn : (ℕ → ℝ) → ℝ
  loc : ∀ e e' : ℕ → ℝ, (∀ i ∈ deps, e i = e' i) → fn e = fn e'

/-- Entry `k` of an argument, after broadcasting. -/
def entry (v : Val) (k : ℕ) : ℝ :=
  match v with
  | .scal a => a
  | .vec l => if l.length = 1 then l.getD 0 0 else l.getD k 0
  | _ => 0

/-- The function that `sympy.lambdify` makes of an expression, applied to numbers and one-dimensional arrays: elementwise
operations with broadcasting. An expression without array arguments gives a number. -/
def Expr.eval (e : Expr) (args : List Val) : Except NErr Val :=
  let lens := (e.deps.filterMap fun i => (args.getD i (.scal 0)).toVec?).map List.length
  let long := lens.filter (· ≠ 1)
  if lens = [] then .ok (.scal (e.fn fun i => entry (args.getD i (.scal 0)) 0))
  else
    let n := long.headD 1
    if ∀ l ∈ long, l = n then
      .ok (.vec ((List.range n).map fun k => e.fn fun i => entry (args.getD i (.scal 0)) k))
    else .error .value

/-- The function returned by `RHS2numpy` (mode "x") and by `Sym2Fx`, numpy.py 151-159 and 224-229. `n_vars` is the number of
symbols that the expressions were converted with. -/
def newF (funcs : List Expr) (n_vars : ℕ) (x u params : Val) : Except NErr Val := do
  let xs ← unpack x
  let us ← unpack u
  let ps ← unpack params
  let args := xs ++ us ++ ps
  if args.length = n_vars then
    let results ← funcs.mapM fun f => f.eval args
    congruentConcatenate results
  else if funcs = [] then .error .index else .error .typeError

/-! ## Plots by segments -/

/-- `numpy.searchsorted(l, v)` of an increasing array. -/
noncomputable def searchsorted (l : List ℝ) (v : ℝ) : ℕ := open Classical in l.countP fun x => decide (x < v)

/-- The loop of `plot_by_segments`, util.py 264-272: for each `plt.plot` the label and the samples. `n` calls are left, `ll` is
the loop variable. -/
noncomputable def plotLoop {Y : Type} (S : List (ℝ × Y)) (interv : List ℝ) (label : String) :
    ℕ → ℕ → ℕ → List (Option String × List (ℝ × Y))
  | 0, _, _ => []
  | n + 1, ll, cut_p =>
    let jj := searchsorted interv ll
    (if cut_p = 0 then some label else none, (S.take jj).drop cut_p) :: plotLoop S interv label n (ll + 1) jj

/-- `plot_by_segments`, util.py 259-272, the calls of `plt.plot`; `S` are the pairs of times and values. The times have to be
increasing for `searchsorted`. -/
noncomputable def plotBySegments {Y : Type} (S : List (ℝ × Y)) (label : String) (N : ℕ) (end_t : ℝ) :
    List (Option String × List (ℝ × Y)) :=
  plotLoop S (S.map fun s => (N * s.1) / end_t) label N 1 0

/-! ## File names -/

/-- `os.path.join(a, b)` on Posix, for a non-empty `a`. -/
def pathJoin (a b : String) : String :=
  if b.toList.head? = some '/' then b else if a.toList.getLast? = some '/' then a ++ b else a ++ "/" ++ b

/-- The title before the schemes, util.py 336-344. -/
def figHead (problem_name graph_name : String) (N q_counter : Option ℤ) : String :=
  let title := problem_name ++ "_" ++ graph_name
  let title := match q_counter with
    | none => title
    | some q => title ++ "_q_" ++ toString (q + 1)
  match N with
  | none => title ++ "_vs_N"
  | some n => title ++ "_N" ++ toString n

/-- The end of the title, util.py 347-349. -/
def figTail (add : Option String) (save_format title : String) : String :=
  match add with
  | none => title ++ "." ++ save_format
  | some a => title ++ "--" ++ a ++ "." ++ save_format

/-- `gen_fig_filename`, util.py 326-353. -/
def genFigFilename (problem_name graph_name : String) (schemes_printed : List String) (save_format : String)
    (N : Option ℤ) (q_counter : Option ℤ) (add : Option String) : String :=
  let folder_name := problem_name ++ "_figs"
  let schemes := schemes_printed.mergeSort (fun a b => decide (a ≤ b))
  let title := figHead problem_name graph_name N q_counter
  let title := schemes.foldl (fun t s => t ++ "--" ++ s) title
  pathJoin folder_name (figTail add save_format title)

end Chords.NumTools
