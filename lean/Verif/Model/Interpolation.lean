import Verif.Model.DynErr
import Verif.Model.Problem
import Verif.Model.PhLayout
import Verif.Spec.PyStr

/-! # Interpolation of the results of a problem
chords/analysis.py 299-754.

A result is a dictionary; here it is a record, and an optional field is a key that may be missing. All arrays are
two-dimensional (the code also meets one-dimensional arrays, for instance from `sol.value` of a single column). The
parameters of `F` are filled in. -/

namespace Chords.Interpolation
open Chords.Interp Chords.PsInterp Chords.BuTdInterp Chords.DynErr Chords.Problem Chords.Points Chords.Spec
open Chords.Ph (linspace inLens joinSegments)

/-- A dictionary of arrays. -/
abbrev Arrays := List (String × Arr2)

/-- `d.get(key)`. -/
def Arrays.get (d : Arrays) (k : String) : Option Arr2 := (d.find? fun e => e.1 == k).map (·.2)

/-- `d[key] = value`. -/
def Arrays.set (d : Arrays) (k : String) (v : Arr2) : Arrays :=
  if d.any fun e => e.1 == k then d.map fun e => if e.1 == k then (k, v) else e else d ++ [(k, v)]

/-- `d[key]`. -/
def need {A : Type} : Option A → Except PsErr A
  | some a => .ok a
  | none => .error .key

/-- A dictionary whose values are arrays, or lists of arrays (the keys that end in "_list"). -/
structure Interps where
  arrs : Arrays
  lists : List (String × List Arr2) := []

/-- The list of arrays with a key; Python raises `KeyError` for none. -/
def Interps.list (out : Interps) (k : String) : Option (List Arr2) := (out.lists.find? fun q => q.1 == k).map (·.2)

/-- The keys of the results of a problem that analysis.py 299-754 reads and writes. `segs` are the keys of problems in
segments. -/
structure Segs where
  n_segments : ℕ
  x_col_list : List Arr2
  x_d_col_list : List Arr2
  u_col_list : List Arr2
  t_col_list : List (List ℝ)
  x_knot_ext_list : List Row
  x_d_knot_ext_list : List Row
  t_knot_ext : List ℝ
  t_knot : List ℝ
  n_q : ℕ
  q_constr_list : Option (List Arr2) := none

structure Res where
  scheme : String
  scheme_mode : String
  solve_order : ℕ
  x : Arr2
  x_d : Arr2
  u : Arr2
  t : List ℝ
  u_c : Option Arr2 := none
  x_c : Option Arr2 := none
  x_d_c : Option Arr2 := none
  q_node : Option Arr2 := none
  v_node : Option Arr2 := none
  x_node : Option Arr2 := none
  q_constr : Option Arr2 := none
  segs : Option Segs := none
  interpolations : Option Interps := none
  error : Option Arrays := none

/-- The argument `given_t_array`: absent, an array, or a list of arrays. -/
inductive Given
  | absent
  | times (l : List ℝ)
  | lists (l : List (List ℝ))

/-- `name + "_d" * n`. -/
def dName (name : String) (n : ℕ) : String := name ++ String.ofList (List.replicate n ['_', 'd']).flatten

/-- An array of instants, in a dictionary. -/
def column (l : List ℝ) : Arr2 := ⟨1, l.map fun t _ => t⟩

/-- `concatenate((a, b), axis=1)`. -/
def hcat (a b : Arr2) : Arr2 :=
  ⟨a.width + b.width, List.zipWith (fun r s c => if c < a.width then r c else s (c - a.width)) a.rows b.rows⟩

/-- The default `u_interp` in the equispaced mode, analysis.py 401-408. -/
def equiU (scheme : String) (u_interp : Option String) : String :=
  match u_interp with
  | some u => u
  | none => if pyIn "parab" scheme then if pyIn "j" scheme then "parab_j" else "parab" else "lin"

/-- `scheme_params`, analysis.py 410-419. -/
noncomputable def equiParams (res : Res) : Except PsErr (Params res.x.width Row) := do
  let sp ← if pyIn "hs" res.scheme then do
      let u_c ← need res.u_c
      let x_dot_c ← need res.x_d_c
      let x_c ← need res.x_c
      pure { Params.empty with u_c := some (some u_c.rows), x_dot_c := some (x_dot_c.rows.map ofRow), x_c := some (x_c.rows.map ofRow) }
    else pure Params.empty
  return if pyIn "n" res.scheme then { sp with order := some res.solve_order } else sp

/-- The loop over the derivatives, analysis.py 434-447, after `k` rounds. -/
noncomputable def equiDerivs (lib : Interp.Lib d Row) (X : List (Arr d)) (U : List Row) (h : ℝ) (t_arr : List ℝ)
    (X_dot : List (Arr d)) (scheme : String) (d0 : Arrays) (sp : Option (Params d Row)) :
    ℕ → Except PsErr (Arrays × Option (Params d Row))
  | 0 => .ok (d0, sp)
  | jj + 1 => do
    let (dict, sp) ← equiDerivs lib X U h t_arr X_dot scheme d0 sp jj
    let (a, sp) ← liftP (interpolatedDerivative lib false X U h t_arr none (some X_dot) scheme (jj + 1) sp)
    return (dict.set (dName "x" (jj + 1)) (toArr2 a), sp)

/-- The branch "equispaced", analysis.py 399-447. With one sample the step is not a number, and the index of the interval
cannot be converted to an integer. -/
noncomputable def equi (lib : (d : ℕ) → Interp.Lib d Row) (res : Res) (problem_order : ℕ) (u_interp : Option String)
    (t0 tf : ℝ) (t_arr : List ℝ) : Except PsErr Arrays :=
  if res.t.length = 1 then .error .value
  else do
    let h := (tf - t0) / ((res.t.length : ℝ) - 1)
    let sp ← equiParams res
    let X := res.x.rows.map ofRow
    let X_dot := res.x_d.rows.map ofRow
    let ((x_arr, u_arr), sp) ← liftP (interpolatedArray (lib res.x.width) false X res.u.rows h t_arr none (some X_dot) res.scheme
      (equiU res.scheme u_interp) (some sp))
    let d0 : Arrays := [("x", toArr2 x_arr), ("u", ⟨res.u.width, u_arr⟩), ("t", column t_arr)]
    let (dict, _) ← equiDerivs (lib res.x.width) X res.u.rows h t_arr X_dot res.scheme d0 sp problem_order
    return dict

/-- The loops over the derivatives of orders 2 to `problem_order`, analysis.py 501-513, 540-555 and 583-599, after `k`
rounds. -/
def psDerivs (deriv : ℕ → Except PsErr Arr2) (d0 : Arrays) : ℕ → Except PsErr Arrays
  | 0 => .ok d0
  | k + 1 => do
    let dict ← psDerivs deriv d0 k
    let a ← deriv (k + 2)
    return dict.set (dName "x" (k + 2)) a

/-- The arrays `x` and `x_d` of the branch "pseudospectral", analysis.py 485-497. -/
def nodeArrays (solve_order q_width v_width : ℕ) (o : PsInterp.Out) : Except PsErr (Arr2 × Arr2) :=
  if solve_order = 2 then .ok (hcat ⟨q_width, o.q⟩ ⟨v_width, o.v⟩, hcat ⟨q_width, o.q_d⟩ ⟨v_width, o.v_d⟩)
  else if solve_order = 1 then .ok (⟨q_width, o.q⟩, ⟨v_width, o.v⟩)
  else .error .notImplemented

/-- The branch "pseudospectral", analysis.py 449-513. -/
noncomputable def node (lib : PsInterp.Lib) (res : Res) (problem_order : ℕ) (x_interp u_interp : Option String) (n_interp : ℕ)
    (given : Option (List ℝ)) (t0 tf : ℝ) (t_arr : List ℝ) : Except PsErr Arrays := do
  let u_interp := u_interp.getD "pol"
  let x_interp := x_interp.getD "pol"
  let qq ← need res.q_node
  let vv ← need res.v_node
  let xx ← need res.x_node
  let o ← interpolationsPs lib qq.rows vv.rows res.u.rows res.scheme t0 tf u_interp x_interp n_interp given
  let (x_arr, x_dot_arr) ← nodeArrays res.solve_order qq.width vv.width o
  psDerivs (fun ii => do
      let a ← interpolationsDerivPs lib xx.rows res.scheme ii t0 tf x_interp n_interp given
      return ⟨xx.width, a⟩)
    [("x", x_arr), ("x_d", x_dot_arr), ("u", ⟨res.u.width, o.u⟩), ("t", column t_arr)] (problem_order - 1)

/-- The branch "bottom-up pseudospectral", analysis.py 515-555. -/
noncomputable def bu (lib : PsInterp.Lib) (res : Res) (problem_order scheme_order : ℕ) (x_interp u_interp : Option String)
    (n_interp : ℕ) (given : Option (List ℝ)) (t0 tf : ℝ) (t_arr : List ℝ) : Except PsErr Arrays := do
  let u_interp := u_interp.getD "pol"
  let x_interp := x_interp.getD "pol"
  let o ← interpolationsBu lib res.x res.x_d res.u.rows res.scheme res.solve_order t0 tf scheme_order u_interp x_interp n_interp
    given
  psDerivs (fun ii => interpolationsDerivBu lib res.x res.x_d res.scheme res.solve_order ii t0 tf scheme_order x_interp n_interp
      given)
    [("x", o.x), ("x_d", o.x_dot), ("u", ⟨res.u.width, o.u⟩), ("t", column t_arr)] (problem_order - 1)

/-- The branch "top-down pseudospectral", analysis.py 557-599. -/
noncomputable def td (lib : PsInterp.Lib) (res : Res) (problem_order scheme_order : ℕ) (x_interp u_interp : Option String)
    (n_interp : ℕ) (given : Option (List ℝ)) (t0 tf : ℝ) (t_arr : List ℝ) : Except PsErr Arrays := do
  let u_interp := u_interp.getD "pol"
  let x_interp := x_interp.getD "pol"
  let n_coll := res.u.rows.length
  let q_constr ← need res.q_constr
  let o ← interpolationsTd lib q_constr res.x res.x_d res.u.rows res.scheme t0 tf scheme_order u_interp x_interp n_interp given
  psDerivs (fun ii => interpolationsDerivTd lib q_constr res.x res.x_d res.scheme ii t0 tf n_coll scheme_order x_interp n_interp
      given)
    [("x", o.x), ("x_d", o.x_dot), ("u", ⟨res.u.width, o.u⟩), ("t", column t_arr)] (problem_order - 1)

/-- The inner loop of the distribution of the arrays, analysis.py 669-671, after `k` rounds. -/
def nameBlocks (names : List String) (ii : ℕ) (divs : List Arr2) (d0 : Arrays) : ℕ → Except PsErr Arrays
  | 0 => .ok d0
  | jj + 1 => do
    let dict ← nameBlocks names ii divs d0 jj
    let name ← getE names jj
    let a ← getE divs jj
    return dict.set (dName name ii) a

/-- The outer loop, analysis.py 666-671, after `k` rounds. -/
def nameOrders (names : List String) (problem_order : ℕ) (d0 : Arrays) : ℕ → Except PsErr Arrays
  | 0 => .ok d0
  | ii + 1 => do
    let dict ← nameOrders names problem_order d0 ii
    let a ← need (dict.get (dName "x" ii))
    nameBlocks names ii (getXDivisions a problem_order) dict (problem_order - max 1 ii + 1)

/-- The distribution of the arrays, analysis.py 666-672. Reached with `problem_order ≥ 1` only. -/
def nameArrays (problem_order : ℕ) (d0 : Arrays) : Except PsErr Arrays := do
  let names := qAndDersNames problem_order
  let dict ← nameOrders names problem_order d0 (problem_order + 1)
  let last ← getE names problem_order
  let prev ← getE names (problem_order - 1)
  let a ← need (dict.get (dName prev 1))
  return dict.set last a

/-- `linspace(t0, tf, n_interp)` or the given array, analysis.py 394-397. -/
noncomputable def instantsOf (t0 tf : ℝ) (n_interp : ℕ) : Option (List ℝ) → List ℝ
  | none => linspace t0 tf n_interp
  | some l => l

/-- `interpolation`, analysis.py 367-599 and 666-672, for the modes without segments. The modes with segments are in
`interpolation` below. -/
noncomputable def flat (elib : (d : ℕ) → Interp.Lib d Row) (lib : PsInterp.Lib) (res : Res) (problem_order scheme_order : ℕ)
    (x_interp u_interp : Option String) (n_interp : ℕ) (given : Option (List ℝ)) : Except PsErr Arrays :=
  match res.t.head?, res.t.getLast? with
  | some t0, some tf =>
    if problem_order = 0 then .error .zeroDivision
    else if ¬ res.x.width % problem_order = 0 then .error .assertion
    else do
      let t_arr := instantsOf t0 tf n_interp given
      let dict ←
        if res.scheme_mode = "equispaced" then equi elib res problem_order u_interp t0 tf t_arr
        else if res.scheme_mode = "pseudospectral" then
          node lib res problem_order x_interp u_interp n_interp given t0 tf t_arr
        else if res.scheme_mode = "bottom-up pseudospectral" then
          bu lib res problem_order scheme_order x_interp u_interp n_interp given t0 tf t_arr
        else if res.scheme_mode = "top-down pseudospectral" then
          td lib res problem_order scheme_order x_interp u_interp n_interp given t0 tf t_arr
        else .error .value
      nameArrays problem_order dict
  | _, _ => .error .index

/-- `concatenate((expand_dims(r, 0), a), axis=0)`. -/
def consRow (r : Row) (a : Arr2) : Arr2 := ⟨a.width, r :: a.rows⟩

/-- `concatenate((a, expand_dims(r, 0)), axis=0)`. -/
def snocRow (a : Arr2) (r : Row) : Arr2 := ⟨a.width, a.rows ++ [r]⟩

/-- `a[:, i:i+n]`. -/
def colsFrom (a : Arr2) (i n : ℕ) : Arr2 := ⟨min n (a.width - i), a.rows.map fun r c => r (i + c)⟩

/-- `a[indices]`, with the rows of analysis.py 346-351. -/
def nodeRows (scheme : String) (a : Arr2) : Arr2 :=
  if scheme ∈ gaussLike then ⟨a.width, a.rows.dropLast⟩
  else if scheme ∈ gaussInv then ⟨a.width, a.rows.tail⟩
  else a

/-- The mode of the parts, `mode.replace("ph ", "")`, for the modes that `ProblemSpec` makes, analysis.py 304. -/
def partMode (mode : String) : String :=
  if mode.toList.take 3 = ['p', 'h', ' '] then String.ofList (mode.toList.drop 3) else mode

/-- One round of `_generate_sub_problems`, analysis.py 309-362. -/
def subProblem (res : Res) (s : Segs) (ii : ℕ) : Except PsErr Res := do
  let scheme := res.scheme
  let xx ← getE s.x_col_list ii
  let xx_d ← getE s.x_d_col_list ii
  let uu ← getE s.u_col_list ii
  let tt ← getE s.t_col_list ii
  let x_s ← getE s.x_knot_ext_list ii
  let x_f ← getE s.x_knot_ext_list (ii + 1)
  let x_d_s ← getE s.x_d_knot_ext_list ii
  let x_d_f ← getE s.x_d_knot_ext_list (ii + 1)
  let t_s := (s.t_knot_ext.drop ii).take 1
  let t_f := (s.t_knot_ext.drop (ii + 1)).take 1
  let atStart : Bool := scheme ∈ gaussLike ++ gaussInv ++ radauInv
  let atEnd : Bool := scheme ∈ gaussLike ++ gaussInv ++ radauLike
  let xx := if atStart then consRow x_s xx else xx
  let xx_d := if atStart then consRow x_d_s xx_d else xx_d
  let tt := if atStart then t_s ++ tt else tt
  let xx := if atEnd then snocRow xx x_f else xx
  let xx_d := if atEnd then snocRow xx_d x_d_f else xx_d
  let tt := if atEnd then tt ++ t_f else tt
  let part : Res := { scheme := scheme, scheme_mode := partMode res.scheme_mode, solve_order := res.solve_order,
                      x := xx, x_d := xx_d, u := uu, t := tt }
  if pyIn "top-down" res.scheme_mode then
    let l ← need s.q_constr_list
    let q ← getE l ii
    return { part with q_constr := some q }
  else if pyIn "bottom-up" res.scheme_mode then return part
  else
    let vv := if s.n_q = xx.width then xx_d else colsFrom xx s.n_q s.n_q
    return { part with q_node := some (nodeRows scheme (colsFrom xx 0 s.n_q)), v_node := some (nodeRows scheme vv),
                       x_node := some (nodeRows scheme xx) }

/-- `_generate_sub_problems`, analysis.py 299-364. -/
def subProblems (res : Res) (s : Segs) : Except PsErr (List Res) := (List.range s.n_segments).mapM (subProblem res s)

/-- `concatenate(l, axis=0)` of two-dimensional arrays. -/
def vcat (l : List Arr2) : Except PsErr Arr2 :=
  match l with
  | [] => .error .value
  | a :: rest => if rest.all fun b => b.width = a.width then .ok ⟨a.width, (l.map Arr2.rows).flatten⟩ else .error .value

/-- The arrays of the parts under one key, without the last row of all but the last unless the instants are given,
analysis.py 636-642. -/
def joined (drop : Bool) (l : List Arr2) : Except PsErr Arr2 :=
  match l.getLast? with
  | none => .error .index
  | some z => vcat ((l.dropLast.map fun a => if drop then ⟨a.width, a.rows.dropLast⟩ else a) ++ [z])

/-- The loop over the keys, analysis.py 633-642. -/
def joinKeys (drop : Bool) (interps : List Arrays) : List String → Except PsErr Interps
  | [] => .ok { arrs := [] }
  | k :: ks => do
    let l ← interps.mapM fun d => need (d.get k)
    let a ← joined drop l
    let rest ← joinKeys drop interps ks
    return { arrs := (k, a) :: rest.arrs, lists := (k ++ "_list", l) :: rest.lists }

/-- The number of samples for a part; `linspace` raises if it is negative. -/
def sampleCount (n : ℤ) : Except PsErr ℕ := if n < 0 then .error .value else .ok n.toNat

/-- The number of samples of all parts, analysis.py 598-605. -/
def sampleTotal (n_interp : ℕ) : Option (List (List ℝ)) → ℕ
  | none => n_interp
  | some l => l.flatten.length

/-- The array of instants for a part, `given_t_array[ii]`, analysis.py 598-601 and 628. -/
def partGiven (given : Option (List (List ℝ))) (ii : ℕ) : Except PsErr (Option (List ℝ)) :=
  match given with
  | none => .ok none
  | some l => do
    let ts ← getE l ii
    pure (some ts)

/-- The number of samples of a part, which is not used if there are instants. -/
def partCount (len : ℤ) : Option (List ℝ) → Except PsErr ℕ
  | none => sampleCount len
  | some _ => .ok len.toNat

/-- One round of the loop over the parts, analysis.py 618-630. -/
noncomputable def partInterp (elib : (d : ℕ) → Interp.Lib d Row) (lib : PsInterp.Lib) (parts : List Res)
    (problem_order scheme_order : ℕ) (x_interp u_interp : Option String) (in_len : List ℤ) (given : Option (List (List ℝ)))
    (ii : ℕ) : Except PsErr Arrays := do
  let part ← getE parts ii
  let len ← getE in_len ii
  let g ← partGiven given ii
  let count ← partCount len g
  flat elib lib part problem_order scheme_order x_interp u_interp count g

/-- The branch "ph ...", analysis.py 593-642. -/
noncomputable def ph (elib : (d : ℕ) → Interp.Lib d Row) (lib : PsInterp.Lib) (res : Res) (problem_order scheme_order : ℕ)
    (x_interp u_interp : Option String) (n_interp : ℕ) (given : Option (List (List ℝ))) (t0 tf : ℝ) : Except PsErr Interps := do
  let s ← need res.segs
  let parts ← subProblems res s
  let in_len := inLens t0 tf (sampleTotal n_interp given) s.t_knot
  let interps ← (List.range parts.length).mapM
    (partInterp elib lib parts problem_order scheme_order x_interp u_interp in_len given)
  match interps with
  | [] => .error .index
  | d0 :: _ => joinKeys given.isNone interps (d0.map (·.1))

/-- `interpolation`, analysis.py 367-678: the dictionary, and the result after the call. With segments `concatenate` rejects a
plain array of instants. A list of arrays for a mode without segments is not modelled faithfully: it is an exception here. -/
noncomputable def interpolation (elib : (d : ℕ) → Interp.Lib d Row) (lib : PsInterp.Lib) (res : Res)
    (problem_order scheme_order : ℕ) (x_interp u_interp : Option String) (n_interp : ℕ) (save_in_res : Bool) (given : Given) :
    Except PsErr (Interps × Res) := do
  let out ←
    if res.scheme_mode.toList.take 3 = ['p', 'h', ' '] then
      match res.t.head?, res.t.getLast? with
      | some t0, some tf =>
        if problem_order = 0 then .error .zeroDivision
        else if ¬ res.x.width % problem_order = 0 then .error .assertion
        else match given with
          | .absent => ph elib lib res problem_order scheme_order x_interp u_interp n_interp none t0 tf
          | .lists l => ph elib lib res problem_order scheme_order x_interp u_interp n_interp (some l) t0 tf
          | .times _ => .error .value
      | _, _ => .error .index
    else match given with
      | .absent => do
        let d ← flat elib lib res problem_order scheme_order x_interp u_interp n_interp none
        pure { arrs := d }
      | .times l => do
        let d ← flat elib lib res problem_order scheme_order x_interp u_interp n_interp (some l)
        pure { arrs := d }
      | .lists _ => .error .type
  return (out, if save_in_res then { res with interpolations := some out } else res)

/-- `a[:, -n_q:]` of the value of `F`, which has as many numbers as `x`. -/
def lastOf (n_x n_q : ℕ) (v : Row) : Row := fun c => v ((if n_q = 0 then 0 else n_x - n_q) + c)

/-- `concatenate([...], 1)` of a list of arrays with the same number of rows. -/
def hcats : List Arr2 → Except PsErr Arr2
  | [] => .error .value
  | [a] => .ok a
  | a :: b :: rest => do
    let r ← hcats (b :: rest)
    if a.rows.length = r.rows.length then return hcat a r else .error .value

/-- `dynamic_errors_from_interp`, analysis.py 681-720: the errors, and the dictionary with the new key "f". -/
def errorsFromInterp (out : Interps) (F : Row → Row → Row) (mode : String) (problem_order : ℕ) :
    Except PsErr (Arrays × Interps) := do
  let names := qAndDersNames problem_order
  let l ← (List.range problem_order).mapM fun ii => need (out.arrs.get (dName "q" ii))
  let q_and_d ← hcats l
  let x_in_f ← if mode = "q" then .ok q_and_d else if mode = "x" then need (out.arrs.get "x") else .error .value
  let u_arr ← need (out.arrs.get "u")
  let x ← need (out.arrs.get "x")
  let n_x := x.width
  let n_q := n_x / problem_order
  if ¬ n_x % problem_order = 0 then .error .assertion
  else do
    let f_interp : Arr2 := ⟨n_q, (List.range x.rows.length).map fun ii => lastOf n_x n_q (F (rows x_in_f.rows ii) (rows u_arr.rows ii))⟩
    let out : Interps := { out with arrs := out.arrs.set "f" f_interp }
    let q_highest ← need (out.arrs.get (dName "q" problem_order))
    let dyn ← bSub q_highest f_interp
    let compat ← (List.range (problem_order - 1)).mapM fun jj => do
      let a ← need (out.arrs.get (dName "q" (jj + 1)))
      let name ← getE names (jj + 1)
      let b ← need (out.arrs.get name)
      let e ← bSub a b
      return ("compat_err_" ++ toString (jj + 1) ++ "_interp", e)
    return (("dyn_err_interp", dyn) :: compat, out)

/-- `dynamic_errors`, analysis.py 723-754: the errors, and the result after the call. The interpolation is called without
`save_in_res`, and the dictionary that it stores is the one that gets the key "f". -/
noncomputable def dynamicErrors (elib : (d : ℕ) → Interp.Lib d Row) (lib : PsInterp.Lib) (res : Res) (F : Row → Row → Row)
    (mode : String) (problem_order scheme_order : ℕ) (x_interp u_interp : Option String) (n_interp : ℕ) (save_in_res : Bool)
    (given : Given) : Except PsErr (Arrays × Res) := do
  let (out, res) ← interpolation elib lib res problem_order scheme_order x_interp u_interp n_interp true given
  let (errors, out) ← errorsFromInterp out F mode problem_order
  let res := { res with interpolations := some out }
  return (errors, if save_in_res then { res with error := some errors } else res)

end Chords.Interpolation
