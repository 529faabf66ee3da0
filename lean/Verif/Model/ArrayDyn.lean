import Verif.Model.ArrayRestr

/-! # Restrictions and steps on arrays with the dynamics
The functions of chords/piecewise.py 555-804 and 1034-1166, which call the dynamics `F`, on the arrays of `Model/ArrayProgs.lean`, and the CasADi function that
`restriction2casadi`, chords/casadi.py 356-419, makes of them. `F` is any function on arrays that may raise; its parameters are always the same and are not written.
The only arrays in which these functions write are copies that they have just made, so that arrays are values here. -/

namespace Chords.ArrayProgs

/-- The dynamics on arrays: `F(x, u, params)`. -/
abbrev DynA := Cell → Cell → Except RErr Cell

/-- `euler_restr`, piecewise.py 1034-1035. -/
noncomputable def eulerRA (lib : Lib) (x x_n u _u_n : Cell) (F : DynA) (dt : ℝ) : Except RErr Cell := do
  let f ← F x u
  let s ← add lib x (scale dt f)
  sub lib x_n s

/-- `k1 + 2 * k2 + 2 * k3 + k4`, piecewise.py 564 and 1043. -/
noncomputable def rkSum (lib : Lib) (k1 k2 k3 k4 : Cell) : Except RErr Cell := do
  let s ← add lib k1 (scale 2 k2)
  let s ← add lib s (scale 2 k3)
  add lib s k4

/-- `rk4_restr`, piecewise.py 1038-1043. -/
noncomputable def rk4RA (lib : Lib) (x x_n u _u_n : Cell) (F : DynA) (dt : ℝ) : Except RErr Cell := do
  let k1 ← F x u
  let y ← add lib x (scale (dt / 2) k1)
  let k2 ← F y u
  let y ← add lib x (scale (dt / 2) k2)
  let k3 ← F y u
  let y ← add lib x (scale dt k3)
  let k4 ← F y u
  let s ← rkSum lib k1 k2 k3 k4
  let s ← add lib x (scale (dt / 6) s)
  sub lib x_n s

/-- `rk4_step`, piecewise.py 559-564. -/
noncomputable def rk4StepA (lib : Lib) (x u u_n : Cell) (F : DynA) (dt : ℝ) (u_c : Cell) : Except RErr Cell := do
  let k1 ← F x u
  let y ← add lib x (scale (dt / 2) k1)
  let k2 ← F y u_c
  let y ← add lib x (scale (dt / 2) k2)
  let k3 ← F y u_c
  let y ← add lib x (scale dt k3)
  let k4 ← F y u_n
  let s ← rkSum lib k1 k2 k3 k4
  add lib x (scale (dt / 6) s)

/-- `trapz_restr`, piecewise.py 1046-1049. -/
noncomputable def trapzRA (lib : Lib) (x x_n u u_n : Cell) (F : DynA) (dt : ℝ) : Except RErr Cell := do
  let f ← F x u
  let f_n ← F x_n u_n
  let s ← add lib f f_n
  let s ← add lib x (scale (dt / 2) s)
  sub lib x_n s

/-- `hs_parab_restr`, piecewise.py 1094-1100, and `hs_parab_opti_step`, 665-680: the same operations. -/
noncomputable def hsParabRA (lib : Lib) (x x_n u u_n : Cell) (F : DynA) (dt : ℝ) (u_c : Cell) : Except RErr Cell := do
  let f ← F x u
  let f_n ← F x_n u_n
  let s ← add lib x x_n
  let d ← sub lib f f_n
  let x_c ← add lib (scale (1 / 2) s) (scale (dt / 8) d)
  let f_c ← F x_c u_c
  let s ← add lib f (scale 4 f_c)
  let s ← add lib s f_n
  let s ← add lib x (scale (dt / 6) s)
  sub lib s x_n

/-- `(u + u_n) / 2`. -/
noncomputable def middle (lib : Lib) (u u_n : Cell) : Except RErr Cell := do
  let s ← add lib u u_n
  return scale (1 / 2) s

/-- `hs_restr`, piecewise.py 1063-1069, and `hs_opti_step`, 600-616. The order of the computation of `u_c` is that of `hs_opti_step`, which only matters for the
exception that is raised. -/
noncomputable def hsRA (lib : Lib) (x x_n u u_n : Cell) (F : DynA) (dt : ℝ) : Except RErr Cell := do
  let u_c ← middle lib u u_n
  hsParabRA lib x x_n u u_n F dt u_c

/-- `trapz_mod_restr`, piecewise.py 1052-1060. -/
noncomputable def trapzModRA (lib : Lib) (x x_n u u_n : Cell) (F : DynA) (dt : ℝ) : Except RErr Cell := do
  let k ← indexDiv x 2
  let f ← F x u
  let f_n ← F x_n u_n
  let f := pick f k.last
  let f_n := pick f_n k.last
  let s ← add lib f f_n
  let s ← add lib (pick x k.last) (scale (dt / 2) s)
  let res ← put lib x k.last s
  let q ← add lib (pick x k.first) (scale dt (pick x k.last))
  let s ← add lib f_n (scale 2 f)
  let s ← add lib q (scale (dt ^ 2 / 6) s)
  let res ← put lib res k.first s
  sub lib x_n res

/-- `q_c` and `v_c` of `hs_mod_restr` and `hs_mod_parab_restr`, piecewise.py 1084-1085 and 1115-1116. -/
noncomputable def hsModMidA (lib : Lib) (q q_n v v_n f f_n : Cell) (dt : ℝ) : Except RErr (Cell × Cell) := do
  let s ← add lib (scale 13 q) (scale 3 q_n)
  let s ← add lib (scale (1 / 16) s) (scale (5 * dt / 16) v)
  let d ← sub lib (scale 4 f) f_n
  let q_c ← add lib s (scale (dt ^ 2 / 96) d)
  let s ← add lib v v_n
  let d ← sub lib f f_n
  let v_c ← add lib (scale (1 / 2) s) (scale (dt / 8) d)
  return (q_c, v_c)

/-- `hs_mod_parab_restr`, piecewise.py 1103-1122. -/
noncomputable def hsModParabRA (lib : Lib) (x x_n u u_n : Cell) (F : DynA) (dt : ℝ) (u_c : Cell) : Except RErr Cell := do
  let k ← indexDiv x 2
  let f ← F x u
  let f_n ← F x_n u_n
  let f := pick f k.last
  let f_n := pick f_n k.last
  let q := pick x k.first
  let v := pick x k.last
  let c ← hsModMidA lib q (pick x_n k.first) v (pick x_n k.last) f f_n dt
  let x_c ← put lib x k.first c.1
  let x_c ← put lib x_c k.last c.2
  let f_c ← F x_c u_c
  let f_c := pick f_c k.last
  let s ← add lib f (scale 4 f_c)
  let s ← add lib s f_n
  let s ← add lib v (scale (dt / 6) s)
  let res ← put lib x k.last s
  let s ← add lib q (scale dt v)
  let d ← add lib f (scale 2 f_c)
  let s ← add lib s (scale (dt ^ 2 / 6) d)
  let res ← put lib res k.first s
  sub lib x_n res

/-- `hs_mod_restr`, piecewise.py 1072-1091. -/
noncomputable def hsModRA (lib : Lib) (x x_n u u_n : Cell) (F : DynA) (dt : ℝ) : Except RErr Cell := do
  let u_c ← middle lib u u_n
  hsModParabRA lib x x_n u u_n F dt u_c

/-- `q_c` and `v_c` of `hsj_restr` and `hsj_parab_restr`, piecewise.py 1137-1138 and 1159-1160. -/
noncomputable def hsjMidA (lib : Lib) (q v v_n f f_n : Cell) (dt : ℝ) : Except RErr (Cell × Cell) := do
  let s ← add lib (scale 218 v) (scale 32 v_n)
  let s ← add lib q (scale (dt / 625) s)
  let d ← sub lib (scale 82 f) (scale 28 f_n)
  let q_c ← add lib s (scale (dt ^ 2 / 1875) d)
  let s ← add lib (scale 81 v) (scale 44 v_n)
  let d ← sub lib (scale 18 f) (scale 12 f_n)
  let v_c ← add lib (scale (1 / 125) s) (scale (dt / 125) d)
  return (q_c, v_c)

/-- `hsj_parab_restr`, piecewise.py 1147-1166. -/
noncomputable def hsjParabRA (lib : Lib) (x x_n u u_n : Cell) (F : DynA) (dt : ℝ) (u_c : Cell) : Except RErr Cell := do
  let k ← indexDiv x 2
  let f ← F x u
  let f_n ← F x_n u_n
  let f := pick f k.last
  let f_n := pick f_n k.last
  let q := pick x k.first
  let v := pick x k.last
  let c ← hsjMidA lib q v (pick x_n k.last) f f_n dt
  let x_c ← put lib x k.first c.1
  let x_c ← put lib x_c k.last c.2
  let f_c ← F x_c u_c
  let f_c := pick f_c k.last
  let s ← add lib (scale 3 f) (scale 25 f_c)
  let s ← add lib s (scale 8 f_n)
  let s ← add lib v (scale (dt / 36) s)
  let res ← put lib x k.last s
  let s ← add lib q (scale dt v)
  let d ← add lib (scale 9 f) (scale 25 f_c)
  let d ← add lib d (scale 2 f_n)
  let s ← add lib s (scale (dt ^ 2 / 72) d)
  let res ← put lib res k.first s
  sub lib x_n res

/-- `hsj_restr`, piecewise.py 1125-1144. -/
noncomputable def hsjRA (lib : Lib) (x x_n u u_n : Cell) (F : DynA) (dt : ℝ) : Except RErr Cell := do
  let u_c ← add lib (scale 0.6 u) (scale 0.4 u_n)
  hsjParabRA lib x x_n u u_n F dt u_c

/-! ### Steps
The functions that `scipy.optimize.root` solves slice arrays with one axis, `x[:dim]` and `x[dim:]`; arrays with two axes, in which these are slices of rows, are not
modelled. -/

/-- `x[dim:]` of `x`, of `f` and of `f_n` in these functions. -/
def Cuts.rest (k : Cuts) (n : ℕ) : Cut := k.allButFirst n

/-- `trapz_opti_step`, piecewise.py 567-571. -/
noncomputable def trapzSA (lib : Lib) (x_n x u u_n : Cell) (F : DynA) (dt : ℝ) : Except RErr Cell := do
  let f ← F x u
  let f_n ← F x_n u_n
  let s ← add lib f f_n
  let s ← add lib x (scale (dt / 2) s)
  sub lib s x_n

/-- `trapz_mod_opti_step`, piecewise.py 582-589. -/
noncomputable def trapzModSA (lib : Lib) (x_n x u u_n : Cell) (F : DynA) (dt : ℝ) : Except RErr Cell := do
  let k ← indexDiv x 2
  let f ← F x u
  let f_n ← F x_n u_n
  let f := pick f k.rest
  let f_n := pick f_n k.rest
  let s ← add lib f f_n
  let s ← add lib (pick x k.rest) (scale (dt / 2) s)
  let s ← sub lib s (pick x_n k.rest)
  let res ← put lib x k.rest s
  let q ← add lib (pick x k.first) (scale dt (pick x k.rest))
  let s ← add lib f_n (scale 2 f)
  let s ← add lib q (scale (dt ^ 2 / 6) s)
  let s ← sub lib s (pick x_n k.first)
  put lib res k.first s

/-- `hs_mod_parab_opti_step`, piecewise.py 691-717. -/
noncomputable def hsModParabSA (lib : Lib) (x_n x u u_n : Cell) (F : DynA) (dt : ℝ) (u_c : Cell) : Except RErr Cell := do
  let k ← indexDiv x 2
  let f ← F x u
  let f_n ← F x_n u_n
  let f := pick f k.rest
  let f_n := pick f_n k.rest
  let q := pick x k.first
  let v := pick x k.rest
  let c ← hsModMidA lib q (pick x_n k.first) v (pick x_n k.rest) f f_n dt
  let x_c ← put lib x k.first c.1
  let x_c ← put lib x_c k.rest c.2
  let f_c ← F x_c u_c
  let f_c := pick f_c k.rest
  let s ← add lib f (scale 4 f_c)
  let s ← add lib s f_n
  let s ← add lib v (scale (dt / 6) s)
  let s ← sub lib s (pick x_n k.rest)
  let res ← put lib x k.rest s
  let s ← add lib q (scale dt v)
  let d ← add lib f (scale 2 f_c)
  let s ← add lib s (scale (dt ^ 2 / 6) d)
  let s ← sub lib s (pick x_n k.first)
  put lib res k.first s

/-- `hs_mod_opti_step`, piecewise.py 627-654. -/
noncomputable def hsModSA (lib : Lib) (x_n x u u_n : Cell) (F : DynA) (dt : ℝ) : Except RErr Cell := do
  let u_c ← middle lib u u_n
  hsModParabSA lib x_n x u u_n F dt u_c

/-- `hsj_parab_opti_step`, piecewise.py 768-794. -/
noncomputable def hsjParabSA (lib : Lib) (x_n x u u_n : Cell) (F : DynA) (dt : ℝ) (u_c : Cell) : Except RErr Cell := do
  let k ← indexDiv x 2
  let f ← F x u
  let f_n ← F x_n u_n
  let f := pick f k.rest
  let f_n := pick f_n k.rest
  let q := pick x k.first
  let v := pick x k.rest
  let c ← hsjMidA lib q v (pick x_n k.rest) f f_n dt
  let x_c ← put lib x k.first c.1
  let x_c ← put lib x_c k.rest c.2
  let f_c ← F x_c u_c
  let f_c := pick f_c k.rest
  let s ← add lib (scale 3 f) (scale 25 f_c)
  let s ← add lib s (scale 8 f_n)
  let s ← add lib v (scale (dt / 36) s)
  let s ← sub lib s (pick x_n k.rest)
  let res ← put lib x k.rest s
  let s ← add lib q (scale dt v)
  let d ← add lib (scale 9 f) (scale 25 f_c)
  let d ← add lib d (scale 2 f_n)
  let s ← add lib s (scale (dt ^ 2 / 72) d)
  let s ← sub lib s (pick x_n k.first)
  put lib res k.first s

/-- `hsj_opti_step`, piecewise.py 730-757. -/
noncomputable def hsjSA (lib : Lib) (x_n x u u_n : Cell) (F : DynA) (dt : ℝ) : Except RErr Cell := do
  let u_c ← add lib (scale 0.6 u) (scale 0.4 u_n)
  hsjParabSA lib x_n x u u_n F dt u_c

/-! ### `restriction2casadi` -/

/-- A restriction function: with seven parameters, or with eight if it also has `scheme_params`. -/
inductive Restr
  | seven (f : Cell → Cell → Cell → Cell → DynA → ℝ → Except RErr Cell)
  | eight (f : Cell → Cell → Cell → Cell → DynA → ℝ → Cell → Except RErr Cell)

inductive CErr | value | type | inner (e : RErr)
  deriving DecidableEq

/-- An argument of a CasADi function: an array with the sizes that the function asks for, the transposed of a vector, or a scalar, which is repeated. -/
def fit (r c : ℕ) (a : Cell) : Except CErr Cell :=
  if a.rows = r ∧ a.cols = c then .ok { a with two := true, int := false }
  else if a.rows = c ∧ a.cols = r ∧ (a.rows = 1 ∨ a.cols = 1) then .ok ⟨true, r, c, false, fun i j => a.val j i⟩
  else if a.rows = 1 ∧ a.cols = 1 then .ok ⟨true, r, c, false, fun _ _ => a.val 0 0⟩
  else .error .value

def toC {α : Type} : Except RErr α → Except CErr α
  | .ok a => .ok a
  | .error e => .error (.inner e)

/-- A call of the function that `restriction2casadi` returns, casadi.py 356-419, with the arguments `x`, `x_n`, `u`, `u_n`, `dt` and, if there are parameters of the
scheme, `sch_p`; `p` is always the same. The exceptions of the evaluation on symbols are raised when the function is made, which here is at the call. A call with another
number of arguments, and calling a function of seven parameters with eight or of eight with seven, is a `TypeError`. -/
noncomputable def restriction2casadi (F_scheme : Restr) (F : DynA) (n_vars n_u n_scheme_params : ℕ) (x x_n u u_n : Cell) (dt : ℝ) (sch_p : Option Cell) :
    Except CErr Cell :=
  match F_scheme with
  | .seven f =>
    if n_scheme_params ≠ 0 then .error .value
    else match sch_p with
      | some _ => .error .type
      | none => do
        let x ← fit 1 (2 * n_vars) x
        let x_n ← fit 1 (2 * n_vars) x_n
        let u ← fit 1 n_u u
        let u_n ← fit 1 n_u u_n
        toC (f x x_n u u_n F dt)
  | .eight f =>
    if n_scheme_params = 0 then .error .type
    else match sch_p with
      | none => .error .type
      | some s => do
        let x ← fit 1 (2 * n_vars) x
        let x_n ← fit 1 (2 * n_vars) x_n
        let u ← fit 1 n_u u
        let u_n ← fit 1 n_u u_n
        let s ← fit n_scheme_params 1 s
        toC (f x x_n u u_n F dt s)

end Chords.ArrayProgs
