import Verif.Model.ArrayProgs

/-! # Other restrictions on arrays
The restriction functions of chords/piecewise.py 1172-1299, which divide arrays with `index_div`, on the arrays of `Model/ArrayProgs.lean`. The only arrays in which
these functions write are copies that they have just made, so that arrays are values here. -/

namespace Chords.ArrayProgs

/-- `vec_len`, piecewise.py 59-72, of an array. -/
def vecLen (c : Cell) : ℕ :=
  if c.rows * c.cols = 1 then 1
  else if c.two then (if c.rows = 1 then c.cols else c.rows)
  else c.cols

/-- Errors: those of operations on arrays, and divisions by 0. -/
inductive RErr | arr (e : AErr) | zeroDivision
  deriving DecidableEq

def lift {α : Type} : Except AErr α → Except RErr α
  | .ok a => .ok a
  | .error e => .error (.arr e)

/-- `a // b`. -/
def floorDiv (a b : ℕ) : Except RErr ℕ := if b = 0 then .error .zeroDivision else .ok (a / b)

/-- `order_from_x_a`, piecewise.py 1027-1031. -/
def orderFromXA (x a : Cell) : Except RErr ℕ := floorDiv (vecLen x) (vecLen a)

/-- The columns of a slice: the first one and how many. -/
structure Cut where
  lo : ℕ
  width : ℕ

/-- The slices of `index_div`, piecewise.py 1012-1024, of an array with `n` columns. A slice never exceeds the array, and `-0` is `0`. -/
structure Cuts where
  dim : ℕ

/-- `slice(None, dim)`. -/
def Cuts.first (k : Cuts) (n : ℕ) : Cut := ⟨0, min k.dim n⟩

/-- `slice(-dim, None)`. -/
def Cuts.last (k : Cuts) (n : ℕ) : Cut := if k.dim = 0 then ⟨0, n⟩ else ⟨n - k.dim, n - (n - k.dim)⟩

/-- `slice(dim, None)`. -/
def Cuts.allButFirst (k : Cuts) (n : ℕ) : Cut := ⟨min k.dim n, n - k.dim⟩

/-- `slice(None, -dim)`. -/
def Cuts.allButLast (k : Cuts) (n : ℕ) : Cut := if k.dim = 0 then ⟨0, 0⟩ else ⟨0, n - k.dim⟩

/-- `index_div`, piecewise.py 1012-1024. The slices are of columns, both with one and with two axes. -/
def indexDiv (x : Cell) (order : ℕ) : Except RErr Cuts := do
  let dim ← floorDiv (vecLen x) order
  return ⟨dim⟩

/-- `x[index]`. -/
def pick (c : Cell) (k : ℕ → Cut) : Cell :=
  { c with cols := (k c.cols).width, val := fun i j => c.val i ((k c.cols).lo + j) }

/-- Can an array be stored in `r` rows and `n` columns? NumPy repeats rows and columns, and CasADi scalars. CasADi also stores a row in a column, which is not
modelled. -/
def storable (lib : Lib) (v : Cell) (r n : ℕ) : Prop :=
  match lib with
  | .numpy => (v.rows = r ∨ v.rows = 1) ∧ (v.cols = n ∨ v.cols = 1)
  | .casadi => (v.rows = r ∧ v.cols = n) ∨ (v.rows = 1 ∧ v.cols = 1)

instance (lib : Lib) (v : Cell) (r n : ℕ) : Decidable (storable lib v r n) := by
  cases lib <;> simp only [storable] <;> infer_instance

/-- `c[index] = v`. -/
noncomputable def put (lib : Lib) (c : Cell) (k : ℕ → Cut) (v : Cell) : Except RErr Cell :=
  let s := k c.cols
  if storable lib v c.rows s.width then
    .ok { c with val := fun i j => if s.lo ≤ j ∧ j < s.lo + s.width then store c.int (v.get i (j - s.lo)) else c.val i j }
  else .error (.arr .value)

def add (lib : Lib) (A B : Cell) : Except RErr Cell := lift (bop lib (· + ·) A B)

def sub (lib : Lib) (A B : Cell) : Except RErr Cell := lift (bop lib (· - ·) A B)

/-- `x_d = copy(x); x_d[all_but_last_ind] = y[all_but_first_ind]; x_d[last_ind] = a`, piecewise.py 1175-1177, 1192-1197, 1213-1219, 1229-1240. -/
noncomputable def shifted (lib : Lib) (k : Cuts) (x y a : Cell) : Except RErr Cell := do
  let x_d ← put lib x k.allButLast (pick y k.allButFirst)
  put lib x_d k.last a

/-- `euler_accel_restr`, piecewise.py 1172-1178. -/
noncomputable def eulerA (lib : Lib) (x x_n a _a_n : Cell) (dt : ℝ) : Except RErr Cell := do
  let order ← orderFromXA x a
  let k ← indexDiv x order
  let x_d ← shifted lib k x x a
  let s ← add lib x (scale dt x_d)
  sub lib x_n s

/-- `trapz_accel_restr`, piecewise.py 1189-1198. -/
noncomputable def trapzA (lib : Lib) (x x_n a a_n : Cell) (dt : ℝ) : Except RErr Cell := do
  let order ← orderFromXA x a
  let k ← indexDiv x order
  let x_d ← shifted lib k x x a
  let x_d_n ← shifted lib k x x_n a_n
  let s ← add lib x_d x_d_n
  let s ← add lib x (scale (dt / 2) s)
  sub lib x_n s

/-- `trapz_mod_accel_restr`, piecewise.py 1201-1207. -/
noncomputable def trapzModA (lib : Lib) (x x_n a a_n : Cell) (dt : ℝ) : Except RErr Cell := do
  let k ← indexDiv x 2
  let s ← add lib a a_n
  let s ← add lib (pick x k.last) (scale (dt / 2) s)
  let res ← put lib x k.last s
  let q ← add lib (pick x k.first) (scale dt (pick x k.last))
  let s ← add lib a_n (scale 2 a)
  let s ← add lib q (scale (dt ^ 2 / 6) s)
  let res ← put lib res k.first s
  sub lib x_n res

/-- `hs_half_x`, piecewise.py 1210-1222. -/
noncomputable def hsHalfA (lib : Lib) (x x_n a a_n : Cell) (dt : ℝ) : Except RErr Cell := do
  let order ← orderFromXA x a
  let k ← indexDiv x order
  let x_d ← shifted lib k x x a
  let x_d_n ← shifted lib k x x_n a_n
  let s ← add lib x x_n
  let d ← sub lib x_d x_d_n
  add lib (scale (1 / 2) s) (scale (dt / 8) d)

/-- `hs_accel_restr`, piecewise.py 1225-1243; `scheme_params` is `a_c`. -/
noncomputable def hsA (lib : Lib) (x x_n a a_n : Cell) (dt : ℝ) (a_c : Cell) : Except RErr Cell := do
  let order ← orderFromXA x a
  let k ← indexDiv x order
  let x_d ← shifted lib k x x a
  let x_d_n ← shifted lib k x x_n a_n
  let x_c ← hsHalfA lib x x_n a a_n dt
  let x_d_c ← shifted lib k x x_c a_c
  let s ← add lib x_d (scale 4 x_d_c)
  let s ← add lib s x_d_n
  let res ← add lib x (scale (dt / 6) s)
  sub lib x_n res

/-- `hs_mod_half_x`, piecewise.py 1246-1259. -/
noncomputable def hsModHalfA (lib : Lib) (x x_n a a_n : Cell) (dt : ℝ) : Except RErr Cell := do
  let k ← indexDiv x 2
  let q := pick x k.first
  let v := pick x k.last
  let v_n := pick x_n k.last
  let s ← add lib (scale 13 v) (scale 3 v_n)
  let s ← add lib q (scale (dt / 32) s)
  let d ← sub lib (scale 11 a) (scale 5 a_n)
  let q_c ← add lib s (scale (dt ^ 2 / 192) d)
  let s ← add lib v v_n
  let d ← sub lib a a_n
  let v_c ← add lib (scale (1 / 2) s) (scale (dt / 8) d)
  let x_c ← put lib x k.first q_c
  put lib x_c k.last v_c

/-- `hs_mod_accel_restr`, piecewise.py 1262-1271; `scheme_params` is `a_c`. -/
noncomputable def hsModA (lib : Lib) (x x_n a a_n : Cell) (dt : ℝ) (a_c : Cell) : Except RErr Cell := do
  let k ← indexDiv x 2
  let q := pick x k.first
  let v := pick x k.last
  let s ← add lib a (scale 4 a_c)
  let s ← add lib s a_n
  let s ← add lib v (scale (dt / 6) s)
  let res ← put lib x k.last s
  let s ← add lib q (scale dt v)
  let t ← add lib a (scale 2 a_c)
  let s ← add lib s (scale (dt ^ 2 / 6) t)
  let res ← put lib res k.first s
  sub lib x_n res

/-- `hsj_half_x`, piecewise.py 1274-1287. -/
noncomputable def hsjHalfA (lib : Lib) (x x_n a a_n : Cell) (dt : ℝ) : Except RErr Cell := do
  let k ← indexDiv x 2
  let q := pick x k.first
  let v := pick x k.last
  let q_n := pick x_n k.first
  let v_n := pick x_n k.last
  let s ← add lib (scale 561 q) (scale 64 q_n)
  let s ← add lib s (scale (186 * dt) v)
  let d ← sub lib (scale 22 a) (scale 4 a_n)
  let s ← add lib s (scale (dt ^ 2) d)
  let q_c := scale (1 / 625) s
  let s ← add lib (scale 81 v) (scale 44 v_n)
  let d ← sub lib (scale 18 a) (scale 12 a_n)
  let v_c ← add lib (scale (1 / 125) s) (scale (dt / 125) d)
  let x_c ← put lib x k.first q_c
  put lib x_c k.last v_c

/-- `hsj_accel_restr`, piecewise.py 1290-1299; `scheme_params` is `a_c`. -/
noncomputable def hsjA (lib : Lib) (x x_n a a_n : Cell) (dt : ℝ) (a_c : Cell) : Except RErr Cell := do
  let k ← indexDiv x 2
  let q := pick x k.first
  let v := pick x k.last
  let s ← add lib (scale 3 a) (scale 25 a_c)
  let s ← add lib s (scale 8 a_n)
  let s ← add lib v (scale (dt / 36) s)
  let res ← put lib x k.last s
  let s ← add lib q (scale dt v)
  let t ← add lib (scale 9 a) (scale 25 a_c)
  let t ← add lib t (scale 2 a_n)
  let s ← add lib s (scale (dt ^ 2 / 72) t)
  let res ← put lib res k.first s
  sub lib x_n res

end Chords.ArrayProgs
