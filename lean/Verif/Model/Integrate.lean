import Mathlib.Algebra.Module.Pi
import Verif.Model.Schemes

/-! # Integration of a trajectory from an array of controls
chords/piecewise.py 58-71 (`vec_len`), 555-804 (steps), 810-1003 (`coherent_dimensions`, `integrate_*`).

Real numbers replace floats. The dynamics function is a parameter that may raise. `scipy.optimize.root` is a parameter
too: it takes the residual and the starting guess and returns a point and a success flag; the code uses the point
without looking at the flag.

The state is an element of a real vector space `X`. Its number of entries, which `coherent_dimensions` looks at, is the
separate argument `n`. For the second order formulas a state is a pair, as in `Verif.Model.Schemes`. -/

namespace Chords.Integ

/-- What can be raised. `other` is any exception of the user's function that is not a `TypeError`. -/
inductive IErr
  | valueError | typeError | indexError | keyError | other
  deriving DecidableEq

/-- One control: a number or a one-dimensional array. -/
inductive Ctrl
  | num (a : ℝ)
  | row (m : ℕ) (c : Fin m → ℝ)

/-- `a * u + b * v`; both are entries of the same array. -/
def Ctrl.comb (a b : ℝ) : Ctrl → Ctrl → Ctrl
  | .num u, .num v => .num (a * u + b * v)
  | .row m u, .row m' v => if h : m = m' then .row m (fun i => a * u i + b * v (Fin.cast h i)) else .row m u
  | u, _ => u

/-- A numpy array of controls: a number, a one-dimensional array, or a two-dimensional one with `m` columns. -/
inductive UArr
  | scal (a : ℝ)
  | vec (l : List ℝ)
  | mat (m : ℕ) (rows : List (Fin m → ℝ))

/-- `vec_len(u)`, piecewise.py 58-71. -/
def UArr.vecLen : UArr → ℕ
  | .scal _ => 1
  | .vec l => if l.length = 1 then 1 else l.length
  | .mat m rows => if rows.length * m = 1 then 1 else if rows.length = 1 then m else rows.length

/-- The entries along the first dimension, as `u[ii]` gives them. -/
def UArr.entries : UArr → List Ctrl
  | .scal _ => []
  | .vec l => l.map .num
  | .mat m rows => rows.map (.row m)

/-- `u[ii]`, also used for `u_c[ii]`. -/
def getAt (l : List Ctrl) (ii : ℕ) : Except IErr Ctrl :=
  match l[ii]? with
  | some c => .ok c
  | none => .error .indexError

/-- `u[-1]`. -/
def getLast (l : List Ctrl) : Except IErr Ctrl :=
  match l.getLast? with
  | some c => .ok c
  | none => .error .indexError

/-- The initial state: one-dimensional, a two-dimensional array of one line, or anything else. -/
inductive X0Arr (X : Type)
  | flat (x : X)
  | line (x : X)
  | wrong

/-- The dynamics function `F(x, u, params)`. It returns an array of the shape of the state. -/
abbrev DynF (X : Type) := X → Ctrl → Except IErr X

/-- `coherent_dimensions`, piecewise.py 810-865. `n` is `x_0.shape[0]`. -/
def coherent {X A : Type} (func : X → UArr → Except IErr A) (n : ℕ) (x_0 : X0Arr X) (u : UArr) (F : DynF X) :
    Except IErr A :=
  let u := match u with
    | .scal a => UArr.vec [a]
    | u => u
  let go (x_0 : X) : Except IErr A :=
    match u with
    | .vec l =>
      if n ≠ 2 then
        match F x_0 (.row l.length l.get) with
        | .error .typeError => func x_0 u
        | .error e => .error e
        | .ok _ => func x_0 (.mat l.length [l.get])
      else func x_0 u
    | _ => func x_0 u
  match x_0 with
  | .flat x => go x
  | .line x => go x
  | .wrong => .error .valueError

/-- `for ii in range(n): x.append(step(ii, x[-1]))`; `cur` is `x[-1]` at the start. What is returned are the appended
elements. -/
def loop {X : Type} (step : ℕ → X → Except IErr X) : ℕ → ℕ → X → Except IErr (List X)
  | _, 0, _ => .ok []
  | ii, n + 1, cur => do
    let x_i ← step ii cur
    let rest ← loop step (ii + 1) n x_i
    return x_i :: rest

/-- The form shared by all integrators but Euler's: a loop over `vec_len(u) - 1` steps with two consecutive controls and
then one more step with the last control alone. -/
def twoPoint {X : Type} (u : UArr) (step : ℕ → X → Ctrl → Ctrl → Except IErr X) (final : X → Ctrl → Except IErr X)
    (x_0 : X) : Except IErr (List X) := do
  let xs ← loop (fun ii cur => do
    let c ← getAt u.entries ii
    let c' ← getAt u.entries (ii + 1)
    step ii cur c c') 0 (u.vecLen - 1) x_0
  let c ← getLast u.entries
  let x_i ← final ((x_0 :: xs).getLast (by simp)) c
  return x_0 :: xs ++ [x_i]

section Steps
variable {X : Type} [AddCommGroup X] [Module ℝ X]

/-- `euler_step`, piecewise.py 555-556. -/
def eulerStep (x : X) (u : Ctrl) (F : DynF X) (dt : ℝ) : Except IErr X := do
  let f ← F x u
  return x + dt • f

/-- `rk4_step`, piecewise.py 559-564. -/
noncomputable def rk4Step (x : X) (u u_n : Ctrl) (F : DynF X) (dt : ℝ) (u_c : Ctrl) : Except IErr X := do
  let k1 ← F x u
  let k2 ← F (x + (dt / 2) • k1) u_c
  let k3 ← F (x + (dt / 2) • k2) u_c
  let k4 ← F (x + dt • k3) u_n
  return x + (dt / 6) • (k1 + (2 : ℝ) • k2 + (2 : ℝ) • k3 + k4)

/-- `integrate_euler`, piecewise.py 868-876. -/
def integrateEuler (n : ℕ) (x_0 : X0Arr X) (u : UArr) (F : DynF X) (dt : ℝ) : Except IErr (List X) :=
  coherent (fun x_0 u => do
    let xs ← loop (fun ii cur => do
      let c ← getAt u.entries ii
      eulerStep cur c F dt) 0 u.vecLen x_0
    return x_0 :: xs) n x_0 u F

/-- `(u[:-1] + u[1:]) / 2`, piecewise.py 887. -/
noncomputable def mids (l : List Ctrl) : List Ctrl := List.zipWith (Ctrl.comb (1 / 2) (1 / 2)) l.dropLast l.tail

/-- `integrate_rk4`, piecewise.py 879-893; `u_c` is `scheme_params["u_c"]` if that key is present. -/
noncomputable def integrateRk4 (n : ℕ) (x_0 : X0Arr X) (u : UArr) (F : DynF X) (dt : ℝ)
    (u_c : Option (List Ctrl)) : Except IErr (List X) :=
  coherent (fun x_0 u =>
    let uc := match u_c with
      | some l => l
      | none => mids u.entries
    twoPoint u
      (fun ii cur c c' => do
        let m ← getAt uc ii
        rk4Step cur c c' F dt m)
      (fun cur c => rk4Step cur c c F dt c) x_0) n x_0 u F

/-- `scipy.optimize.root(residual, guess)`: the fields `x` and `success` of what it returns. -/
abbrev Root (X : Type) := (X → Except IErr X) → X → Except IErr (X × Bool)

/-- `trapz_step`, `trapz_mod_step`, `hs_step`, `hs_mod_step`, `hsj_step`, piecewise.py 574-579, 592-597, 619-624, 657-662,
760-765, and the versions with `u_c`, 683-688, 720-727, 797-802: `resid x_n` is the scheme's `*_opti_step` with the
other arguments filled in. -/
def implicitStep (root : Root X) (resid : X → Except IErr X) (x : X) (u : Ctrl) (F : DynF X) (dt : ℝ) :
    Except IErr X := do
  let x_0 ← eulerStep x u F dt
  let x_n ← root resid x_0
  return x_n.1

/-- The residual of a scheme, as a function of `x_n`, `x`, `u`, `u_n`. -/
abbrev Resid (X : Type) := X → X → Ctrl → Ctrl → Except IErr X

/-- `integrate_trapz`, `integrate_trapz_mod`, `integrate_hs`, `integrate_hs_mod`, `integrate_hsj`, piecewise.py 896-943 and
976-986; they differ in the residual. -/
def integrateImplicit (resid : Resid X) (root : Root X) (n : ℕ) (x_0 : X0Arr X) (u : UArr) (F : DynF X) (dt : ℝ) :
    Except IErr (List X) :=
  coherent (fun x_0 u => twoPoint u
    (fun _ cur c c' => implicitStep root (fun x_n => resid x_n cur c c') cur c F dt)
    (fun cur c => implicitStep root (fun x_n => resid x_n cur c c) cur c F dt) x_0) n x_0 u F

/-- `integrate_hs_parab`, `integrate_hs_mod_parab`, `integrate_hsj_parab`, piecewise.py 946-973 and 989-1003: the steps of the
loop use the residual with `u_c[ii]`, the last one the residual of the scheme without it. `u_c` is
`scheme_params["u_c"]`, if present. -/
def integrateParab (residC : Ctrl → Resid X) (resid : Resid X) (root : Root X) (n : ℕ) (x_0 : X0Arr X) (u : UArr)
    (F : DynF X) (dt : ℝ) (u_c : Option (List Ctrl)) : Except IErr (List X) :=
  coherent (fun x_0 u =>
    match u_c with
    | none => .error .keyError
    | some l => twoPoint u
      (fun ii cur c c' => do
        let m ← getAt l ii
        implicitStep root (fun x_n => residC m x_n cur c c') cur c F dt)
      (fun cur c => implicitStep root (fun x_n => resid x_n cur c c) cur c F dt) x_0) n x_0 u F

/-- `trapz_opti_step`, piecewise.py 567-571. -/
noncomputable def trapzResid (F : DynF X) (dt : ℝ) : Resid X := fun x_n x u u_n => do
  let f ← F x u
  let f_n ← F x_n u_n
  return x + (dt / 2) • (f + f_n) - x_n

/-- `hs_parab_opti_step`, piecewise.py 665-680. -/
noncomputable def hsParabResid (F : DynF X) (dt : ℝ) (u_c : Ctrl) : Resid X := fun x_n x u u_n => do
  let f ← F x u
  let f_n ← F x_n u_n
  let x_c := (1 / 2 : ℝ) • (x + x_n) + (dt / 8) • (f - f_n)
  let f_c ← F x_c u_c
  return x + (dt / 6) • (f + (4 : ℝ) • f_c + f_n) - x_n

/-- `hs_opti_step`, piecewise.py 600-616: the same text with `u_c = (u + u_n) / 2`. -/
noncomputable def hsResid (F : DynF X) (dt : ℝ) : Resid X := fun x_n x u u_n =>
  hsParabResid F dt (Ctrl.comb (1 / 2) (1 / 2) u u_n) x_n x u u_n

end Steps

section Second
variable {V : Type} [AddCommGroup V] [Module ℝ V]

/-- `trapz_mod_opti_step`, piecewise.py 582-589. -/
noncomputable def trapzModResid (F : DynF (V × V)) (dt : ℝ) : Resid (V × V) := fun x_n x u u_n => do
  let f ← F x u
  let f_n ← F x_n u_n
  return (x.1 + dt • x.2 + (dt ^ 2 / 6) • (f_n.2 + (2 : ℝ) • f.2) - x_n.1,
    x.2 + (dt / 2) • (f.2 + f_n.2) - x_n.2)

/-- `hs_mod_parab_opti_step`, piecewise.py 691-717. -/
noncomputable def hsModParabResid (F : DynF (V × V)) (dt : ℝ) (u_c : Ctrl) : Resid (V × V) := fun x_n x u u_n => do
  let f ← F x u
  let f_n ← F x_n u_n
  let q_c := (1 / 16 : ℝ) • ((13 : ℝ) • x.1 + (3 : ℝ) • x_n.1) + (5 * dt / 16) • x.2
    + (dt ^ 2 / 96) • ((4 : ℝ) • f.2 - f_n.2)
  let v_c := (1 / 2 : ℝ) • (x.2 + x_n.2) + (dt / 8) • (f.2 - f_n.2)
  let f_c ← F (q_c, v_c) u_c
  return (x.1 + dt • x.2 + (dt ^ 2 / 6) • (f.2 + (2 : ℝ) • f_c.2) - x_n.1,
    x.2 + (dt / 6) • (f.2 + (4 : ℝ) • f_c.2 + f_n.2) - x_n.2)

/-- `hs_mod_opti_step`, piecewise.py 627-654: the same text with `u_c = (u + u_n) / 2`. -/
noncomputable def hsModResid (F : DynF (V × V)) (dt : ℝ) : Resid (V × V) := fun x_n x u u_n =>
  hsModParabResid F dt (Ctrl.comb (1 / 2) (1 / 2) u u_n) x_n x u u_n

/-- `hsj_parab_opti_step`, piecewise.py 768-794. -/
noncomputable def hsjParabResid (F : DynF (V × V)) (dt : ℝ) (u_c : Ctrl) : Resid (V × V) := fun x_n x u u_n => do
  let f ← F x u
  let f_n ← F x_n u_n
  let q_c := x.1 + (dt / 625) • ((218 : ℝ) • x.2 + (32 : ℝ) • x_n.2)
    + (dt ^ 2 / 1875) • ((82 : ℝ) • f.2 - (28 : ℝ) • f_n.2)
  let v_c := (1 / 125 : ℝ) • ((81 : ℝ) • x.2 + (44 : ℝ) • x_n.2)
    + (dt / 125) • ((18 : ℝ) • f.2 - (12 : ℝ) • f_n.2)
  let f_c ← F (q_c, v_c) u_c
  return (x.1 + dt • x.2 + (dt ^ 2 / 72) • ((9 : ℝ) • f.2 + (25 : ℝ) • f_c.2 + (2 : ℝ) • f_n.2) - x_n.1,
    x.2 + (dt / 36) • ((3 : ℝ) • f.2 + (25 : ℝ) • f_c.2 + (8 : ℝ) • f_n.2) - x_n.2)

/-- `hsj_opti_step`, piecewise.py 730-757: the same text with `u_c = 0.6 * u + 0.4 * u_n`. -/
noncomputable def hsjResid (F : DynF (V × V)) (dt : ℝ) : Resid (V × V) := fun x_n x u u_n =>
  hsjParabResid F dt (Ctrl.comb 0.6 0.4 u u_n) x_n x u u_n

end Second

end Chords.Integ
