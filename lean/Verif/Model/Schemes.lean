import Mathlib.Data.Real.Basic
import Mathlib.Data.Nat.Factorial.Basic
import Mathlib.Algebra.Module.Prod
import Mathlib.Algebra.BigOperators.Group.Finset.Basic
import Mathlib.Tactic.Module

/-!
# Piecewise (equispaced) collocation schemes

Source: `/repo/chords/piecewise.py`.

Conventions for the whole file.
* Floats are reals.
* A state array `x` of a first-order formula is an element of a real vector space `X`
  (numpy/casadi arithmetic on it is elementwise, i.e. vector-space arithmetic).
* A second-order state is the pair `(q, v) : V × V`; `x[:dim]`/`x[first_ind]` is `x.1` and
  `x[dim:]`/`x[last_ind]` is `x.2` (`index_div`, piecewise.py 1012-1024, with order 2).
* A state of differential order `M` is the sequence of its divisions `x : ℕ → V`, only the entries
  `p < M` are meaningful (`get_x_divisions`, piecewise.py 1305-1334).
* `params` is the same object in every call, so it is folded into the dynamics function `F`.
-/

namespace Chords

/-- The sequence of divisions of a second-order state (`get_x_divisions(x, 2)`). -/
def seq2 {V : Type*} (x : V × V) : ℕ → V := fun p => if p = 0 then x.1 else x.2

/-- The sequence of divisions of a first-order state (`get_x_divisions(x, 1)`). -/
def seq1 {V : Type*} (x : V) : ℕ → V := fun _ => x

@[simp] theorem seq2_zero {V : Type*} (x : V × V) : seq2 x 0 = x.1 := rfl
@[simp] theorem seq2_one {V : Type*} (x : V × V) : seq2 x 1 = x.2 := rfl

section FirstOrder
variable {X U : Type*} [AddCommGroup X] [Module ℝ X] [AddCommGroup U] [Module ℝ U]

/-- `euler_step`, piecewise.py 555-556. -/
def eulerStep (x : X) (u : U) (F : X → U → X) (dt : ℝ) : X := x + dt • F x u

/-- `rk4_step`, piecewise.py 559-564. -/
noncomputable def rk4Step (x : X) (u un : U) (F : X → U → X) (dt : ℝ) (uc : U) : X :=
  let k1 := F x u
  let k2 := F (x + (dt / 2) • k1) uc
  let k3 := F (x + (dt / 2) • k2) uc
  let k4 := F (x + dt • k3) un
  x + (dt / 6) • (k1 + (2 : ℝ) • k2 + (2 : ℝ) • k3 + k4)

/-- `trapz_opti_step`, piecewise.py 567-571. -/
noncomputable def trapzOptiStep (xn x : X) (u un : U) (F : X → U → X) (dt : ℝ) : X :=
  let f := F x u
  let fn := F xn un
  x + (dt / 2) • (f + fn) - xn

/-- `hs_opti_step`, piecewise.py 600-616. -/
noncomputable def hsOptiStep (xn x : X) (u un : U) (F : X → U → X) (dt : ℝ) : X :=
  let f := F x u
  let fn := F xn un
  let uc := (1 / 2 : ℝ) • (u + un)
  let xc := (1 / 2 : ℝ) • (x + xn) + (dt / 8) • (f - fn)
  let fc := F xc uc
  x + (dt / 6) • (f + (4 : ℝ) • fc + fn) - xn

/-- `hs_parab_opti_step`, piecewise.py 665-680. -/
noncomputable def hsParabOptiStep (xn x : X) (u un : U) (F : X → U → X) (dt : ℝ) (uc : U) : X :=
  let f := F x u
  let fn := F xn un
  let xc := (1 / 2 : ℝ) • (x + xn) + (dt / 8) • (f - fn)
  let fc := F xc uc
  x + (dt / 6) • (f + (4 : ℝ) • fc + fn) - xn

/-- `euler_restr`, piecewise.py 1034-1035 (`u_n` is accepted and ignored). -/
def eulerRestr (x xn : X) (u _un : U) (F : X → U → X) (dt : ℝ) : X := xn - (x + dt • F x u)

/-- `rk4_restr`, piecewise.py 1038-1043 (`u` is used at all four stages). -/
noncomputable def rk4Restr (x xn : X) (u _un : U) (F : X → U → X) (dt : ℝ) : X :=
  let k1 := F x u
  let k2 := F (x + (dt / 2) • k1) u
  let k3 := F (x + (dt / 2) • k2) u
  let k4 := F (x + dt • k3) u
  xn - (x + (dt / 6) • (k1 + (2 : ℝ) • k2 + (2 : ℝ) • k3 + k4))

/-- `trapz_restr`, piecewise.py 1046-1049. -/
noncomputable def trapzRestr (x xn : X) (u un : U) (F : X → U → X) (dt : ℝ) : X :=
  let f := F x u
  let fn := F xn un
  xn - (x + (dt / 2) • (f + fn))

/-- `hs_restr`, piecewise.py 1063-1069. -/
noncomputable def hsRestr (x xn : X) (u un : U) (F : X → U → X) (dt : ℝ) : X :=
  let f := F x u
  let fn := F xn un
  let xc := (1 / 2 : ℝ) • (x + xn) + (dt / 8) • (f - fn)
  let uc := (1 / 2 : ℝ) • (u + un)
  let fc := F xc uc
  x + (dt / 6) • (f + (4 : ℝ) • fc + fn) - xn

/-- `hs_parab_restr`, piecewise.py 1094-1100 (`scheme_params` is `u_c`). -/
noncomputable def hsParabRestr (x xn : X) (u un : U) (F : X → U → X) (dt : ℝ) (uc : U) : X :=
  let f := F x u
  let fn := F xn un
  let xc := (1 / 2 : ℝ) • (x + xn) + (dt / 8) • (f - fn)
  let fc := F xc uc
  x + (dt / 6) • (f + (4 : ℝ) • fc + fn) - xn

/-- `hs_midpoint`, piecewise.py 1481-1483. -/
noncomputable def hsMidpoint (x xn xd xdn : X) (h : ℝ) : X :=
  (1 / 2 : ℝ) • (x + xn) + (h / 8) • (xd - xdn)

end FirstOrder

section SecondOrder
variable {V U : Type*} [AddCommGroup V] [Module ℝ V] [AddCommGroup U] [Module ℝ U]

/-- `trapz_mod_opti_step`, piecewise.py 582-589. -/
noncomputable def trapzModOptiStep (xn x : V × V) (u un : U) (F : V × V → U → V × V) (dt : ℝ) :
    V × V :=
  let f := (F x u).2
  let fn := (F xn un).2
  (x.1 + dt • x.2 + (dt ^ 2 / 6) • (fn + (2 : ℝ) • f) - xn.1,
   x.2 + (dt / 2) • (f + fn) - xn.2)

/-- `trapz_mod_restr`, piecewise.py 1052-1060. -/
noncomputable def trapzModRestr (x xn : V × V) (u un : U) (F : V × V → U → V × V) (dt : ℝ) :
    V × V :=
  let f := (F x u).2
  let fn := (F xn un).2
  xn - (x.1 + dt • x.2 + (dt ^ 2 / 6) • (fn + (2 : ℝ) • f),
        x.2 + (dt / 2) • (f + fn))

/-- `trapz_mod_accel_restr`, piecewise.py 1201-1207. -/
noncomputable def trapzModAccelRestr (x xn : V × V) (a an : V) (dt : ℝ) : V × V :=
  xn - (x.1 + dt • x.2 + (dt ^ 2 / 6) • (an + (2 : ℝ) • a),
        x.2 + (dt / 2) • (a + an))

/-- The midpoint state of `hs_mod_restr`/`hs_mod_opti_step`, piecewise.py 645-649, 1084-1087. -/
noncomputable def hsModXc (x xn : V × V) (f fn : V) (dt : ℝ) : V × V :=
  ((1 / 16 : ℝ) • ((13 : ℝ) • x.1 + (3 : ℝ) • xn.1) + (5 * dt / 16) • x.2
      + (dt ^ 2 / 96) • ((4 : ℝ) • f - fn),
   (1 / 2 : ℝ) • (x.2 + xn.2) + (dt / 8) • (f - fn))

/-- `hs_mod_parab_opti_step`, piecewise.py 691-717. -/
noncomputable def hsModParabOptiStep (xn x : V × V) (u un : U) (F : V × V → U → V × V) (dt : ℝ)
    (uc : U) : V × V :=
  let f := (F x u).2
  let fn := (F xn un).2
  let xc := hsModXc x xn f fn dt
  let fc := (F xc uc).2
  (x.1 + dt • x.2 + (dt ^ 2 / 6) • (f + (2 : ℝ) • fc) - xn.1,
   x.2 + (dt / 6) • (f + (4 : ℝ) • fc + fn) - xn.2)

/-- `hs_mod_opti_step`, piecewise.py 627-654. -/
noncomputable def hsModOptiStep (xn x : V × V) (u un : U) (F : V × V → U → V × V) (dt : ℝ) :
    V × V :=
  let f := (F x u).2
  let fn := (F xn un).2
  let uc := (1 / 2 : ℝ) • (u + un)
  let xc := hsModXc x xn f fn dt
  let fc := (F xc uc).2
  (x.1 + dt • x.2 + (dt ^ 2 / 6) • (f + (2 : ℝ) • fc) - xn.1,
   x.2 + (dt / 6) • (f + (4 : ℝ) • fc + fn) - xn.2)

/-- `hs_mod_restr`, piecewise.py 1072-1091. -/
noncomputable def hsModRestr (x xn : V × V) (u un : U) (F : V × V → U → V × V) (dt : ℝ) :
    V × V :=
  let f := (F x u).2
  let fn := (F xn un).2
  let uc := (1 / 2 : ℝ) • (u + un)
  let xc := hsModXc x xn f fn dt
  let fc := (F xc uc).2
  xn - (x.1 + dt • x.2 + (dt ^ 2 / 6) • (f + (2 : ℝ) • fc),
        x.2 + (dt / 6) • (f + (4 : ℝ) • fc + fn))

/-- `hs_mod_parab_restr`, piecewise.py 1103-1122. -/
noncomputable def hsModParabRestr (x xn : V × V) (u un : U) (F : V × V → U → V × V) (dt : ℝ)
    (uc : U) : V × V :=
  let f := (F x u).2
  let fn := (F xn un).2
  let xc := hsModXc x xn f fn dt
  let fc := (F xc uc).2
  xn - (x.1 + dt • x.2 + (dt ^ 2 / 6) • (f + (2 : ℝ) • fc),
        x.2 + (dt / 6) • (f + (4 : ℝ) • fc + fn))

/-- `hs_mod_half_x`, piecewise.py 1246-1259. -/
noncomputable def hsModHalfX (x xn : V × V) (a an : V) (dt : ℝ) : V × V :=
  (x.1 + (dt / 32) • ((13 : ℝ) • x.2 + (3 : ℝ) • xn.2)
      + (dt ^ 2 / 192) • ((11 : ℝ) • a - (5 : ℝ) • an),
   (1 / 2 : ℝ) • (x.2 + xn.2) + (dt / 8) • (a - an))

/-- `hs_mod_accel_restr`, piecewise.py 1262-1271 (`scheme_params` is `a_c`). -/
noncomputable def hsModAccelRestr (x xn : V × V) (a an : V) (dt : ℝ) (ac : V) : V × V :=
  xn - (x.1 + dt • x.2 + (dt ^ 2 / 6) • (a + (2 : ℝ) • ac),
        x.2 + (dt / 6) • (a + (4 : ℝ) • ac + an))

/-- `hs_mod_midpoint`, piecewise.py 1486-1491 (`x_dot`, `x_dot_n` are state derivatives). -/
noncomputable def hsModMidpoint (x xn xd xdn : V × V) (h : ℝ) : V × V :=
  let f := xd.2
  let fn := xdn.2
  ((1 / 16 : ℝ) • ((13 : ℝ) • x.1 + (3 : ℝ) • xn.1 + (5 * h) • x.2)
      + (h ^ 2 / 96) • ((4 : ℝ) • f - fn),
   (1 / 2 : ℝ) • (x.2 + xn.2) + (h / 8) • (f - fn))

/-- The interior state of `hsj_restr`/`hsj_opti_step`, piecewise.py 748-752, 1137-1140. -/
noncomputable def hsjXc (x xn : V × V) (f fn : V) (dt : ℝ) : V × V :=
  (x.1 + (dt / 625) • ((218 : ℝ) • x.2 + (32 : ℝ) • xn.2)
      + (dt ^ 2 / 1875) • ((82 : ℝ) • f - (28 : ℝ) • fn),
   (1 / 125 : ℝ) • ((81 : ℝ) • x.2 + (44 : ℝ) • xn.2)
      + (dt / 125) • ((18 : ℝ) • f - (12 : ℝ) • fn))

/-- `hsj_parab_opti_step`, piecewise.py 768-794. -/
noncomputable def hsjParabOptiStep (xn x : V × V) (u un : U) (F : V × V → U → V × V) (dt : ℝ)
    (uc : U) : V × V :=
  let f := (F x u).2
  let fn := (F xn un).2
  let xc := hsjXc x xn f fn dt
  let fc := (F xc uc).2
  (x.1 + dt • x.2 + (dt ^ 2 / 72) • ((9 : ℝ) • f + (25 : ℝ) • fc + (2 : ℝ) • fn) - xn.1,
   x.2 + (dt / 36) • ((3 : ℝ) • f + (25 : ℝ) • fc + (8 : ℝ) • fn) - xn.2)

/-- `hsj_opti_step`, piecewise.py 730-757. -/
noncomputable def hsjOptiStep (xn x : V × V) (u un : U) (F : V × V → U → V × V) (dt : ℝ) :
    V × V :=
  let f := (F x u).2
  let fn := (F xn un).2
  let uc := (0.6 : ℝ) • u + (0.4 : ℝ) • un
  let xc := hsjXc x xn f fn dt
  let fc := (F xc uc).2
  (x.1 + dt • x.2 + (dt ^ 2 / 72) • ((9 : ℝ) • f + (25 : ℝ) • fc + (2 : ℝ) • fn) - xn.1,
   x.2 + (dt / 36) • ((3 : ℝ) • f + (25 : ℝ) • fc + (8 : ℝ) • fn) - xn.2)

/-- `hsj_restr`, piecewise.py 1125-1144. -/
noncomputable def hsjRestr (x xn : V × V) (u un : U) (F : V × V → U → V × V) (dt : ℝ) :
    V × V :=
  let f := (F x u).2
  let fn := (F xn un).2
  let uc := (0.6 : ℝ) • u + (0.4 : ℝ) • un
  let xc := hsjXc x xn f fn dt
  let fc := (F xc uc).2
  xn - (x.1 + dt • x.2 + (dt ^ 2 / 72) • ((9 : ℝ) • f + (25 : ℝ) • fc + (2 : ℝ) • fn),
        x.2 + (dt / 36) • ((3 : ℝ) • f + (25 : ℝ) • fc + (8 : ℝ) • fn))

/-- `hsj_parab_restr`, piecewise.py 1147-1166. -/
noncomputable def hsjParabRestr (x xn : V × V) (u un : U) (F : V × V → U → V × V) (dt : ℝ)
    (uc : U) : V × V :=
  let f := (F x u).2
  let fn := (F xn un).2
  let xc := hsjXc x xn f fn dt
  let fc := (F xc uc).2
  xn - (x.1 + dt • x.2 + (dt ^ 2 / 72) • ((9 : ℝ) • f + (25 : ℝ) • fc + (2 : ℝ) • fn),
        x.2 + (dt / 36) • ((3 : ℝ) • f + (25 : ℝ) • fc + (8 : ℝ) • fn))

/-- `hsj_half_x`, piecewise.py 1274-1287. -/
noncomputable def hsjHalfX (x xn : V × V) (a an : V) (dt : ℝ) : V × V :=
  ((1 / 625 : ℝ) • ((561 : ℝ) • x.1 + (64 : ℝ) • xn.1 + (186 * dt) • x.2
      + (dt ^ 2) • ((22 : ℝ) • a - (4 : ℝ) • an)),
   (1 / 125 : ℝ) • ((81 : ℝ) • x.2 + (44 : ℝ) • xn.2)
      + (dt / 125) • ((18 : ℝ) • a - (12 : ℝ) • an))

/-- `hsj_accel_restr`, piecewise.py 1290-1299 (`scheme_params` is `a_c`). -/
noncomputable def hsjAccelRestr (x xn : V × V) (a an : V) (dt : ℝ) (ac : V) : V × V :=
  xn - (x.1 + dt • x.2 + (dt ^ 2 / 72) • ((9 : ℝ) • a + (25 : ℝ) • ac + (2 : ℝ) • an),
        x.2 + (dt / 36) • ((3 : ℝ) • a + (25 : ℝ) • ac + (8 : ℝ) • an))

/-- `hsj_midpoint`, piecewise.py 1494-1499. -/
noncomputable def hsjMidpoint (x xn xd xdn : V × V) (h : ℝ) : V × V :=
  let f := xd.2
  let fn := xdn.2
  (x.1 + (h / 625) • ((218 : ℝ) • x.2 + (32 : ℝ) • xn.2)
      + (h ^ 2 / 1875) • ((82 : ℝ) • f - (28 : ℝ) • fn),
   (1 / 125 : ℝ) • ((81 : ℝ) • x.2 + (44 : ℝ) • xn.2)
      + (h / 125) • ((18 : ℝ) • f - (12 : ℝ) • fn))

/-- `hsj_interp`, piecewise.py 1623-1643 (`scheme_params` is `x_dot_c`). -/
noncomputable def hsjInterp (x _xn xd xdn : V × V) (τ h : ℝ) (xdc : V × V) : V × V :=
  let f := xd.2
  let fn := xdn.2
  let fc := xdc.2
  (x.1 + τ • x.2 + (1 / 2 * τ ^ 2) • f
      + (1 / 36 * τ ^ 3 / h) • (-(21 : ℝ) • f + (25 : ℝ) • fc - (4 : ℝ) • fn)
      + (1 / 72 * τ ^ 4 / h ^ 2) • ((15 : ℝ) • f - (25 : ℝ) • fc + (10 : ℝ) • fn),
   x.2 + τ • f
      + (1 / 12 * τ ^ 2 / h) • (-(21 : ℝ) • f + (25 : ℝ) • fc - (4 : ℝ) • fn)
      + (1 / 18 * τ ^ 3 / h ^ 2) • ((15 : ℝ) • f - (25 : ℝ) • fc + (10 : ℝ) • fn))

/-- `hsj_dot_interp`, piecewise.py 2199-2218. -/
noncomputable def hsjDotInterp (x _xn xd xdn : V × V) (τ h : ℝ) (xdc : V × V) : V × V :=
  let f := xd.2
  let fn := xdn.2
  let fc := xdc.2
  (x.2 + τ • f
      + (1 / 12 * τ ^ 2 / h) • (-(21 : ℝ) • f + (25 : ℝ) • fc - (4 : ℝ) • fn)
      + (1 / 18 * τ ^ 3 / h ^ 2) • ((15 : ℝ) • f - (25 : ℝ) • fc + (10 : ℝ) • fn),
   f + (1 / 6 * τ / h) • (-(21 : ℝ) • f + (25 : ℝ) • fc - (4 : ℝ) • fn)
      + (1 / 6 * τ ^ 2 / h ^ 2) • ((15 : ℝ) • f - (25 : ℝ) • fc + (10 : ℝ) • fn))

/-- `hsj_dot_dot_interp`, piecewise.py 2307-2323. -/
noncomputable def hsjDotDotInterp (_x _xn xd xdn : V × V) (τ h : ℝ) (xdc : V × V) : V × V :=
  let f := xd.2
  let fn := xdn.2
  let fc := xdc.2
  (f + (1 / 6 * τ / h) • (-(21 : ℝ) • f + (25 : ℝ) • fc - (4 : ℝ) • fn)
      + (1 / 6 * τ ^ 2 / h ^ 2) • ((15 : ℝ) • f - (25 : ℝ) • fc + (10 : ℝ) • fn),
   (1 / 6 / h) • (-(21 : ℝ) • f + (25 : ℝ) • fc - (4 : ℝ) • fn)
      + (1 / 3 * τ / h ^ 2) • ((15 : ℝ) • f - (25 : ℝ) • fc + (10 : ℝ) • fn))

end SecondOrder

section OrderM
variable {V : Type*} [AddCommGroup V] [Module ℝ V]

/-- The array `x_d` built in `euler_accel_restr`, `trapz_accel_restr`, `hs_accel_restr`,
`hs_half_x` (piecewise.py 1175-1177, 1192-1197, 1213-1219, 1229-1235):
`x_d[all_but_last] = x[all_but_first]`, `x_d[last] = a`. -/
def shiftIn (M : ℕ) (x : ℕ → V) (a : V) : ℕ → V := fun p => if p + 1 < M then x (p + 1) else a

/-- `euler_accel_restr`, piecewise.py 1172-1178. -/
def eulerAccelRestr (M : ℕ) (x xn : ℕ → V) (a _an : V) (dt : ℝ) : ℕ → V :=
  let xd := shiftIn M x a
  fun p => xn p - (x p + dt • xd p)

/-- `trapz_accel_restr`, piecewise.py 1189-1198. -/
noncomputable def trapzAccelRestr (M : ℕ) (x xn : ℕ → V) (a an : V) (dt : ℝ) : ℕ → V :=
  let xd := shiftIn M x a
  let xdn := shiftIn M xn an
  fun p => xn p - (x p + (dt / 2) • (xd p + xdn p))

/-- `hs_half_x`, piecewise.py 1210-1222. -/
noncomputable def hsHalfX (M : ℕ) (x xn : ℕ → V) (a an : V) (dt : ℝ) : ℕ → V :=
  let xd := shiftIn M x a
  let xdn := shiftIn M xn an
  fun p => (1 / 2 : ℝ) • (x p + xn p) + (dt / 8) • (xd p - xdn p)

/-- `hs_accel_restr`, piecewise.py 1225-1243 (`scheme_params` is `a_c`). -/
noncomputable def hsAccelRestr (M : ℕ) (x xn : ℕ → V) (a an : V) (dt : ℝ) (ac : V) : ℕ → V :=
  let xd := shiftIn M x a
  let xdn := shiftIn M xn an
  let xc := hsHalfX M x xn a an dt
  let xdc := shiftIn M xc ac
  fun p => xn p - (x p + (dt / 6) • (xd p + (4 : ℝ) • xdc p + xdn p))

/-- `trapz_m_accel_restr` of `generate_trapz_m_func`, piecewise.py 1361-1383.  The loop
`for i in range(l): res += ...` is the finite sum; division `p` of the result is `l = M - p`. -/
noncomputable def trapzMRestr (M : ℕ) (x xn : ℕ → V) (a an : V) (dt : ℝ) : ℕ → V := fun p =>
  let l := M - p
  xn p - ((dt ^ l * (1 / (Nat.factorial (l + 1) : ℝ))) • ((l : ℝ) • a + an)
    + ∑ i ∈ Finset.range l, (dt ^ i * (1 / (Nat.factorial i : ℝ))) • x (i + M - l))

/-- `hs_m_half_x` of `generate_hs_m_funcs`, piecewise.py 1386-1422. -/
noncomputable def hsMHalfX (M : ℕ) (x xn : ℕ → V) (a an : V) (dt : ℝ) : ℕ → V := fun p =>
  let l := M - p
  let v := x (M - 1)
  let vn := xn (M - 1)
  (dt ^ (l - 1) / (2 ^ l * Nat.factorial l * (l + 2) : ℝ)) •
      ((3 : ℝ) • vn + (2 * (l : ℝ) ^ 2 + 4 * l - 3) • v)
    + (dt ^ l / (2 ^ (l + 1) * Nat.factorial (l + 2) : ℝ)) •
      ((2 * (l : ℝ) ^ 2 + 2 * l - 1) • a + (-2 * (l : ℝ) - 1) • an)
    + ∑ i ∈ Finset.range (l - 1), (dt ^ i * (1 / (2 ^ i * Nat.factorial i : ℝ))) • x (i + M - l)

/-- `hs_m_accel_restr` of `generate_hs_m_funcs`, piecewise.py 1424-1436. -/
noncomputable def hsMRestr (M : ℕ) (x xn : ℕ → V) (a an : V) (dt : ℝ) (ac : V) : ℕ → V := fun p =>
  let l := M - p
  xn p - ((dt ^ l / (Nat.factorial (l + 2) : ℝ)) •
        (((l : ℝ) ^ 2) • a + (4 * (l : ℝ)) • ac + (2 - (l : ℝ)) • an)
    + ∑ i ∈ Finset.range l, (dt ^ i * (1 / (Nat.factorial i : ℝ))) • x (i + M - l))

/-- `x_list` of `tz_interp` after the two appends, piecewise.py 1570-1577. -/
noncomputable def tzList (M : ℕ) (x : ℕ → V) (a an : V) (h : ℝ) : ℕ → V := fun j =>
  if j < M then x j else if j = M then a else if j = M + 1 then (1 / h) • (-a + an) else 0

/-- `tz_interp` of `generate_tz_interp(order=M, deriv)`, piecewise.py 1563-1587; the value of
division `p`.  With `l = M - p - deriv` the loop runs over `range(l + 2)` and reads
`x_list[i + M - l] = x_list[i + p + deriv]`; `range` of a negative number is empty, which is
natural-number subtraction here.  `a = x_dot_list[-1]`, `an = x_dot_n_list[-1]`. -/
noncomputable def tzInterp (M deriv : ℕ) (x : ℕ → V) (a an : V) (τ h : ℝ) : ℕ → V := fun p =>
  ∑ i ∈ Finset.range (M + 2 - (p + deriv)),
    (τ ^ i / (Nat.factorial i : ℝ)) • tzList M x a an h (i + p + deriv)

/-- `x_list` of `hs_interp` after the three appends, piecewise.py 1598-1608. -/
noncomputable def hsList (M : ℕ) (x : ℕ → V) (a an ac : V) (h : ℝ) : ℕ → V := fun j =>
  if j < M then x j else if j = M then a
  else if j = M + 1 then (1 / h) • (-(3 : ℝ) • a + (4 : ℝ) • ac - an)
  else if j = M + 2 then (1 / h ^ 2) • ((4 : ℝ) • a - (8 : ℝ) • ac + (4 : ℝ) • an) else 0

/-- `hs_interp` of `generate_hs_interp(order=M, deriv)`, piecewise.py 1590-1620; the value of
division `p`. -/
noncomputable def hsInterp (M deriv : ℕ) (x : ℕ → V) (a an : V) (τ h : ℝ) (ac : V) : ℕ → V :=
  fun p => ∑ i ∈ Finset.range (M + 3 - (p + deriv)),
    (τ ^ i / (Nat.factorial i : ℝ)) • hsList M x a an ac h (i + p + deriv)

/-- `interp_parab`, piecewise.py 1454-1456. -/
noncomputable def interpParab (τ h : ℝ) (y0 yc yn : V) : V :=
  let ξ := τ / h
  y0 + ξ • (-(3 : ℝ) • y0 + (4 : ℝ) • yc - yn) + (2 * ξ ^ 2) • (y0 - (2 : ℝ) • yc + yn)

/-- `interp_parab_j`, piecewise.py 1459-1465. -/
noncomputable def interpParabJ (τ h : ℝ) (y0 yc yn : V) : V :=
  let ξ := τ / h
  y0 + (ξ / 6) • (-(21 : ℝ) • y0 + (25 : ℝ) • yc - (4 : ℝ) • yn)
    + (ξ ^ 2 / 6) • ((15 : ℝ) • y0 - (25 : ℝ) • yc + (10 : ℝ) • yn)

end OrderM

end Chords
