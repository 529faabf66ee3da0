import Mathlib.Algebra.Order.Round
import Mathlib.Data.Int.Log
import Verif.Model.PsInterp

/-! # Points with a number of digits
chords/pseudospectral.py 60-146 and 172-228 with their argument `precission`, and 1386-1442 (`extend_u_array`), which gives the order in its place.

Model/Points.lean has the points without rounding. Here the rounding of `evalf` is kept, as a parameter `ev`; `evalf` is the one of the library. All else is over the
real numbers. -/

namespace Chords.Digits
open Chords.Spec Chords.Points Chords.PsInterp Chords.Bary Polynomial

/-- Library code: `mpmath.libmp.dps_to_prec(n)`, the bits for a number of digits. -/
noncomputable def bits (n : ℕ) : ℕ := max 1 (round (((n : ℝ) + 1) * 3.3219280948873626)).toNat

/-- Library code: `x.evalf(n=n)`, the closest number with `bits n` binary digits. Simplification: numbers in the middle between two of them are rounded up (towards the
even one in mpmath). -/
noncomputable def evalf (n : ℕ) (x : ℝ) : ℝ :=
  if x = 0 then 0
  else
    let s : ℝ := 2 ^ (Int.log 2 |x| + 1 - (bits n : ℤ))
    s * round (x / s)

variable (ev : ℕ → ℝ → ℝ)

/-- `LG(N, n)`, pseudospectral.py 60-63. -/
noncomputable def LGd (N n : ℕ) : List ℝ := (LG N).map (ev n)

/-- `LGR(N, n)`, pseudospectral.py 66-70. -/
noncomputable def LGRd (N n : ℕ) : List ℝ := (LGR N).map (ev n)

/-- `LGL(N, n)`, pseudospectral.py 73-88. -/
noncomputable def LGLd (N n : ℕ) : List ℝ := [-1] ++ (realRoots (derivative (legendre (N - 1)))).map (ev n) ++ [1]

/-- `LGLm(N, n)`, pseudospectral.py 91-94. -/
noncomputable def LGLmd (N n : ℕ) : List ℝ := pySlice (some 1) (some (-1)) (LGLd ev (N + 2) n)

/-- `LG2(N, n)`, pseudospectral.py 97-100. For `N < 2`, where the library raises, the model has no middle points. -/
noncomputable def LG2d (N n : ℕ) : List ℝ := [-1] ++ LGd ev (N - 2) n ++ [1]

/-- `JG(N, order, n)`, pseudospectral.py 103-109. -/
noncomputable def JGd (N order n : ℕ) : List ℝ := (JG N order).map (ev n)

/-- `JGR(N, order, n)`, pseudospectral.py 112-118. -/
noncomputable def JGRd (N order n : ℕ) : List ℝ := [-1] ++ (realRoots (jacobi ((order : ℝ) - 1) 1 (N - 1))).map (ev n)

/-- `JGR_inv(N, order, n)`, pseudospectral.py 121-127. -/
noncomputable def JGRinvd (N order n : ℕ) : List ℝ := (realRoots (jacobi (order : ℝ) 0 (N - 1))).map (ev n) ++ [1]

/-- `JGL(N, order, n)`, pseudospectral.py 130-140. -/
noncomputable def JGLd (N order n : ℕ) : List ℝ := [-1] ++ (realRoots (jacobi (order : ℝ) 1 (N - 2))).map (ev n) ++ [1]

/-- `JG2(N, n)`, pseudospectral.py 143-146: the digits are received as the order, and the points have the default sixteen digits. -/
noncomputable def JG2d (N n : ℕ) : List ℝ := [-1] ++ JGd ev (N - 2) n 16 ++ [1]

/-- `coll_points(N, scheme, n, order)`, pseudospectral.py 172-228. -/
noncomputable def collPointsD (N : ℕ) (scheme : String) (n : ℕ := 16) (order : ℕ := 2) : Except Err (List ℝ) :=
  if scheme ∈ ["LG", "LG_inv", "LG2"] then .ok (LGd ev N n)
  else if scheme = "LGR" then .ok (LGRd ev N n)
  else if scheme = "LGR_inv" then .ok (negRev (LGRd ev N n))
  else if scheme ∈ ["LGL", "D2"] then .ok (LGLd ev N n)
  else if scheme = "LGLm" then .ok (LGLmd ev N n)
  else if scheme ∈ ["JG", "JG_inv", "JG2"] then .ok (JGd ev N order n)
  else if scheme = "JGR" then .ok (JGRd ev N order n)
  else if scheme = "JGR_inv" then .ok (JGRinvd ev N order n)
  else if scheme = "JGL" then .ok (JGLd ev N order n)
  else if scheme ∈ ["CG", "CG_inv", "CG2"] then .ok (CG N)
  else if scheme = "CGR" then .ok (CGR N)
  else if scheme = "CGR_inv" then .ok (negRev (CGR N))
  else if scheme = "CGL" then .ok (CGL N)
  else .error .valueError

/-- `extend_u_array`, pseudospectral.py 1386-1442: `coll_points(N, scheme, order)` (1425) receives the order as the digits. The functions of the ends have points of
sixteen digits, which are taken as exact. -/
noncomputable def extendUArrayD (uu : List Row) (scheme : String) (N : ℕ) (order : ℕ := 2) : Except PsErr (List ℝ × List Row) := do
  let tau_u ← lift (collPointsD ev N scheme order)
  let n_col := uu.length
  let f0 ← lift (baryExtreme scheme n_col "u" "start" order)
  let fe ← lift (baryExtreme scheme n_col "u" "end" order)
  if scheme ∈ ["LG2", "LG", "JG", "LG_inv", "LGLm", "CG", "CG_inv"] then
    return ([-1] ++ tau_u ++ [1], [onRows f0 uu] ++ uu ++ [onRows fe uu])
  else if scheme ∈ ["LGR", "JGR", "CGR"] then return (tau_u ++ [1], uu ++ [onRows fe uu])
  else if scheme ∈ ["LGR_inv", "JGR_inv", "CGR_inv"] then return ([-1] ++ tau_u, [onRows f0 uu] ++ uu)
  else if scheme ∈ ["LGL", "D2", "JGL", "CGL"] then return (tau_u, uu)
  else .error .value

/-- The linear interpolation of controls, `interpolations_pseudospectral`, pseudospectral.py 1578-1587, with those points. -/
noncomputable def linU (uu : List Row) (scheme : String) (N : ℕ) (tau_arr : List ℝ) : Except PsErr (List Row) := do
  let (tau_u, uu) ← extendUArrayD ev uu scheme N
  interp2d tau_arr tau_u uu

end Chords.Digits
