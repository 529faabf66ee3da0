import Verif.Model.PsInterp

/-! # Cubic splines with given slopes
`scipy.interpolate.CubicHermiteSpline`, which chords uses for "Hermite" and "smooth" interpolation: pseudospectral.py 1445-1458, 1589-1592, 1620-1638 and 1758-1765,
bu_pseudospectral.py 555-558, 575-578 and 763-767, td_pseudospectral.py 295-298, 315-318 and 469-473. Library code, modelled as SciPy documents it and computes its
coefficients. -/

namespace Chords.HermiteSpline
open Polynomial Chords.Bary Chords.PsInterp

/-- The cubic between two samples, with the coefficients of `CubicHermiteSpline.__init__`. -/
noncomputable def piece (x0 x1 y0 y1 d0 d1 : ℝ) : ℝ[X] :=
  let dx := x1 - x0
  let slope := (y1 - y0) / dx
  let t := (d0 + d1 - 2 * slope) / dx
  C (t / dx) * (X - C x0) ^ 3 + C ((slope - d0) / dx - t) * (X - C x0) ^ 2 + C d0 * (X - C x0) + C y0

/-- The number of the piece that is used at a time: pieces include their first time and not their last one, and the first and last pieces extrapolate. -/
noncomputable def pieceAt (x : List ℝ) (t : ℝ) : ℕ := (x.tail.dropLast.filter fun b => decide (b ≤ t)).length

/-- The derivative of order `k` of the spline at a time. -/
noncomputable def splineAt (x : List ℝ) (y dydx : List Row) (k : ℕ) (t : ℝ) : Row := fun c =>
  let i := pieceAt x t
  (derivative^[k] (piece (arr x i) (arr x (i + 1)) (rows y i c) (rows y (i + 1) c) (rows dydx i c) (rows dydx (i + 1) c))).eval t

/-- `CubicHermiteSpline(x, y, dydx)`, differentiated `k` times, at an array of times. Times that do not increase, arrays with different numbers of rows and less than two
samples are a `ValueError`. -/
noncomputable def cubicHermite (x : List ℝ) (y dydx : List Row) (k : ℕ) (ts : List ℝ) : Except PsErr (List Row) :=
  open Classical in
  if x.Pairwise (· < ·) ∧ 2 ≤ x.length ∧ y.length = x.length ∧ dydx.length = x.length then .ok (ts.map (splineAt x y dydx k)) else .error .value

/-- The library with this spline; `gradient` is any. -/
noncomputable def scipy (gradient : List Row → List ℝ → Except PsErr (List Row)) : Lib := ⟨cubicHermite, gradient⟩

/-- `numpy.gradient(y, t)` of an array with one or more axes. For more than one, a single array of times is a `TypeError` (`invalid number of arguments`); with one, the
slopes at the ends are those of the first and last pieces and the others those of the parabola through three samples. NumPy computes the latter with a shorter formula
if the times are equispaced; it is the same number. -/
noncomputable def npGradient (axes : ℕ) (y : List Row) (t : List ℝ) : Except PsErr (List Row) :=
  if axes ≠ 1 then .error .type
  else if t.length ≠ y.length ∨ y.length < 2 then .error .value
  else .ok ((List.range y.length).map fun i c =>
    if i = 0 then (rows y 1 c - rows y 0 c) / (arr t 1 - arr t 0)
    else if i + 1 = y.length then (rows y i c - rows y (i - 1) c) / (arr t i - arr t (i - 1))
    else
      let dx1 := arr t i - arr t (i - 1)
      let dx2 := arr t (i + 1) - arr t i
      (-dx2) / (dx1 * (dx1 + dx2)) * rows y (i - 1) c + (dx2 - dx1) / (dx1 * dx2) * rows y i c + dx1 / (dx2 * (dx1 + dx2)) * rows y (i + 1) c)

end Chords.HermiteSpline
