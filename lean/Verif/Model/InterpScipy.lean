import Verif.Model.Interp
import Verif.Model.HermiteSpline

/-! # The scheme "hs_scipy"
chords/piecewise.py 2107-2109 and 2483-2489: SciPy's spline (Model/HermiteSpline.lean) in the interpolation of equispaced trajectories (Model/Interp.lean), where
it is a parameter. -/

namespace Chords.Interp
open Chords.Bary Chords.PsInterp Chords.HermiteSpline

/-- A state as a row of a table. -/
noncomputable def toRow {d : ℕ} (x : Arr d) : Row := fun c => at' x c

/-- `hermite(old_t_array, X, X_dot)` at a time, differentiated `k` times; piecewise.py 2108-2109 (`k = 0`) and 2484-2489. Simplification: `CubicHermiteSpline` raises
for less than two samples. -/
noncomputable def scipySpline {d : ℕ} (old_t : List ℝ) (X X_dot : List (Arr d)) (k : ℕ) (t : ℝ) : Arr d := fun i =>
  splineAt old_t (X.map toRow) (X_dot.map toRow) k t i

end Chords.Interp
