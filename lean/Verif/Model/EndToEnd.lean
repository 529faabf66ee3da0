import Verif.Model.CasFuncs
import Verif.Model.Equi
import Verif.Model.PhScheme

/-! # Problems with symbolic dynamics
How `apply_scheme` calls the function that `dynamic_setup` stores: chords/opti.py 971-1043, 1440-1497, 1792-1833, 2162-2271, 2806-3051. -/

namespace Chords.EndToEnd
open CasFuncs BuTd

/-- The row `x[ii, :]` of an array with `n` columns. -/
def rowList (n : ℕ) (x : ℕ → ℝ) : List ℝ := (List.range n).map x

/-- `dynam_f_x(x_opti[ii, :], x_dot_opti[ii, :], u_opti[ii, :], lam_opti[ii, :], params)`, opti.py 1033-1043, 1487-1497, 1823-1833, 2239-2248,
2262-2271, 3042-3051: the arrays have as many columns as the function takes numbers. -/
noncomputable def dynOf (f : CasFun) (params : List ℝ) : Dyn := fun x xd u lam =>
  f.run [rowList (f.sizes.getD 0 0) x, rowList (f.sizes.getD 1 0) xd, rowList (f.sizes.getD 2 0) u, rowList (f.sizes.getD 3 0) lam, params]

end Chords.EndToEnd
