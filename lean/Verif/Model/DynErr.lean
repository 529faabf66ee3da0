import Verif.Model.BuTdInterp

/-! # Dynamic error of equispaced trajectories
chords/analysis.py 79-256.

The states are given as a two-dimensional array. `params` is folded into `F`. The warnings are left out. -/

namespace Chords.DynErr
open Chords.Interp Chords.PsInterp Chords.BuTdInterp
open Chords.Ph (linspace)

/-- The same exceptions under the other type. -/
def liftP {A : Type} : Except PErr A → Except PsErr A
  | .ok a => .ok a
  | .error .valueError => .error .value
  | .error .indexError => .error .index
  | .error .keyError => .error .key
  | .error .typeError => .error .type
  | .error .nameError => .error .name
  | .error .unbound => .error .unbound

section
variable {d : ℕ} {W : Type}

/-- A list of states as a two-dimensional array. -/
def toArr2 (l : List (Arr d)) : Arr2 := ⟨d, l.map at'⟩

/-- A row as a state. -/
def ofRow (r : Row) : Arr d := fun i => r i.val

variable [AddCommGroup W] [Module ℝ W]

/-- The loop over the orders of the derivatives, analysis.py 206-222, after `k` rounds: the divisions of the derivatives,
and the dictionary, which all the calls share. -/
noncomputable def derivs (lib : Interp.Lib d W) (X : List (Arr d)) (U : List W) (h : ℝ) (t_interp : List ℝ)
    (F : Arr d → W → Arr d) (X_dot : Option (List (Arr d))) (scheme : String) (order : ℕ) (sp : Option (Params d W)) :
    ℕ → Except PsErr (List (List Arr2) × Option (Params d W))
  | 0 => .ok ([], sp)
  | jj + 1 => do
    let (l, sp) ← derivs lib X U h t_interp F X_dot scheme order sp jj
    let (a, sp) ← liftP (interpolatedDerivative lib false X U h t_interp (some F) X_dot scheme (jj + 1) sp)
    return (l ++ [getXDivisions (toArr2 a) order], sp)

/-- `x_in_f`, analysis.py 228-235. -/
def pickXF (mode : String) (q_and_d_interp x_interp : Arr2) : Except PsErr Arr2 :=
  if mode = "q" then .ok q_and_d_interp
  else if mode = "x" then .ok x_interp
  else .error .value

/-- `dynamic_error`, analysis.py 79-256: the errors, and the caller's dictionary after the call. A call that raises may
also have changed the dictionary; that is not modelled. Meant for `order ≤ d`. -/
noncomputable def dynamicError (lib : Interp.Lib d W) (x_arr : List (Arr d)) (u_arr : List W) (t_end : ℝ)
    (F : Arr d → W → Arr d) (X_dot : Option (List (Arr d))) (scheme u_scheme : String)
    (scheme_params : Option (Params d W)) (n_interp order : ℕ) (mode : String) :
    Except PsErr (List (List Arr2) × Option (Params d W)) :=
  if order = 0 ∨ x_arr.length = 1 then .error .zeroDivision
  else do
    let dim := d / order
    let h := t_end / ((x_arr.length : ℝ) - 1)
    let t_interp := linspace 0 t_end n_interp
    let sp := some { scheme_params.getD Params.empty with order := some order }
    let ((x_interp, u_interp), sp) ← liftP (interpolatedArray lib false x_arr u_arr h t_interp (some F) X_dot scheme u_scheme sp)
    let x_divs := getXDivisions (toArr2 x_interp) order
    let (ders, sp) ← derivs lib x_arr u_arr h t_interp F X_dot scheme order sp order
    let q_and_d_interp ← fillQ dim (x_divs :: ders) (toArr2 x_interp) order
    let x_in_f ← pickXF mode q_and_d_interp (toArr2 x_interp)
    let f_interp := (List.range n_interp).map fun ii c => at' (F (ofRow (rows x_in_f.rows ii)) (u_interp.getD ii 0)) (d - dim + c)
    let dyn_errs ← errTable order x_divs ders ⟨dim, f_interp⟩
    return (dyn_errs, scheme_params.bind fun _ => sp)

end
end Chords.DynErr
