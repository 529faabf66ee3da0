import Verif.Model.Names
import Mathlib.Data.List.Dedup

/-! # Numeric inverse dynamics
`num_pinv_dyn` of `SimpLagrangesMethod`, chords/symbolic.py 1079-1146, and of `ImplicitLagrangesMethod`, 1265-1322, from the expressions that SymPy gives. -/

namespace Chords.PinvDyn
open Names

inductive PErr
  | value | shape | key | attribute | name
  deriving DecidableEq

/-- `symbols("dummy")`. -/
def dummy : Name := "dummy".toList

/-- `expr.atoms(Symbol)`. -/
def symbolsOf (e : Expr) : List Name := e.atoms.filterMap fun a => match a with
  | .sym n => some n
  | .dyn _ _ => none

/-- `find_dyn_dependencies(ds)[0]`, symbolic.py 95-108, of one dynamic symbol or derivative: the dynamic symbol. -/
def baseOf : Quantity → Quantity
  | .sym n => .sym n
  | .dyn n _ => .dyn n 0

/-- `for act_sym in ext_forces: if act_sym in param_list: param_list.remove(act_sym)`. -/
def removeForces (params : List Name) (forces : List Quantity) : List Name :=
  forces.foldl (fun p s => match s with
    | .sym n => p.erase n
    | .dyn _ _ => p) params

/-- The function that is returned: its arguments are the coordinates, their first and second derivatives and the parameters. -/
structure PinvFun where
  q : List Name
  params : List Name
  exprs : List Expr

/-- `SimpLagrangesMethod.num_pinv_dyn`, symbolic.py 1079-1146. `pinv` is what `sym_pinv_dyn` returns and `exhaustive` the product of the full mass matrix and the full
forcing vector; with constraints the blocks of the full mass matrix do not fit, because `mass_matrix` is overridden. `found` is the set of dynamic symbols of
`exhaustive` in the order that it has. `addn` does not exist. -/
def simpNumPinv (eom constrained : Bool) (q : List Name) (forces found : List Quantity) (pinv exhaustive : List Expr) : Except PErr PinvFun :=
  if eom = false then .error .value
  else if constrained then .error .shape
  else
    let dy := sortedDyn found
    let params := (exhaustive.flatMap fun e => symbolsOf (e.subsList (dy.map fun d => (d, dummy)))).dedup
    if dummy ∉ params then .error .key
    else
      let params := removeForces (params.erase dummy) forces
      if ∃ d ∈ dy, baseOf d ∉ q.map (fun n => Quantity.dyn n 0) ∧ baseOf d ∉ forces then .error .attribute
      else .ok ⟨q, sortNames params, pinv⟩

/-- `ImplicitLagrangesMethod.num_pinv_dyn`, symbolic.py 1265-1322: `find_dynamicsymbols` of a list raises, as a list has no `atoms`. `symbolic` is the result of
`sym_pinv_dyn`. -/
def implNumPinv (eom : Bool) (symbolic : Except PErr (List Expr)) : Except PErr PinvFun :=
  if eom = false then .error .value
  else match symbolic with
    | .error e => .error e
    | .ok _ => .error .attribute

/-- Is a quantity an argument? -/
def PinvFun.known (f : PinvFun) : Quantity → Prop
  | .sym n => n ∈ f.params
  | .dyn n k => n ∈ f.q ∧ k ≤ 2

/-- The values of the arguments. -/
noncomputable def PinvFun.env (f : PinvFun) (q qd qdd p : List ℝ) : Quantity → ℝ
  | .sym n => p.getD (f.params.idxOf n) 0
  | .dyn n 0 => q.getD (f.q.idxOf n) 0
  | .dyn n 1 => qd.getD (f.q.idxOf n) 0
  | .dyn n 2 => qdd.getD (f.q.idxOf n) 0
  | .dyn _ _ => 0

open Classical in
/-- A call of the function made by `lambdify`: lists of another length are a `ValueError`, and whatever is not an argument is a `NameError`. -/
noncomputable def PinvFun.call (f : PinvFun) (q qd qdd p : List ℝ) : Except PErr (List ℝ) :=
  if q.length ≠ f.q.length ∨ qd.length ≠ f.q.length ∨ qdd.length ≠ f.q.length ∨ p.length ≠ f.params.length then .error .value
  else if ∃ e ∈ f.exprs, ∃ a ∈ e.atoms, ¬f.known a then .error .name
  else .ok (f.exprs.map (Expr.eval (f.env q qd qdd p)))

end Chords.PinvDyn
