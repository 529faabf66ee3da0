import Verif.Model.Names

/-! # Symbolic dynamics as numeric functions
chords/casadi.py 22-60 (`sympy2casadi`), 77-186 (`rhs_to_casadi_function`), 189-268 (`implicit_dynamic_x_to_casadi_function`),
271-353 (`implicit_dynamic_q_to_casadi_function`), chords/opti.py 135-237 (`_get_f_g_funcs`), 3570-3591
(`_Explicit_Dynamics.dynamic_setup`), 3616-3656 (`_Implicit_Dynamics.dynamic_setup`).

A CasADi function is the sizes of its arguments and its values; rows and columns are not distinguished. Messages that are printed are left out. -/

namespace Chords.CasFuncs
open Names

variable [PyChars]

inductive CErr
  | names (e : NErr) | value | type
  /-- The `SyntaxError` of `lambdify` for repeated arguments. -/
  | syntax
  /-- The `NameError` for a symbol that is no argument. -/
  | name
  deriving DecidableEq

def liftN {A : Type} : Except NErr A → Except CErr A
  | .ok a => .ok a
  | .error e => .error (.names e)

/-- The orders in which Python visits the sets of the dynamic symbols and of the symbols of an expression. -/
structure SetOrder where
  dyn : Expr → List Quantity
  sym : Expr → List Name
  dyn_mem : ∀ e q, q ∈ dyn e ↔ q ∈ e.atoms ∧ ∃ n k, q = .dyn n k
  sym_mem : ∀ e n, n ∈ sym e ↔ .sym n ∈ e.atoms

/-- `standard_notation(diff_to_symb_expr(expr))`. -/
def renameExpr (o : SetOrder) (e : Expr) : Except CErr Expr := do
  let e' ← liftN (diffToSymbExpr (o.dyn e) e)
  return standardNotation (o.sym e') e'

/-- `find_arguments`, symbolic.py 464-548, of expressions. -/
def findArgs (o : SetOrder) (exprs : List Expr) (q : QVars) (u : UVars) (sepLam sepA : Bool) : Except CErr Args := do
  let es ← exprs.mapM (renameExpr o)
  liftN (findArguments (es.map o.sym) q u sepLam sepA)

/-- A function of several vectors. -/
structure CasFun where
  sizes : List ℕ
  run : List (List ℝ) → List ℝ

open Classical in
/-- `sympy2casadi`, casadi.py 22-60: the expression with its symbols replaced by the values with the same position. -/
noncomputable def sympy2casadi (e : Expr) (vars : List Name) : Except CErr (List ℝ → ℝ) :=
  if ¬vars.Nodup then .error .syntax
  else if ∃ q ∈ e.atoms, ∀ n ∈ vars, q ≠ .sym n then .error .name
  else .ok fun vals => e.eval fun q => match q with
    | .sym n => vals.getD (vars.idxOf n) 0
    | .dyn _ _ => 0

/-- `cas_funcs` as a function of the vectors of the arguments, whose entries are the values of the symbols, in order;
casadi.py 171-186, 254-268, 338-353. -/
noncomputable def assemble (funcs : List Expr) (groups : List (List Name)) : Except CErr CasFun := do
  let fs ← funcs.mapM fun e => sympy2casadi e groups.flatten
  return ⟨groups.map List.length, fun args => fs.map fun f => f args.flatten⟩

/-- The expressions of `x'`, casadi.py 122-131. -/
def funcsX (a : Args) (RHS : List Expr) : Except CErr (List Expr) :=
  if a.q.length = RHS.length then .ok (a.v.map (fun n => .atom (.sym n)) ++ RHS)
  else if RHS.length = (a.q ++ a.v).length then .ok RHS
  else .error .value

/-- The expressions of the accelerations, casadi.py 132-140. -/
def funcsQ (a : Args) (RHS : List Expr) : Except CErr (List Expr) :=
  if a.q.length = RHS.length then .ok RHS
  else if RHS.length = (a.q ++ a.v).length then .ok (RHS.drop (RHS.length / 2))
  else .error .value

/-- `rhs_to_casadi_function`, casadi.py 77-186. -/
noncomputable def rhsToCasadi (o : SetOrder) (RHS : List Expr) (q : QVars) (u : UVars) (mode : String) : Except CErr CasFun := do
  let RHS ← RHS.mapM (renameExpr o)
  let a ← findArgs o RHS q u false false
  if mode = "x" then
    let funcs ← funcsX a RHS
    assemble funcs [a.q ++ a.v, a.u, a.params]
  else if mode = "q" then
    let funcs ← funcsQ a RHS
    assemble funcs [a.q, a.v, a.u, a.params]
  else .error .value

/-- `list(dynamicsymbols("c_0:n"))`, or the given list; casadi.py 229-232 and 308-311. -/
def dynVars (c : Char) : QVars → Except CErr (List Name)
  | .int n => .ok (range c n)
  | .list l => .ok l
  | .other => .error .type

/-- `implicit_dynamic_x_to_casadi_function`, casadi.py 189-268. -/
noncomputable def implicitXFun (o : SetOrder) (D : List Expr) (x : QVars) (u : UVars) : Except CErr CasFun := do
  let D ← D.mapM (renameExpr o)
  let l ← dynVars 'x' x
  let a ← findArgs o D (.list l) u true false
  assemble D [a.q, a.v, a.u, a.lam, a.params]

/-- `implicit_dynamic_q_to_casadi_function`, casadi.py 271-353. -/
noncomputable def implicitQFun (o : SetOrder) (D : List Expr) (q : QVars) (u : UVars) : Except CErr CasFun := do
  let D ← D.mapM (renameExpr o)
  let l ← dynVars 'q' q
  let a ← findArgs o D (.list l) u true true
  assemble D [a.q, a.v, a.a, a.u, a.lam, a.params]

/-- The length of `q_vars`, opti.py 174-180. -/
def qNumber : QVars → Except CErr ℕ
  | .int n => .ok n
  | .list l => .ok l.length
  | .other => .error .value

/-- The three functions of `_get_f_g_funcs`. -/
structure FG where
  f_x : CasFun
  g_x : CasFun
  g_q : CasFun

/-- Argument number `i` of a call. -/
def arg (args : List (List ℝ)) (i : ℕ) : List ℝ := args.getD i []

/-- The difference of two vectors. -/
noncomputable def vsub (a b : List ℝ) : List ℝ := List.zipWith (· - ·) a b

/-- `_get_f_g_funcs`, opti.py 135-237. Simplification: the sizes of the matrices that are subtracted are not compared, since both are made
with the number of coordinates. -/
noncomputable def getFG (o : SetOrder) (RHS : List Expr) (q : QVars) (u : UVars) : Except CErr FG := do
  let n_q ← qNumber q
  let F ← rhsToCasadi o RHS q u "x"
  let G ← rhsToCasadi o RHS q u "q"
  let n_u := F.sizes.getD 1 0
  let n_p := F.sizes.getD 2 0
  return {
    f_x := ⟨[n_q * 2, n_q * 2, n_u, 0, n_p], fun s => vsub (arg s 1) (F.run [arg s 0, arg s 2, arg s 4])⟩
    g_x := ⟨[n_q * 2, n_q * 2, n_u, 0, n_p],
      fun s => vsub ((arg s 1).drop n_q) ((F.run [arg s 0, arg s 2, arg s 4]).drop n_q)⟩
    g_q := ⟨[n_q, n_q, n_q, n_u, 0, n_p], fun s => vsub (arg s 2) (G.run [arg s 0, arg s 1, arg s 3, arg s 5])⟩ }

/-- What `dynamic_setup` stores in the problem. -/
structure Setup where
  params_sym : List Name
  dyn_f_restr : CasFun
  dyn_g_restr : CasFun
  n_lambdas : ℕ

/-- `_Explicit_Dynamics.dynamic_setup`, opti.py 3565-3591, for an `LM` without stored functions. `n_u` is left out: it is read from the
shape of an argument that is a row, and what that is depends on CasADi. -/
noncomputable def explicitSetup (o : SetOrder) (RHS : List Expr) (q : List Name) (u : UVars) : Except CErr Setup := do
  let a ← findArgs o RHS (.list q) u false false
  let fg ← getFG o RHS (.list q) u
  return ⟨a.params, fg.f_x, fg.g_q, 0⟩

/-- `_Implicit_Dynamics.dynamic_setup`, opti.py 3614-3656, for an `LM` without stored functions: `x_vars` are the dynamic symbols `x_i`
(C96). The argument `u_vars` is not used. -/
noncomputable def implicitSetup (o : SetOrder) (implX implQ : List Expr) (q : List Name) : Except CErr Setup := do
  let a ← findArgs o implQ (.list q) .none true false
  let f ← implicitXFun o implX (.list (range 'x' (2 * q.length))) .none
  let g ← implicitQFun o implQ (.list q) .none
  return ⟨a.params, f, g, f.sizes.getD 3 0⟩

end Chords.CasFuncs
