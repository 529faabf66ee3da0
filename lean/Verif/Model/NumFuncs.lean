import Verif.Model.CasFuncs
import Verif.Model.NumTools

/-! # Symbolic dynamics as numpy functions and as text
chords/numpy.py 78-232 (`RHS2numpy`, `Sym2Fx`), chords/symbolic.py 41-66 (`is_iterable`, `make_list`), 551-700 (`printer_function`, `print_funcs_RHS`,
`print_funcs`).

Messages that are printed are left out. `make_list` of a list, a matrix or one expression is the list of the expressions. -/

namespace Chords.NumFuncs
open Names CasFuncs

variable [PyChars]

/-! ## Functions -/

inductive FErr
  | sym (e : CErr)
  | num (e : NumTools.NErr)
  deriving DecidableEq

/-- The value of an expression of symbols when variable `i` has the value `env i`. -/
noncomputable def valueAt (vars : List Name) (env : ℕ → ℝ) (e : Expr) : ℝ := e.eval fun q => match q with
  | .sym n => env (vars.idxOf n)
  | .dyn _ _ => 0

/-- The positions of the symbols of an expression. -/
def positions (vars : List Name) (e : Expr) : List ℕ := e.atoms.map fun q => match q with
  | .sym n => vars.idxOf n
  | .dyn _ _ => 0

omit [PyChars] in
theorem valueAt_local (vars : List Name) (e : Expr) (f g : ℕ → ℝ) (h : ∀ i ∈ positions vars e, f i = g i) :
    valueAt vars f e = valueAt vars g e := by
  unfold valueAt
  induction e with
  | num c => rfl
  | atom q =>
    cases q with
    | sym n => exact h _ (by simp [positions, Expr.atoms])
    | dyn n k => rfl
  | add a b ha hb =>
    simp only [Expr.eval]
    rw [ha fun i hi => h i ?_, hb fun i hi => h i ?_] <;> simp only [positions, Expr.atoms, List.map_append, List.mem_append] at hi ⊢ <;> simp [hi]
  | mul a b ha hb =>
    simp only [Expr.eval]
    rw [ha fun i hi => h i ?_, hb fun i hi => h i ?_] <;> simp only [positions, Expr.atoms, List.map_append, List.mem_append] at hi ⊢ <;> simp [hi]
  | fn k a ha =>
    simp only [Expr.eval]
    rw [ha fun i hi => h i (by simpa [positions, Expr.atoms] using hi)]

open Classical in
/-- `lambdify(vars, expr)`: repeated variables are a `SyntaxError`; a symbol that is no variable is a `NameError` when the function is called. -/
noncomputable def lambdify (vars : List Name) (e : Expr) : Except CErr (Except CErr NumTools.Expr) :=
  if ¬vars.Nodup then .error .syntax
  else if ∃ q ∈ e.atoms, ∀ n ∈ vars, q ≠ .sym n then .ok (.error .name)
  else .ok (.ok ⟨positions vars e, fun env => valueAt vars env e, valueAt_local vars e⟩)

/-- The closure that is returned: the number of symbols and `np_funcs`. -/
structure NumFun where
  n_vars : ℕ
  funcs : List (Except CErr NumTools.Expr)

/-- `func(*all_np_vars)`. -/
noncomputable def callOne (n_vars : ℕ) (args : List NumTools.Val) (f : Except CErr NumTools.Expr) : Except FErr NumTools.Val :=
  if args.length ≠ n_vars then .error (.num .typeError)
  else match f with
    | .error e => .error (.sym e)
    | .ok g => (g.eval args).mapError .num

/-- `New_F` of the lists of arguments, numpy.py 154-159, 163-168 and 224-229. -/
noncomputable def NumFun.call (F : NumFun) (args : List NumTools.Val) : Except FErr NumTools.Val := do
  let parts ← args.mapM fun v => (NumTools.unpack v).mapError FErr.num
  let results ← F.funcs.mapM (callOne F.n_vars parts.flatten)
  (NumTools.congruentConcatenate results).mapError .num

/-- `RHS2numpy`, numpy.py 78-170. The function takes `x, u, params` in mode `"x"` and `q, v, u, params` in mode `"q"`. -/
noncomputable def rhs2numpy (o : SetOrder) (RHS : List Expr) (q : QVars) (u : UVars) (mode : String) : Except CErr NumFun := do
  let RHS ← RHS.mapM (renameExpr o)
  let a ← findArgs o RHS q u false false
  let funcs ← if mode = "x" then funcsX a RHS else if mode = "q" then funcsQ a RHS else .error .value
  let all_vars := a.q ++ a.v ++ a.u ++ a.params
  let fs ← funcs.mapM (lambdify all_vars)
  return ⟨all_vars.length, fs⟩

/-- `Sym2Fx`, numpy.py 173-232. The warning about the number of rows is left out. -/
noncomputable def sym2Fx (o : SetOrder) (RHS : List Expr) (x : QVars) (u : UVars) : Except CErr NumFun := do
  let RHS ← RHS.mapM (renameExpr o)
  let a ← findArgs o RHS x u false false
  let all_vars := a.q ++ a.u ++ a.params
  let fs ← RHS.mapM (lambdify all_vars)
  return ⟨all_vars.length, fs⟩

/-! ## Text of functions

The text that is printed is a function definition. It is represented by its arguments and its statements, and `run` is what Python does with them. -/

/-- Python values: numbers and lists. -/
inductive PyVal
  | num (a : ℝ)
  | list (l : List PyVal)

inductive PyErr
  | syntax | name | type | value
  /-- Not modelled: arithmetic with lists and nested lists given to `unpack`. -/
  | lists

/-- An expression as it is printed: the symbols are names; functions are looked up in a module, if any. -/
structure Printed where
  expr : Expr
  mod : Option Name

inductive Stmt
  /-- `targets = unpack(arg)` -/
  | unpack (targets : List Name) (arg : Name)
  /-- `targets = arg` -/
  | assign (targets : List Name) (arg : Name)
  /-- `result = [names,]`; nothing but a comma is a `SyntaxError`. -/
  | start (names : List Name)
  /-- `result = []` -/
  | empty
  /-- `result = expr` -/
  | result (e : Printed)
  /-- `result.append(expr)` -/
  | append (e : Printed)

/-- `def F(args): body; return result`. -/
structure PyFun where
  args : List Name
  body : List Stmt

/-- `re.sub("numpy", new, text)` on a name. -/
def subNumpy (new : Name) (fuel : ℕ) (n : Name) : Name :=
  match fuel, n with
  | 0, n => n
  | _, [] => []
  | k + 1, c :: t =>
    if "numpy".toList.isPrefixOf (c :: t) then new ++ subNumpy new k ((c :: t).drop 5) else c :: subNumpy new k t

/-- The symbols of an expression through `f`. -/
def mapSymbols (f : Name → Name) : Expr → Expr
  | .num c => .num c
  | .atom (.sym n) => .atom (.sym (f n))
  | .atom (.dyn n k) => .atom (.dyn n k)
  | .add a b => .add (mapSymbols f a) (mapSymbols f b)
  | .mul a b => .mul (mapSymbols f a) (mapSymbols f b)
  | .fn g a => .fn g (mapSymbols f a)

/-- `printer_function`, symbolic.py 551-581. -/
def printerFunction (flavour : String) (e : Expr) : Printed :=
  if flavour = "numpy" then ⟨e, some "numpy".toList⟩
  else if flavour = "np" then ⟨mapSymbols (fun n => subNumpy "np".toList n.length n) e, some "np".toList⟩
  else if flavour = "casadi" then ⟨mapSymbols (fun n => subNumpy "cas".toList n.length n) e, some "cas".toList⟩
  else ⟨e, none⟩

/-- The text of `print_funcs_RHS`, symbolic.py 584-634. -/
def printFuncsRHS (o : SetOrder) (RHS : List Expr) (q : QVars) (u : UVars) (flavour : String) : Except CErr PyFun := do
  let RHS ← RHS.mapM (renameExpr o)
  let a ← findArgs o RHS q u false false
  return ⟨["x".toList, "u".toList, "params".toList],
    [.unpack (a.q ++ a.v) "x".toList, .unpack a.u "u".toList, .assign a.params "params".toList, .start a.v] ++
      RHS.map fun e => .append (printerFunction flavour e)⟩

/-- What is written for a list that is not empty. -/
def ifAny {A : Type} (l : List Name) (x : A) : List A := if l.length > 0 then [x] else []

/-- The lines with the results, symbolic.py 691-696. -/
def resultLines (flavour : String) (es : List Expr) : List Stmt :=
  match es with
  | [e] => [.result (printerFunction flavour e)]
  | es => .empty :: es.map fun e => .append (printerFunction flavour e)

/-- The text of `print_funcs`, symbolic.py 637-700. -/
def printFuncs (o : SetOrder) (exprs : List Expr) (q : QVars) (flavour : String) : Except CErr PyFun := do
  let es ← exprs.mapM (renameExpr o)
  let a ← findArgs o es q .none false false
  let x_args := a.q ++ a.v
  return ⟨ifAny x_args "x".toList ++ ifAny a.u "u".toList ++ ifAny a.params "params".toList,
    ifAny x_args (.unpack x_args "x".toList) ++ ifAny a.u (.unpack a.u "u".toList) ++
      ifAny a.lam (.unpack a.lam "lambda".toList) ++ ifAny a.params (.assign a.params "params".toList) ++ resultLines flavour es⟩

/-! ### What Python does with the text -/

abbrev Env := Name → Option PyVal

/-- `n = v` -/
def Env.set (s : Env) (n : Name) (v : PyVal) : Env := fun m => if m = n then some v else s m

def Env.get (s : Env) (n : Name) : Except PyErr PyVal := match s n with
  | some v => .ok v
  | none => .error .name

/-- `n1, n2, ... = v1, v2, ...` -/
def Env.setAll (s : Env) (ns : List Name) (vs : List PyVal) : Env := (ns.zip vs).foldl (fun s p => s.set p.1 p.2) s

/-- `targets = v`: one target is bound to the value, several take its elements. -/
def assign (s : Env) (targets : List Name) (v : PyVal) : Except PyErr Env :=
  match targets with
  | [] => .error .syntax
  | [n] => .ok (s.set n v)
  | ns => match v with
    | .num _ => .error .type
    | .list l => if l.length = ns.length then .ok (s.setAll ns l) else .error .value

def PyVal.isNum : PyVal → Bool
  | .num _ => true
  | .list _ => false

/-- `unpack(v)`, numpy.py 25-40, for a number or a list of numbers. -/
def unpackPy (s : Env) (v : PyVal) : Except PyErr PyVal :=
  if (s "unpack".toList).isSome then .error .type
  else match v with
    | .num a => .ok (.list [.num a])
    | .list l => if l.all PyVal.isNum then .ok (.list l) else .error .lists

/-- An operation with numbers. -/
noncomputable def arith (f : ℝ → ℝ → ℝ) : PyVal → PyVal → Except PyErr PyVal
  | .num a, .num b => .ok (.num (f a b))
  | _, _ => .error .lists

/-- A function of numbers, looked up in a module. -/
noncomputable def applyFn (s : Env) (mod : Option Name) (g : ℝ → ℝ) (v : PyVal) : Except PyErr PyVal :=
  if (mod.any fun m => (s m).isSome) then .error .type
  else match v with
    | .num a => .ok (.num (g a))
    | .list _ => .error .lists

/-- The value of a printed expression. -/
noncomputable def evalPy (s : Env) (mod : Option Name) : Expr → Except PyErr PyVal
  | .num c => .ok (.num c)
  | .atom (.sym n) => s.get n
  | .atom (.dyn _ _) => .error .name
  | .add a b => do arith (· + ·) (← evalPy s mod a) (← evalPy s mod b)
  | .mul a b => do arith (· * ·) (← evalPy s mod a) (← evalPy s mod b)
  | .fn g a => do applyFn s mod g (← evalPy s mod a)

/-- `v.append(w)` -/
def appendTo (v w : PyVal) : Except PyErr PyVal := match v with
  | .list l => .ok (.list (l ++ [w]))
  | .num _ => .error .type

/-- One statement. -/
noncomputable def exec (s : Env) : Stmt → Except PyErr Env
  | .unpack targets arg => do assign s targets (← unpackPy s (← s.get arg))
  | .assign targets arg => do assign s targets (← s.get arg)
  | .start names => do return s.set "result".toList (.list (← names.mapM s.get))
  | .empty => .ok (s.set "result".toList (.list []))
  | .result e => do return s.set "result".toList (← evalPy s e.mod e.expr)
  | .append e => do return s.set "result".toList (← appendTo (← s.get "result".toList) (← evalPy s e.mod e.expr))

/-- Lines that are not Python: nothing to the left of `=`, a list of just a comma, the keyword `lambda`. -/
def Stmt.wrong : Stmt → Bool
  | .unpack targets arg => targets.isEmpty || arg == "lambda".toList
  | .assign targets _ => targets.isEmpty
  | .start names => names.isEmpty
  | _ => false

/-- `F(*vals)` for the function that the text defines. -/
noncomputable def PyFun.run (f : PyFun) (vals : List PyVal) : Except PyErr PyVal :=
  if f.body.any Stmt.wrong then .error .syntax
  else if vals.length ≠ f.args.length then .error .type
  else do
    let s ← f.body.foldlM exec (Env.setAll (fun _ => none) f.args vals)
    s.get "result".toList

end Chords.NumFuncs
