import Mathlib.Data.Real.Archimedean
import Mathlib.Algebra.Order.Floor.Ring
import Mathlib.Algebra.Ring.Int.Parity

/-! # Rounding the numbers of an expression
chords/symbolic.py 134-156.

Simplification: SymPy evaluates an expression again after each replacement (`x**0` becomes `1`, numbers of a sum are added); here it is left as it is, so what is
shown is for expressions in which no replacement makes two numbers meet. -/

namespace Chords.Floats

/-- An expression of SymPy. A function, sum, product or power with its arguments is its head applied to one argument after the other. -/
inductive SExpr
  /-- `Float` -/
  | float (x : ℝ)
  /-- `Integer` and `Rational` -/
  | num (q : ℚ)
  | sym (name : String)
  | head (name : String)
  | app (f a : SExpr)

/-- Library code: `preorder_traversal`, each expression before its arguments. -/
def preorder : SExpr → List SExpr
  | .app f a => .app f a :: (preorder f ++ preorder a)
  | e => [e]

open Classical in
/-- Library code: `expr.subs(a, new)` with `a` a `Float`. -/
noncomputable def subs (a : ℝ) (new : SExpr) : SExpr → SExpr
  | .float x => if x = a then new else .float x
  | .app f b => .app (subs a new f) (subs a new b)
  | e => e

open Classical in
/-- Library code: `round(a)`, the closest integer and the even one of two. -/
noncomputable def roundEven (x : ℝ) : ℤ :=
  if x - ⌊x⌋ < 1 / 2 then ⌊x⌋
  else if x - ⌊x⌋ > 1 / 2 then ⌊x⌋ + 1
  else if Even ⌊x⌋ then ⌊x⌋ else ⌊x⌋ + 1

/-- Library code: `round(a, n)`, with the decimal number exact. -/
noncomputable def roundDigits (n : ℤ) (x : ℝ) : ℝ := roundEven (x * 10 ^ n) / 10 ^ n

/-- `integerize`, symbolic.py 134-139. -/
noncomputable def integerize (expr : SExpr) : SExpr :=
  (preorder expr).foldl (fun expr2 a => match a with
    | .float x => subs x (.num (roundEven x)) expr2
    | _ => expr2) expr

/-- `roundize`, symbolic.py 142-147. -/
noncomputable def roundize (expr : SExpr) (n : ℤ := 4) : SExpr :=
  (preorder expr).foldl (fun expr2 a => match a with
    | .float x => subs x (.float (roundDigits n x)) expr2
    | _ => expr2) expr

open Classical in
/-- `deletezeros`, symbolic.py 150-156. -/
noncomputable def deletezeros (expr : SExpr) (tol : ℝ := 1e-14) : SExpr :=
  (preorder expr).foldl (fun expr2 a => match a with
    | .float x => if |x| < tol then subs x (.num 0) expr2 else expr2
    | _ => expr2) expr

end Chords.Floats
