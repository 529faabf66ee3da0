import Mathlib.Data.Real.Basic
import Mathlib.Data.List.Sort
import Mathlib.Order.Lattice
import Mathlib.Data.List.Lex

/-! # Names of symbols
chords/symbolic.py 69-99, 111-131, 217-306, 376-548.

A symbol is its name, as SymPy compares symbols without assumptions. A dynamic symbol is a name and the order of its derivative. `symbols(name)` is read
as the symbol with that name, which holds for names without blanks, commas, colons and parentheses. Names are lists of
characters; the classes of characters of Python's `isdigit` and `isnumeric` are given. -/

namespace Chords.Names

abbrev Name := List Char

/-- What is used of Python's classes of characters. -/
class PyChars where
  digit : Char → Bool
  numeric : Char → Bool
  ascii : ∀ c : Char, c.isDigit → digit c
  sub : ∀ c, digit c → numeric c
  under : numeric '_' = false

inductive NErr
  | index | type
  deriving DecidableEq, Repr

/-- What an expression is made of: symbols, and dynamic symbols or their derivatives. -/
inductive Quantity
  | sym (n : Name)
  | dyn (n : Name) (level : ℕ)
  deriving DecidableEq

variable [PyChars]

/-- `"_dot" * k`. -/
def dots : ℕ → Name
  | 0 => []
  | k + 1 => '_' :: 'd' :: 'o' :: 't' :: dots k

/-- The condition for the names of coordinates, symbolic.py 254: `q_name[1]` raises for a name of one letter. -/
def isQ (n : Name) : Except NErr Bool :=
  if n.take 2 = ['q', '_'] then .ok true
  else match n with
    | [] => .error .index
    | [c] => if c = 'q' then .error .index else .ok false
    | c :: d :: _ => .ok (c = 'q' && PyChars.digit d)

/-- The name of a derivative, symbolic.py 255-262; `l` is the order minus one. -/
def derivName (q : Bool) (n : Name) (l : ℕ) : Name :=
  if q then
    if l = 0 then 'v' :: n.tail
    else if l = 1 then 'a' :: n.tail
    else 'a' :: (dots (l - 1) ++ n.tail)
  else n ++ dots (l + 1)

/-- `diff_to_symb`, symbolic.py 217-264. -/
def diffToSymb : Quantity → Except NErr Name
  | .sym n => .ok n
  | .dyn n 0 => .ok n
  | .dyn n (l + 1) => (isQ n).map fun q => derivName q n l

/-- The name that `standard_notation` gives to a symbol, symbolic.py 290-304. -/
def stdName (n : Name) : Name :=
  match n with
  | [] => []
  | c :: tail =>
    if !tail.isEmpty && tail.all PyChars.numeric then
      if c = 'q' then 'q' :: '_' :: tail
      else if c = 'v' then 'v' :: '_' :: tail
      else if c = 'a' then 'a' :: '_' :: tail
      else if c = 'u' then 'u' :: '_' :: tail
      else if c = 'x' then 'x' :: '_' :: tail
      else c :: tail
    else c :: tail

/-! ### Expressions -/

/-- Expressions: numbers, symbols and operations. -/
inductive Expr
  | num (c : ℝ)
  | atom (q : Quantity)
  | add (e f : Expr)
  | mul (e f : Expr)
  | fn (f : ℝ → ℝ) (e : Expr)

/-- The value of an expression. -/
noncomputable def Expr.eval (σ : Quantity → ℝ) : Expr → ℝ
  | num c => c
  | atom q => σ q
  | add e f => e.eval σ + f.eval σ
  | mul e f => e.eval σ * f.eval σ
  | fn f e => f (e.eval σ)

/-- `expr.atoms` of symbols and dynamic symbols. -/
def Expr.atoms : Expr → List Quantity
  | num _ => []
  | atom q => [q]
  | add e f => e.atoms ++ f.atoms
  | mul e f => e.atoms ++ f.atoms
  | fn _ e => e.atoms

/-- What replacing `old` by a symbol does to a quantity: a higher derivative of `old` becomes the derivative in time of the symbol, zero. -/
def subsAtom (old : Quantity) (new : Name) (q : Quantity) : Expr :=
  if q = old then .atom (.sym new)
  else match old, q with
    | .dyn n l, .dyn n' l' => if n' = n ∧ l < l' then .num 0 else .atom q
    | _, _ => .atom q

/-- `expr.subs(old, new)` with a symbol `new`. -/
def Expr.subs (old : Quantity) (new : Name) : Expr → Expr
  | num c => num c
  | atom q => subsAtom old new q
  | add e f => add (e.subs old new) (f.subs old new)
  | mul e f => mul (e.subs old new) (f.subs old new)
  | fn g e => fn g (e.subs old new)

/-- `expr.subs(list)`: the replacements one after the other. -/
def Expr.subsList (l : List (Quantity × Name)) (e : Expr) : Expr := l.foldl (fun e p => e.subs p.1 p.2) e

/-- `derivative_level`, symbolic.py 87-92. -/
def level : Quantity → ℕ
  | .sym _ => 0
  | .dyn _ l => l

/-- `sorted_dynamic_symbols`, symbolic.py 111-131. `found` is the set of dynamic symbols in the order that it has. -/
def sortedDyn (found : List Quantity) : List Quantity := found.insertionSort (fun a b => level b ≤ level a)

/-- `diff_to_symb_expr`, symbolic.py 267-272. -/
def diffToSymbExpr (found : List Quantity) (e : Expr) : Except NErr Expr :=
  ((sortedDyn found).mapM fun q => (diffToSymb q).map fun n => (q, n)).map fun l => e.subsList l

/-- `standard_notation`, symbolic.py 275-306. `found` is the set of symbols in the order that it has. -/
def standardNotation (found : List Name) (e : Expr) : Expr :=
  e.subsList ((found.filter fun n => stdName n ≠ n).map fun n => (.sym n, stdName n))

/-- The replacements of `q_2_x`, symbolic.py 84; dynamic symbols are replaced by dynamic symbols. -/
def subsAtomDyn (old new : Quantity) (q : Quantity) : Quantity :=
  if q = old then new
  else match old, new, q with
    | .dyn n l, .dyn m k, .dyn n' l' => if n' = n ∧ l < l' then .dyn m (k + (l' - l)) else q
    | _, _, _ => q

/-- `q_2_x`, symbolic.py 69-84: its effect on a quantity, with `qdots` the derivatives of `qs` given as quantities. -/
def q2x (qs qdots : List Quantity) (q : Quantity) : Quantity :=
  let n := qs.length
  let subs := (qdots.mapIdx fun i v => (v, Quantity.dyn ('x' :: '_' :: Nat.toDigits 10 (n + i)) 0)) ++
    (qs.mapIdx fun i v => (v, Quantity.dyn ('x' :: '_' :: Nat.toDigits 10 i) 0))
  subs.foldl (fun q p => subsAtomDyn p.1 p.2 q) q

/-! ### Arguments -/

/-- The symbol `c_k`. -/
def indexed (c : Char) (k : ℕ) : Name := c :: '_' :: Nat.toDigits 10 k

/-- `symbols("c_0:n")`. -/
def range (c : Char) (n : ℕ) : List Name := (List.range n).map (indexed c)

/-- `is_lambda`, symbolic.py 381-388, for the names of symbols. -/
def isLambda (n : Name) : Bool :=
  let n := if n.drop (n.length - 3) = ['(', 't', ')'] then n.take (n.length - 3) else n
  n.take 3 = ['l', 'a', 'm'] && (!(n.drop 3).isEmpty && (n.drop 3).all PyChars.digit)

inductive QVars
  | int (n : ℕ)
  /-- A list of dynamic symbols. -/
  | list (l : List Name)
  | other

inductive UVars
  | none
  | int (n : ℕ)
  /-- A list of symbols. -/
  | list (l : List Name)
  | other

structure Args where
  q : List Name
  v : List Name
  a : List Name
  u : List Name
  params : List Name
  lam : List Name
  deriving DecidableEq

/-- The lists that the loop fills. -/
structure Found where
  params : List Name := []
  lam : List Name := []
  u : List Name := []
  x : List Name := []
  a : List Name := []

/-- `add_if_not_there`, symbolic.py 376-378. -/
def addNew (l : List Name) (n : Name) : List Name := if n ∈ l then l else l ++ [n]

/-- The expected symbols. -/
structure Expected where
  q : List Name
  v : List Name
  a : List Name
  u : List Name

/-- The body of the loop, symbolic.py 503-514. -/
def look (e : Expected) (f : Found) (n : Name) : Found :=
  if n ∉ e.q ++ e.v ++ e.u ++ e.a then
    if isLambda n then { f with lam := addNew f.lam n } else { f with params := addNew f.params n }
  else if n ∈ e.u then { f with u := addNew f.u n }
  else if n ∈ e.q ++ e.v then { f with x := addNew f.x n }
  else if n ∈ e.a then { f with a := addNew f.a n }
  else f

/-- `sorted(l, key=get_str)`. -/
def sortNames (l : List Name) : List Name := l.insertionSort (· ≤ ·)

/-- The symbols expected for the coordinates, symbolic.py 474-485. -/
def expectedQ : QVars → Except NErr (List Name × List Name × List Name)
  | .int n => .ok (range 'q' n, range 'v' n, range 'a' n)
  | .list l => do
    let q ← l.mapM fun n => diffToSymb (.dyn n 0)
    let v ← l.mapM fun n => diffToSymb (.dyn n 1)
    let a ← l.mapM fun n => diffToSymb (.dyn n 2)
    return (q, v, a)
  | .other => .error .type

/-- The symbols expected for the controls, symbolic.py 487-496. -/
def expectedU (total : ℕ) : UVars → Except NErr (List Name)
  | .none => .ok (range 'u' total)
  | .list l => .ok l
  | .int n => .ok (range 'u' n)
  | .other => .error .type

/-- The controls that are returned, symbolic.py 536-537. -/
def reportU (u : UVars) (expected found : List Name) : List Name :=
  match u with
  | .none => sortNames found
  | _ => expected

/-- What is returned, symbolic.py 516-548. -/
def report (e : Expected) (u : UVars) (sepLam sepA : Bool) (f : Found) : Args :=
  let lam := sortNames f.lam
  let uFound := sortNames f.u
  let aFound := sortNames f.a
  let u' := reportU u e.u uFound
  let params := if sepLam then f.params else f.params ++ lam
  let lam := if sepLam then lam else []
  let params := if sepA then params else params ++ aFound
  let a := if sepA then e.a else []
  ⟨e.q, e.v, a, u', sortNames params, lam⟩

/-- `find_arguments`, symbolic.py 391-548, from the sets of symbols of the renamed expressions, in the order that they have. -/
def findArguments (sets : List (List Name)) (q : QVars) (u : UVars) (sepLam sepA : Bool) : Except NErr Args :=
  let total := (sets.map List.length).sum
  match expectedQ q with
  | .error e => .error e
  | .ok (qs, vs, as) =>
    match expectedU total u with
    | .error e => .error e
    | .ok us =>
      let e : Expected := ⟨qs, vs, as, us⟩
      .ok (report e u sepLam sepA (sets.foldl (fun f s => s.foldl (look e) f) {}))

/-- The name of a quantity of the expressions after symbolic.py 465. -/
def rename (q : Quantity) : Except NErr Name := (diffToSymb q).map stdName

end Chords.Names
