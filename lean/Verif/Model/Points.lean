import Verif.Spec.OrthoPoly
import Verif.Spec.PyList
import Mathlib.Analysis.SpecialFunctions.Trigonometric.Basic

/-! # Collocation, node and construction points
chords/pseudospectral.py 42-397, chords/bu_pseudospectral.py 53-187, chords/td_pseudospectral.py 51-108.

Real numbers replace floats (`evalf`, `float64`), so `precission` has no counterpart. The result caches
(`lru_cache`, `store_results`) are modelled separately (Model/Cache.lean). For point counts below those a
generator supports (`LGL(1)`, `JGL(1)`, `JGR(0)`, ...) sympy or numpy raise or return `nan`; the natural
subtraction below is not meant to model those calls and every theorem asks for enough points. -/

namespace Chords.Points
open Chords.Spec Polynomial

/-- What can be raised. -/
inductive Err
  | valueError | notImplemented
  deriving DecidableEq

/-- `_gauss_like_schemes`, pseudospectral.py 42. -/
def gaussLike : List String := ["LG", "JG", "CG"]
/-- `_gauss_inv_schemes`, pseudospectral.py 43. -/
def gaussInv : List String := gaussLike.map (· ++ "_inv")
/-- `_gauss_2_schemes`, pseudospectral.py 44. -/
def gauss2 : List String := gaussLike.map (· ++ "2") ++ ["LGLm"]
/-- `_radau_like_schemes`, pseudospectral.py 45. -/
def radauLike : List String := ["LGR", "JGR", "CGR"]
/-- `_radau_inv_schemes`, pseudospectral.py 46. -/
def radauInv : List String := radauLike.map (· ++ "_inv")
/-- `_lobato_like_schemes`, pseudospectral.py 47. -/
def lobatoLike : List String := ["LGL", "JGL", "CGL"]
/-- `_other_schemes`, pseudospectral.py 48. -/
def otherSchemes : List String := ["D2"]
/-- `_implemented_schemes`, pseudospectral.py 49-57. -/
def implemented : List String :=
  gaussLike ++ gaussInv ++ gauss2 ++ radauLike ++ radauInv ++ lobatoLike ++ otherSchemes

/-- `LG`, pseudospectral.py 60-63. -/
noncomputable def LG (N : ℕ) : List ℝ := realRoots (legendre N)

/-- `LGR`, pseudospectral.py 66-70. -/
noncomputable def LGR (N : ℕ) : List ℝ := realRoots (legendre N + legendre (N - 1))

/-- `LGL`, pseudospectral.py 73-88. -/
noncomputable def LGL (N : ℕ) : List ℝ := [-1] ++ realRoots (derivative (legendre (N - 1))) ++ [1]

/-- `LGLm`, pseudospectral.py 91-94. -/
noncomputable def LGLm (N : ℕ) : List ℝ := pySlice (some 1) (some (-1)) (LGL (N + 2))

/-- `JG`, pseudospectral.py 103-109. -/
noncomputable def JG (N order : ℕ) : List ℝ := realRoots (jacobi ((order : ℝ) - 1) 0 N)

/-- `JGR`, pseudospectral.py 112-118. -/
noncomputable def JGR (N order : ℕ) : List ℝ := [-1] ++ realRoots (jacobi ((order : ℝ) - 1) 1 (N - 1))

/-- `JGR_inv`, pseudospectral.py 121-127. -/
noncomputable def JGRinv (N order : ℕ) : List ℝ := realRoots (jacobi (order : ℝ) 0 (N - 1)) ++ [1]

/-- `JGL`, pseudospectral.py 130-140. -/
noncomputable def JGL (N order : ℕ) : List ℝ := [-1] ++ realRoots (jacobi (order : ℝ) 1 (N - 2)) ++ [1]

/-- `CG`, pseudospectral.py 149-154. -/
noncomputable def CG (N : ℕ) : List ℝ :=
  let theta := (List.range N).map fun (i : ℕ) => Real.pi * (2 * (i : ℝ) + 1) / (N : ℝ) / 2
  let tau := (theta.map Real.cos).reverse
  List.zipWith (fun a b => (a - b) / 2) tau tau.reverse

/-- `CGL`, pseudospectral.py 157-162. -/
noncomputable def CGL (N : ℕ) : List ℝ :=
  let theta := (List.range N).map fun (i : ℕ) => Real.pi * (i : ℝ) / ((N : ℝ) - 1)
  let tau := (theta.map Real.cos).reverse
  List.zipWith (fun a b => (a - b) / 2) tau tau.reverse

/-- `CGR`, pseudospectral.py 165-169. -/
noncomputable def CGR (N : ℕ) : List ℝ :=
  let theta := (List.range N).map fun (i : ℕ) => Real.pi * (2 * (i : ℝ)) / (2 * (N : ℝ) - 1)
  theta.map fun x => -Real.cos x

/-- `[-ii for ii in l[::-1]]`, pseudospectral.py 205 and 223. -/
def negRev (l : List ℝ) : List ℝ := l.reverse.map fun x => -x

/-- `coll_points`, pseudospectral.py 172-228. -/
noncomputable def collPoints (N : ℕ) (scheme : String) (order : ℕ := 2) : Except Err (List ℝ) :=
  if scheme ∈ ["LG", "LG_inv", "LG2"] then .ok (LG N)
  else if scheme = "LGR" then .ok (LGR N)
  else if scheme = "LGR_inv" then .ok (negRev (LGR N))
  else if scheme ∈ ["LGL", "D2"] then .ok (LGL N)
  else if scheme = "LGLm" then .ok (LGLm N)
  else if scheme ∈ ["JG", "JG_inv", "JG2"] then .ok (JG N order)
  else if scheme = "JGR" then .ok (JGR N order)
  else if scheme = "JGR_inv" then .ok (JGRinv N order)
  else if scheme = "JGL" then .ok (JGL N order)
  else if scheme ∈ ["CG", "CG_inv", "CG2"] then .ok (CG N)
  else if scheme = "CGR" then .ok (CGR N)
  else if scheme = "CGR_inv" then .ok (negRev (CGR N))
  else if scheme = "CGL" then .ok (CGL N)
  else .error .valueError

/-- `node_points`, pseudospectral.py 231-284. -/
noncomputable def nodePoints (N : ℕ) (scheme : String) : Except Err (List ℝ) :=
  if scheme ∈ gaussLike ++ radauInv then do
    let coll_p ← collPoints (N - 1) scheme 2
    return [-1] ++ coll_p
  else if scheme ∈ gaussInv ++ radauLike then do
    let coll_p ← collPoints (N - 1) scheme 2
    return coll_p ++ [1]
  else if scheme ∈ lobatoLike then collPoints N scheme 2
  else if scheme ∈ gauss2 then do
    let coll_p ← collPoints (N - 2) scheme 2
    return [-1] ++ coll_p ++ [1]
  else if scheme ∈ otherSchemes then
    if scheme ∈ ["D2"] then .ok (LGL N) else .error .notImplemented
  else .error .valueError

/-- `n_col_to_n_nodes`, pseudospectral.py 287-309. -/
def nColToNNodes (scheme : String) (n_coll : ℕ) : Except Err ℕ :=
  if scheme ∈ gaussLike ++ gaussInv then .ok (n_coll + 1)
  else if scheme ∈ radauInv ++ radauLike then .ok (n_coll + 1)
  else if scheme ∈ gauss2 then .ok (n_coll + 2)
  else if scheme ∈ lobatoLike then .ok n_coll
  else if scheme ∈ otherSchemes then
    if scheme = "D2" then .ok n_coll else .error .notImplemented
  else .error .notImplemented

/-- A Python `slice(start, stop)` object. -/
abbrev Slice := Option ℤ × Option ℤ

/-- `get_coll_indices_from_nodes`, pseudospectral.py 312-354. -/
def collIndicesFromNodes (scheme : String) : Except Err Slice :=
  if scheme ∈ gaussLike ++ radauInv then .ok (some 1, none)
  else if scheme ∈ gaussInv ++ radauLike then .ok (none, some (-1))
  else if scheme ∈ lobatoLike then .ok (none, none)
  else if scheme ∈ gauss2 then .ok (some 1, some (-1))
  else if scheme ∈ otherSchemes then
    if scheme ∈ ["D2"] then .ok (none, none) else .error .notImplemented
  else .error .notImplemented

/-- `get_coll_indices`, pseudospectral.py 357-397. -/
def collIndices (scheme : String) : Except Err Slice :=
  if scheme ∈ gaussLike ++ gaussInv ++ gauss2 then .ok (some 1, some (-1))
  else if scheme ∈ radauLike then .ok (none, some (-1))
  else if scheme ∈ radauInv then .ok (some 1, none)
  else if scheme ∈ lobatoLike then .ok (none, none)
  else if scheme ∈ otherSchemes then
    if scheme ∈ ["D2"] then .ok (none, none) else .error .notImplemented
  else .error .notImplemented

/-- The times (in tau) of the rows of `x`, `_Pseudospectral.opti_setup`, opti.py 676-692. -/
noncomputable def arrPoints (n_coll : ℕ) (scheme : String) : Except Err (List ℝ) := do
  let n_nodes ← nColToNNodes scheme n_coll
  let node_points_tau ← nodePoints n_nodes scheme
  if scheme ∈ gaussLike then return node_points_tau ++ [1]
  else if scheme ∈ gaussInv then return [-1] ++ node_points_tau
  else return node_points_tau

/-- `i0`, `_Pseudospectral.apply_scheme`, opti.py 1028-1031: the row of `x` used by the first dynamics constraint;
the `ii`-th one uses row `i0 + ii` of `x` and `x_d` and row `ii` of `u` (opti.py 1033-1043). -/
def i0 (scheme : String) : ℕ := if scheme ∈ lobatoLike ++ radauLike ++ ["D2"] then 0 else 1

/-- `_implemented_schemes`, bu_pseudospectral.py 53-64. -/
def buImplemented : List String := gaussLike ++ radauLike ++ radauInv ++ lobatoLike

/-- `BU_coll_points`, bu_pseudospectral.py 68-126. -/
noncomputable def buCollPoints (N : ℕ) (scheme : String) (order : ℕ := 2) : Except Err (List ℝ) :=
  if scheme = "LG" then .ok (LG N)
  else if scheme = "LGR" then .ok (LGR N)
  else if scheme = "LGR_inv" then .ok (negRev (LGR N))
  else if scheme ∈ ["LGL"] then .ok (LGL N)
  else if scheme = "JG" then .ok (JG N order)
  else if scheme = "JGR" then .ok (JGR N order)
  else if scheme = "JGR_inv" then .ok (JGRinv N order)
  else if scheme = "JGL" then .ok (JGL N order)
  else if scheme = "CG" then .ok (CG N)
  else if scheme = "CGR" then .ok (CGR N)
  else if scheme = "CGR_inv" then .ok (negRev (CGR N))
  else if scheme = "CGL" then .ok (CGL N)
  else .error .valueError

/-- `BU_construction_points`, bu_pseudospectral.py 129-187. -/
noncomputable def buConstructionPoints (N : ℕ) (scheme : String) (order : ℕ := 2) : Except Err (List ℝ) := do
  let coll_p ← buCollPoints N scheme order
  if scheme ∈ gaussLike then return coll_p ++ [1]
  else if scheme ∈ radauLike then return pySlice (some 1) none coll_p ++ [1]
  else if scheme ∈ radauInv then return coll_p
  else if scheme ∈ lobatoLike then return pySlice (some 1) none coll_p
  else .error .valueError

/-- The times (in tau) of the rows of `x`, `_BU_Pseudospectral.opti_setup`, opti.py 1241. -/
noncomputable def buArrPoints (N : ℕ) (scheme : String) (order : ℕ := 2) : Except Err (List ℝ) := do
  let constr ← buConstructionPoints N scheme order
  return [-1] ++ constr

/-- `TD_construction_points`, td_pseudospectral.py 50-108; also the times of the rows of `x`,
`_TD_Pseudospectral.opti_setup`, opti.py 1592. -/
noncomputable def tdConstructionPoints (N : ℕ) (scheme : String) (order : ℕ := 2) : Except Err (List ℝ) := do
  let coll_p ← buCollPoints N scheme order
  if scheme ∈ gaussLike then return [-1] ++ coll_p ++ [1]
  else if scheme ∈ radauLike then return coll_p ++ [1]
  else if scheme ∈ radauInv then return [-1] ++ coll_p
  else if scheme ∈ lobatoLike then return coll_p
  else .error .valueError

/-- The rows used by the dynamics constraints of the bottom-up and top-down problems, opti.py 1484 and 1820:
`[ii for ii in range(n_arr)][coll_index]`. -/
def dynRows (n_arr : ℕ) (coll_index : Slice) : List ℕ := pySlice coll_index.1 coll_index.2 (List.range n_arr)

end Chords.Points
