import Verif.Model.BuTd
import Verif.Model.PhLayout

/-! # Constraints of segmented (ph) problems
chords/opti.py 2771-3079, with the rows and lists of `opti_setup`, opti.py 2389-2600.

As in Model/BuTd.lean the optimisation variables are real matrices and the constraints a proposition about them. Row `i` of `Vars.u` is
row `i` of `u_like_x`; the rows of `u` are its collocation rows (opti.py 2425-2437). A comparison of parts without elements, as with
`x_e[n_q:]` for order 1, is taken as no constraint; CasADi raises for it. Model/Conditions.lean tells when there are such comparisons. -/

namespace Chords.PhScheme
open Finset Chords.Points Chords.Spec Chords.Bary Chords.TimeScale Chords.BuTd

/-- What `apply_scheme` reads of one segment: rows of its start, of its collocation block and of its end, its number of points and its
length, and whether it is the first or the last one. -/
structure Seg where
  start : ℕ
  col : List ℕ
  stop : ℕ
  n : ℕ
  h : ℝ
  first : Bool
  last : Bool

/-- The rows of the lists `"..._knot_ext"`, opti.py 2402-2412 and 2499-2516: the first row, the rows after each block but the last, and the
last row. -/
def knotRows (points : List ℕ) : List ℕ := 0 :: (((Ph.segRows 1 points).map Prod.snd).dropLast ++ [Ph.nArr points - 1])

/-- The segments as the loops over `range(n_segments)` see them. -/
noncomputable def segs (points : List ℕ) (ext : List ℝ) : List Seg :=
  (List.range points.length).map fun i => ⟨(knotRows points).getD i 0, ((Ph.segRows 1 points).getD i ([], 0)).1, (knotRows points).getD (i + 1) 0,
    points.getD i 0, (Ph.hArr ext).getD i 0, decide (i = 0), decide (i = points.length - 1)⟩

/-- `x_r[n_q:] == x_d_r[:-n_q]` at row `r`. -/
def shift (order n_q r : ℕ) (v : Vars) : Prop := ∀ c < (order - 1) * n_q, v.x r (n_q + c) = v.xd r c

/-! ## Top-down -/

/-- `_res_mat`, opti.py 2827-2828, row `i` and column `j`. -/
noncomputable def tdRes (D L : ℕ → ℕ → ℝ) (size : ℕ) (h : ℝ) (q : ℕ → ℕ → ℝ) (ii i j : ℕ) : ℝ :=
  ∑ c ∈ range size, (∑ l ∈ range size, ((2 / h) ^ ii * L i l) * matPow size D ii l c) * q c j

/-- The constraints of one segment, opti.py 2818-2856; `rows` are the numbers `coll_index` selects among the `nL` rows of `L`. -/
def tdSeg (D L : ℕ → ℕ → ℝ) (nL : ℕ) (rows : List ℕ) (order n_q : ℕ) (g : Seg) (v : Vars) (q : ℕ → ℕ → ℝ) : Prop :=
  (∀ ii < order + 1, ∀ j < n_q,
    (∀ m < g.col.length, v.lev order n_q ii (g.col.getD m 0) j = tdRes D L (order + g.n) g.h q ii (rows.getD m 0) j) ∧
    v.lev order n_q ii g.start j = tdRes D L (order + g.n) g.h q ii 0 j ∧
    (ii ≤ order ∨ g.last = true → v.lev order n_q ii g.stop j = tdRes D L (order + g.n) g.h q ii (nL - 1) j)) ∧
  shift order n_q g.stop v ∧ (g.first = true → shift order n_q g.start v)

/-- The constraints of one segment with its matrices. -/
noncomputable def phTd (scheme : String) (s : Slice) (order n_q : ℕ) (g : Seg) : Except BErr (Vars → (ℕ → ℕ → ℝ) → Prop) := do
  let D_nu ← lift (matrixDNu (order + g.n))
  let L ← lift (matrixL g.n scheme order)
  let full ← lift (tdConstructionPoints g.n scheme order)
  return tdSeg D_nu L full.length (dynRows full.length s) order n_q g

/-! ## Bottom-up -/

/-- `_res_h_q_d_start`, opti.py 2876-2889. -/
noncomputable def hqdStart (scheme : String) (order n_q : ℕ) (g : Seg) : Except BErr (Vars → ℕ → ℝ) :=
  if scheme ∈ gaussLike ++ radauInv then do
    let start_mat ← lift (extremeMatrix g.n scheme "start" order)
    return fun v j => ∑ c ∈ range g.n, start_mat c * v.lev order n_q order (g.col.getD c 0) j
  else if scheme ∈ lobatoLike ++ radauLike then .ok fun v j => v.lev order n_q order (g.col.getD 0 0) j
  else .error (.points .valueError)

/-- `_res_h_q_d_end`, opti.py 2894-2906. -/
noncomputable def hqdEnd (scheme : String) (order n_q : ℕ) (g : Seg) : Except BErr (Vars → ℕ → ℝ) :=
  if scheme ∈ gaussLike ++ radauLike then do
    let end_mat ← lift (extremeMatrix g.n scheme "end" order)
    return fun v j => ∑ c ∈ range g.n, end_mat c * v.lev order n_q order (g.col.getD c 0) j
  else if scheme ∈ lobatoLike ++ radauInv then .ok fun v j => v.lev order n_q order (g.col.getD (g.col.length - 1) 0) j
  else .error (.points .valueError)

/-- The test for the last segment, opti.py 2893. -/
noncomputable def hqdLast (scheme : String) (order n_q : ℕ) (g : Seg) : Except BErr (Vars → ℕ → ℝ) :=
  if g.last then hqdEnd scheme order n_q g else .ok fun _ _ => 0

/-- `polynomial_data`, opti.py 2867-2871. -/
def buData (order n_q : ℕ) (g : Seg) (v : Vars) (j c : ℕ) : ℝ :=
  if c < order then v.lev order n_q c g.start j else v.lev order n_q order (g.col.getD (c - order) 0) j

/-- `_res_mat`, opti.py 2936-2937: the start row on top of the product. -/
def buRes (mat : ℕ → ℕ → ℝ) (order n_q : ℕ) (g : Seg) (v : Vars) (ii i j : ℕ) : ℝ :=
  match i with
  | 0 => v.lev order n_q ii g.start j
  | i + 1 => ∑ c ∈ range (order + g.n), mat i c * buData order n_q g v j c

/-- The constraints of one segment, opti.py 2891-2949. -/
def buSeg (sv ev : Vars → ℕ → ℝ) (mats : ℕ → ℕ → ℕ → ℝ) (nI : ℕ) (rows : List ℕ) (order n_q : ℕ) (g : Seg) (v : Vars) : Prop :=
  (∀ j < n_q, v.lev order n_q order g.start j = sv v j) ∧
  (g.last = true → ∀ j < n_q, v.lev order n_q order g.stop j = ev v j) ∧
  shift order n_q g.stop v ∧ (g.first = true → shift order n_q g.start v) ∧
  ∀ ii < order, ∀ j < n_q,
    (∀ m < g.col.length, v.lev order n_q ii (g.col.getD m 0) j = buRes (mats ii) order n_q g v ii (rows.getD m 0) j) ∧
    v.lev order n_q ii g.stop j = buRes (mats ii) order n_q g v ii nI j

/-- The constraints of one segment with its matrices, opti.py 2859-2949. -/
noncomputable def phBu (scheme : String) (s : Slice) (order n_q : ℕ) (g : Seg) : Except BErr (Vars → Prop) := do
  let sv ← hqdStart scheme order n_q g
  let ev ← hqdLast scheme order n_q g
  let mats ← (List.range order).mapM fun ii => integrationMatrix g.n scheme ii g.h order
  let constr ← lift (buConstructionPoints g.n scheme order)
  return buSeg sv ev (fun ii => mats.getD ii fun _ _ => 0) constr.length (dynRows (constr.length + 1) s) order n_q g

/-! ## Node based -/

/-- The rows of `_x_node`, opti.py 2968-2981. -/
def nodeRows (scheme : String) (g : Seg) : List ℕ :=
  (if scheme ∈ gaussLike ++ radauInv ++ gauss2 then [g.start] else []) ++ g.col ++
    if scheme ∈ gaussInv ++ radauLike ++ gauss2 then [g.stop] else []

/-- The whole rows of `x`, or of `x_d`, are equal: `_x_start == _x_node[0, :]`. -/
def sameRow (order n_q : ℕ) (a : ℕ → ℕ → ℝ) (r r' : ℕ) : Prop := ∀ c < order * n_q, a r c = a r' c

/-- `opti.subject_to(_x_r == f(_x_node))` and the same for the last block of `x_d`, opti.py 3013-3016 and 3024-3025. -/
def extreme (order n_q : ℕ) (nodes : List ℕ) (f : (ℕ → ℝ) → ℝ) (r : ℕ) (v : Vars) : Prop :=
  (∀ c < order * n_q, v.x r c = f fun i => v.x (nodes.getD i 0) c) ∧
  ∀ j < n_q, v.lev order n_q order r j = f fun i => v.lev order n_q order (nodes.getD i 0) j

/-- The constraints of one segment, opti.py 2982-3027; `fs`, `fe` are `f_start` and `f_end`. -/
def nodeSeg (scheme : String) (D : ℕ → ℕ → ℝ) (n_nodes : ℕ) (fs fe : (ℕ → ℝ) → ℝ) (order n_q : ℕ) (g : Seg) (v : Vars) : Prop :=
  let nodes := nodeRows scheme g
  (∀ i < n_nodes, ∀ c < order * n_q, v.xd (nodes.getD i 0) c = 2 / g.h * ∑ k ∈ range n_nodes, D i k * v.x (nodes.getD k 0) c) ∧
  (scheme ∈ gauss2 → shift order n_q g.start v ∧ (g.last = true → shift order n_q g.stop v)) ∧
  (scheme ∈ lobatoLike ++ radauLike → sameRow order n_q v.x g.start (nodes.getD 0 0) ∧
    (g.first = true → sameRow order n_q v.xd g.start (nodes.getD 0 0))) ∧
  (scheme ∈ lobatoLike ++ radauInv → sameRow order n_q v.x g.stop (nodes.getD (nodes.length - 1) 0)) ∧
  (scheme ∈ lobatoLike → sameRow order n_q v.xd g.stop (nodes.getD (nodes.length - 1) 0)) ∧
  (scheme ∈ radauInv ∧ g.last = true → sameRow order n_q v.xd g.stop (nodes.getD (nodes.length - 1) 0)) ∧
  (scheme ∈ gaussInv → extreme order n_q nodes fs g.start v ∧ (g.first = true → shift order n_q g.start v)) ∧
  (scheme ∈ gaussLike → extreme order n_q nodes fe g.stop v ∧ (g.last = true → shift order n_q g.stop v))

/-- `f_start` where it is used, opti.py 3010-3012. -/
noncomputable def fStart (scheme : String) (order n_nodes : ℕ) : Except BErr ((ℕ → ℝ) → ℝ) :=
  if scheme ∈ gaussInv then lift (baryExtreme scheme n_nodes "x" "start" order) else .ok fun _ => 0

/-- `f_end` where it is used, opti.py 3020-3022. -/
noncomputable def fEnd (scheme : String) (order n_nodes : ℕ) : Except BErr ((ℕ → ℝ) → ℝ) :=
  if scheme ∈ gaussLike then lift (baryExtreme scheme n_nodes "x" "end" order) else .ok fun _ => 0

/-- The constraints of one segment with its matrix, opti.py 2952-3027. -/
noncomputable def phNode (scheme : String) (order n_q : ℕ) (g : Seg) : Except BErr (Vars → Prop) := do
  let n_nodes ← lift (nColToNNodes scheme g.n)
  let D_mat ← lift (matrixDBary n_nodes scheme)
  let fs ← fStart scheme order n_nodes
  let fe ← fEnd scheme order n_nodes
  return nodeSeg scheme D_mat n_nodes fs fe order n_q g

/-! ## All -/

/-- The value of the controls at the start of a segment, opti.py 3060-3068: a function of the controls at its points. -/
noncomputable def uStart (scheme : String) (order n : ℕ) : Except BErr ((ℕ → ℝ) → ℝ) :=
  if scheme ∈ radauLike ++ lobatoLike then .ok fun u => u 0 else lift (baryExtreme scheme n "u" "start" order)

/-- The value at the end of the last segment, opti.py 3072-3078. -/
noncomputable def uEnd (scheme : String) (order n : ℕ) : Except BErr ((ℕ → ℝ) → ℝ) :=
  if scheme ∈ radauInv ++ lobatoLike then .ok fun u => u (n - 1) else lift (baryExtreme scheme n "u" "end" order)

/-- `scheme_mode`. -/
inductive Mode
  | td | bu | node
  deriving DecidableEq

/-- The branch on the mode, opti.py 2815-3030, for one segment; only the top-down mode has the variables `q_constr`. -/
noncomputable def phSeg (mode : Mode) (scheme : String) (s : Slice) (order n_q : ℕ) (g : Seg) : Except BErr (Vars → (ℕ → ℕ → ℝ) → Prop) :=
  match mode with
  | .td => phTd scheme s order n_q g
  | .bu => (phBu scheme s order n_q g).map fun C v _ => C v
  | .node => (phNode scheme order n_q g).map fun C v _ => C v

/-- `_multi_pseudospectral.apply_scheme`, opti.py 2771-3079. `q k` are the variables `q_constr_list[k]`. The list of segments is not
empty, because `point_structure` has one more entry than there are knots. -/
noncomputable def phConstraints (F : Dyn) (mode : Mode) (scheme : String) (order n_q n_u : ℕ) (points : List ℕ) (ext : List ℝ) :
    Except BErr (Vars → (ℕ → ℕ → ℕ → ℝ) → Prop) := do
  let s ← lift (collIndices scheme)
  let gs := segs points ext
  let Cs ← gs.mapM (phSeg mode scheme s order n_q)
  let us ← gs.mapM fun g => uStart scheme order g.n
  let ue ← uEnd scheme order (points.getLastD 0)
  let rows := (gs.map Seg.col).flatten
  return fun v q =>
    (∀ k < gs.length, (Cs.getD k fun _ _ => True) v (q k)) ∧
    (∀ ii < rows.length, zero (F (v.x (rows.getD ii 0)) (v.xd (rows.getD ii 0)) (v.u (rows.getD ii 0)) (v.lam ii))) ∧
    (∀ k < gs.length, ∀ c < n_u, v.u ((gs.map Seg.start).getD k 0) c =
      (us.getD k fun _ => 0) fun m => v.u (((gs.map Seg.col).getD k []).getD m 0) c) ∧
    ∀ c < n_u, v.u (Ph.nArr points - 1) c = ue fun m => v.u (((gs.map Seg.col).getLastD []).getD m 0) c

end Chords.PhScheme
