import Verif.Model.PhScheme
import Verif.Model.Equi

/-! # Sizes of the conditions given to the optimiser
The calls of `opti.subject_to` in the `apply_scheme` methods of chords/opti.py, in their order: for each one, how many numbers it compares. CasADi's `Opti` raises
`RuntimeError` ("You passed an empty expression to `subject_to`") if there are none. `n_f` is the number of residuals of the dynamics. -/

namespace Chords.Conditions
open Chords.Points Chords.PhScheme Chords.Equi

/-- `n` calls, each with these sizes. -/
def times (n : ℕ) (l : List ℕ) : List ℕ := (List.replicate n l).flatten

/-- The calls inside an `if`. -/
def when (b : Prop) [Decidable b] (l : List ℕ) : List ℕ := if b then l else []

/-- `_Equispaced.apply_scheme`, opti.py 2208-2283. -/
def equiSizes (scheme : String) (N order n_q n_u n_f : ℕ) : List ℕ :=
  times N [order * n_q] ++ times (N + 1) [n_f] ++
  when (contains scheme "hs" = true) (times N [order * n_q, n_f] ++ when (contains scheme "parab" = false) (times N [n_u]))

/-- `_BU_Pseudospectral.apply_scheme`, opti.py 1455-1497; `n_arr` rows. -/
def buSizes (scheme : String) (n_coll n_arr order n_q n_f : ℕ) : List ℕ :=
  when (scheme ∈ gaussLike ++ radauInv) [n_q] ++ when (scheme ∈ gaussLike ++ radauLike) [n_q] ++ times order [(n_arr - 1) * n_q] ++ times n_coll [n_f]

/-- `_TD_Pseudospectral.apply_scheme`, opti.py 1811-1833. -/
def tdSizes (n_coll n_arr order n_q n_f : ℕ) : List ℕ := times (order + 1) [n_arr * n_q] ++ times n_coll [n_f]

/-- `_Pseudospectral.apply_scheme`, opti.py 988-1043. -/
def nodeSizes (scheme : String) (n_coll n_nodes order n_q n_f : ℕ) : List ℕ :=
  (if scheme ∈ gauss2 ++ ["D2"] then [n_nodes * n_q, n_nodes * n_q] else [n_nodes * (order * n_q)]) ++
  when (scheme ∈ gaussInv) [order * n_q, n_q] ++ when (scheme ∈ gaussLike) [order * n_q, n_q] ++ times n_coll [n_f]

/-- One segment, top-down, opti.py 2818-2856. -/
def phTdSizes (order n_q : ℕ) (g : Seg) : List ℕ :=
  ((List.range (order + 1)).map fun ii => [g.n * n_q, n_q] ++ when (ii ≤ order ∨ g.last = true) [n_q]).flatten ++
  [(order - 1) * n_q] ++ when (g.first = true) [(order - 1) * n_q]

/-- One segment, bottom-up, opti.py 2859-2949. -/
def phBuSizes (order n_q : ℕ) (g : Seg) : List ℕ :=
  [n_q] ++ when (g.last = true) [n_q] ++ [(order - 1) * n_q] ++ when (g.first = true) [(order - 1) * n_q] ++ times order [g.n * n_q, n_q]

/-- One segment, node based, opti.py 2982-3031. -/
def phNodeSizes (scheme : String) (n_nodes order n_q : ℕ) (g : Seg) : List ℕ :=
  [n_nodes * (order * n_q)] ++
  when (scheme ∈ gauss2) ([(order - 1) * n_q] ++ when (g.last = true) [(order - 1) * n_q]) ++
  when (scheme ∈ lobatoLike ++ radauLike) ([order * n_q] ++ when (g.first = true) [order * n_q]) ++
  when (scheme ∈ lobatoLike ++ radauInv) [order * n_q] ++
  when (scheme ∈ lobatoLike) [order * n_q] ++
  when (scheme ∈ radauInv ∧ g.last = true) [order * n_q] ++
  when (scheme ∈ gaussInv) ([order * n_q, n_q] ++ when (g.first = true) [(order - 1) * n_q]) ++
  when (scheme ∈ gaussLike) ([order * n_q, n_q] ++ when (g.last = true) [(order - 1) * n_q])

/-- The branch on the mode; `nodes n` are the nodes of a segment with `n` points. -/
def phSegSizes (mode : Mode) (scheme : String) (nodes : ℕ → ℕ) (order n_q : ℕ) (g : Seg) : List ℕ :=
  match mode with
  | .td => phTdSizes order n_q g
  | .bu => phBuSizes order n_q g
  | .node => phNodeSizes scheme (nodes g.n) order n_q g

/-- `_multi_pseudospectral.apply_scheme`, opti.py 2771-3083: the segments, the dynamics and the controls at the ends of the segments. -/
noncomputable def phSizes (mode : Mode) (scheme : String) (nodes : ℕ → ℕ) (order n_q n_u n_f : ℕ) (points : List ℕ) (ext : List ℝ) : List ℕ :=
  ((segs points ext).map (phSegSizes mode scheme nodes order n_q)).flatten ++ times points.sum [n_f] ++ times points.length [n_u] ++ [n_u]

/-! ## Sizes of the variables -/

/-- The calls of `opti.variable` in `_Equispaced.opti_setup`, opti.py 1884-1966. -/
def equiUnknowns (scheme : String) (N order n_q n_u n_lambdas : ℕ) : List ℕ :=
  [(N + 1) * (order * n_q), (N + 1) * (order * n_q), (N + 1) * n_u, (N + 1) * n_lambdas] ++
  when (contains scheme "hs" = true) [N * n_u, N * (order * n_q), N * (order * n_q), N * n_lambdas]

/-- The calls of `opti.variable` in `_Pseudospectral.opti_setup`, opti.py 699-728, and `_BU_Pseudospectral.opti_setup`, 1227-1239. -/
def psUnknowns (n_coll n_arr order n_q n_u n_lambdas : ℕ) : List ℕ :=
  [n_arr * (order * n_q), n_arr * (order * n_q), n_coll * n_u, n_coll * n_lambdas]

/-- The calls of `opti.variable` in `_TD_Pseudospectral.opti_setup`, opti.py 1577-1590. -/
def tdUnknowns (n_coll n_arr order n_q n_u n_lambdas : ℕ) : List ℕ :=
  psUnknowns n_coll n_arr order n_q n_u n_lambdas ++ [(n_coll + order) * n_q]

/-- `n_arr` of `_Pseudospectral.opti_setup`, opti.py 677-693. -/
def nodeArr (scheme : String) (n_nodes : ℕ) : ℕ := if scheme ∈ gaussLike ++ gaussInv then n_nodes + 1 else n_nodes

/-- The calls of `opti.variable` in `_multi_pseudospectral.opti_setup`, opti.py 2361, 2391-2392, 2417, 2474 and 2604-2609. -/
def phUnknowns (mode : Mode) (order n_q n_u n_lambdas : ℕ) (points : List ℕ) : List ℕ :=
  let n_arr := points.sum + points.length + 1
  [n_arr * (order * n_q), n_arr * (order * n_q), n_arr * n_u, points.sum * n_lambdas] ++
  when (mode = .td) (points.map fun n => (n + order) * n_q)

end Chords.Conditions
