import Verif.Model.Bary

/-! # Points functions with their caches
The functions that return points, chords/pseudospectral.py 60-284, 602-690, chords/bu_pseudospectral.py 67-187 and chords/td_pseudospectral.py 50-108, as programs with a
memory of lists, the caches of `lru_cache`, which keep the very list that was returned, and the files of `store_results` (chords/numpy.py 255-306), which keep
copies. `precission` is always 16. The values of the points are those of `Model/Points.lean`. -/

namespace Chords.SharedLists
open Chords.Points Chords.Spec

/-- The functions whose points come from the roots of a polynomial, with their arguments. -/
inductive Base
  | LG (N : ℕ) | LGR (N : ℕ) | LGL (N : ℕ) | JG (N order : ℕ) | JGR (N order : ℕ) | JGRinv (N order : ℕ) | JGL (N order : ℕ)
  deriving DecidableEq

/-- What they compute. -/
noncomputable def Base.value : Base → List ℝ
  | .LG N => Points.LG N
  | .LGR N => Points.LGR N
  | .LGL N => Points.LGL N
  | .JG N order => Points.JG N order
  | .JGR N order => Points.JGR N order
  | .JGRinv N order => Points.JGRinv N order
  | .JGL N order => Points.JGL N order

/-- A call of one of the cached functions that return lists: those of `Base`, `LGLm`, `coll_points`, `node_points`, `BU_coll_points`, `BU_construction_points` and
`TD_construction_points`. -/
inductive Key
  | base (b : Base) | lglm (N : ℕ) | coll (N : ℕ) (scheme : String) (order : ℕ) | node (N : ℕ) (scheme : String)
  | bu (N : ℕ) (scheme : String) (order : ℕ) | buConstr (N : ℕ) (scheme : String) (order : ℕ) | tdConstr (N : ℕ) (scheme : String) (order : ℕ)
  deriving DecidableEq

/-- A call of `v_coef` or `v_coef_coll`. -/
inductive VKey
  | node (N i : ℕ) (scheme : String) (order : ℕ) | coll (N i : ℕ) (scheme : String) (order : ℕ)
  deriving DecidableEq

/-- The memory of a process and the files. `lru_cache` distinguishes the ways of writing the arguments of a call (by position, by name, by default), which are
numbered; `store_results` does not. -/
structure St where
  heap : ℕ → List ℝ
  next : ℕ
  lru : ℕ → Key → Option ℕ
  disk : Key → Option (List ℝ)
  lruV : ℕ → VKey → Option ℝ
  diskV : VKey → Option ℝ

abbrev Prog (α : Type) := St → Except Err α × St

def Prog.bind {α β : Type} (p : Prog α) (f : α → Prog β) : Prog β := fun s =>
  match p s with
  | (.ok a, s) => f a s
  | (.error e, s) => (.error e, s)

/-- A new list. -/
def fresh (l : List ℝ) : Prog ℕ := fun s => (.ok s.next, { s with heap := Function.update s.heap s.next l, next := s.next + 1 })

/-- A new list made from the numbers of another. -/
def derive (p : Prog ℕ) (f : List ℝ → List ℝ) : Prog ℕ := p.bind fun a s => fresh (f (s.heap a)) s

def fail (e : Err) : Prog ℕ := fun s => (.error e, s)

/-- `lru_cache`: later calls return the same list. Exceptions are not kept. -/
def cached (sp : ℕ) (k : Key) (p : Prog ℕ) : Prog ℕ := fun s =>
  match s.lru sp k with
  | some a => (.ok a, s)
  | none => p.bind (fun a s => (.ok a, { s with lru := Function.update s.lru sp (Function.update (s.lru sp) k (some a)) })) s

/-- `store_results`, numpy.py 255-306: a list that is read from the file is a new list; a result that is computed is saved and returned. -/
def stored (k : Key) (p : Prog ℕ) : Prog ℕ := fun s =>
  match s.disk k with
  | some v => fresh v s
  | none => p.bind (fun a s => (.ok a, { s with disk := Function.update s.disk k (some (s.heap a)) })) s

/-- `LG`, `LGR`, `LGL`, `JG`, `JGR`, `JGR_inv` and `JGL`, pseudospectral.py 60-88 and 103-140. -/
noncomputable def base (sp : ℕ) (b : Base) : Prog ℕ := cached sp (.base b) (stored (.base b) (fresh b.value))

/-- `LGLm`, pseudospectral.py 91-94. The other functions write `(N, precission)` or `(N, order, precission)`, by position: way 0. -/
noncomputable def lglm (sp : ℕ) (N : ℕ) : Prog ℕ := cached sp (.lglm N) (stored (.lglm N) (derive (base 0 (.LGL (N + 2))) (pySlice (some 1) (some (-1)))))

/-- `coll_points`, pseudospectral.py 172-228. `CG`, `CGR` and `CGL` have no cache. -/
noncomputable def coll (sp : ℕ) (N : ℕ) (scheme : String) (order : ℕ) : Prog ℕ := cached sp (.coll N scheme order)
  (if scheme ∈ ["LG", "LG_inv", "LG2"] then base 0 (.LG N)
  else if scheme = "LGR" then base 0 (.LGR N)
  else if scheme = "LGR_inv" then derive (base 0 (.LGR N)) negRev
  else if scheme ∈ ["LGL", "D2"] then base 0 (.LGL N)
  else if scheme = "LGLm" then lglm 0 N
  else if scheme ∈ ["JG", "JG_inv", "JG2"] then base 0 (.JG N order)
  else if scheme = "JGR" then base 0 (.JGR N order)
  else if scheme = "JGR_inv" then base 0 (.JGRinv N order)
  else if scheme = "JGL" then base 0 (.JGL N order)
  else if scheme ∈ ["CG", "CG_inv", "CG2"] then fresh (CG N)
  else if scheme = "CGR" then fresh (CGR N)
  else if scheme = "CGR_inv" then fresh (negRev (CGR N))
  else if scheme = "CGL" then fresh (CGL N)
  else fail .valueError)

/-- `node_points`, pseudospectral.py 231-284. It calls `coll_points` with `order` by name: way 1. -/
noncomputable def node (sp : ℕ) (N : ℕ) (scheme : String) : Prog ℕ := cached sp (.node N scheme)
  (if scheme ∈ gaussLike ++ radauInv then derive (coll 1 (N - 1) scheme 2) fun coll_p => [-1] ++ coll_p
  else if scheme ∈ gaussInv ++ radauLike then derive (coll 1 (N - 1) scheme 2) fun coll_p => coll_p ++ [1]
  else if scheme ∈ lobatoLike then coll 1 N scheme 2
  else if scheme ∈ gauss2 then derive (coll 1 (N - 2) scheme 2) fun coll_p => [-1] ++ coll_p ++ [1]
  else if scheme ∈ otherSchemes then if scheme ∈ ["D2"] then base 0 (.LGL N) else fail .notImplemented
  else fail .valueError)

/-- `BU_coll_points`, bu_pseudospectral.py 67-126. -/
noncomputable def bu (sp : ℕ) (N : ℕ) (scheme : String) (order : ℕ) : Prog ℕ := cached sp (.bu N scheme order)
  (if scheme = "LG" then base 0 (.LG N)
  else if scheme = "LGR" then base 0 (.LGR N)
  else if scheme = "LGR_inv" then derive (base 0 (.LGR N)) negRev
  else if scheme ∈ ["LGL"] then base 0 (.LGL N)
  else if scheme = "JG" then base 0 (.JG N order)
  else if scheme = "JGR" then base 0 (.JGR N order)
  else if scheme = "JGR_inv" then base 0 (.JGRinv N order)
  else if scheme = "JGL" then base 0 (.JGL N order)
  else if scheme = "CG" then fresh (CG N)
  else if scheme = "CGR" then fresh (CGR N)
  else if scheme = "CGR_inv" then fresh (negRev (CGR N))
  else if scheme = "CGL" then fresh (CGL N)
  else fail .valueError)

/-- `BU_construction_points`, bu_pseudospectral.py 129-187. -/
noncomputable def buConstr (sp : ℕ) (N : ℕ) (scheme : String) (order : ℕ) : Prog ℕ := cached sp (.buConstr N scheme order)
  (if scheme ∈ gaussLike then derive (bu 0 N scheme order) fun coll_p => coll_p ++ [1]
  else if scheme ∈ radauLike then derive (bu 0 N scheme order) fun coll_p => pySlice (some 1) none coll_p ++ [1]
  else if scheme ∈ radauInv then bu 0 N scheme order
  else if scheme ∈ lobatoLike then derive (bu 0 N scheme order) fun coll_p => pySlice (some 1) none coll_p
  else (bu 0 N scheme order).bind fun _ => fail .valueError)

/-- `TD_construction_points`, td_pseudospectral.py 50-108. -/
noncomputable def tdConstr (sp : ℕ) (N : ℕ) (scheme : String) (order : ℕ) : Prog ℕ := cached sp (.tdConstr N scheme order)
  (if scheme ∈ gaussLike then derive (bu 0 N scheme order) fun coll_p => [-1] ++ coll_p ++ [1]
  else if scheme ∈ radauLike then derive (bu 0 N scheme order) fun coll_p => coll_p ++ [1]
  else if scheme ∈ radauInv then derive (bu 0 N scheme order) fun coll_p => [-1] ++ coll_p
  else if scheme ∈ lobatoLike then bu 0 N scheme order
  else (bu 0 N scheme order).bind fun _ => fail .valueError)

/-- A call by the user or by the rest of the library. -/
noncomputable def call (sp : ℕ) : Key → Prog ℕ
  | .base b => base sp b
  | .lglm N => lglm sp N
  | .coll N scheme order => coll sp N scheme order
  | .node N scheme => node sp N scheme
  | .bu N scheme order => bu sp N scheme order
  | .buConstr N scheme order => buConstr sp N scheme order
  | .tdConstr N scheme order => tdConstr sp N scheme order

/-- `v_coef`, pseudospectral.py 602-648, and `v_coef_coll`, 651-690, under both caches. Numbers cannot be changed. `node_points` is called by position, `coll_points` too:
way 0. -/
noncomputable def callV (sp : ℕ) (k : VKey) : Prog ℝ := fun s =>
  match s.lruV sp k with
  | some v => (.ok v, s)
  | none =>
    Prog.bind (fun s => match s.diskV k with
      | some v => (.ok v, s)
      | none =>
        Prog.bind (match k with
          | .node N i scheme order => if 2 < order then fun s => (.error .valueError, s) else
            (node 0 N scheme).bind fun a s => (.ok (Bary.vSum (s.heap a).length (Bary.arr (s.heap a)) i), s)
          | .coll N i scheme order => (coll 0 N scheme order).bind fun a s => (.ok (Bary.vSum (s.heap a).length (Bary.arr (s.heap a)) i), s))
        (fun v s => (.ok v, { s with diskV := Function.update s.diskV k (some v) })) s)
      (fun v s => (.ok v, { s with lruV := Function.update s.lruV sp (Function.update (s.lruV sp) k (some v)) })) s

/-- What can happen in a session. `edit i f` is a change made by the user to the list of result `i`, `evict` the loss of an entry of a cache of limited size (here only
between calls), `restart` the start of a new process in the same directory. -/
inductive Op
  | call (sp : ℕ) (k : Key) | callV (sp : ℕ) (k : VKey) | edit (i : ℕ) (f : List ℝ → List ℝ) | evict (sp : ℕ) (k : Key) | restart

/-- A session: the state, the results obtained, and the calls whose results were changed by the user. -/
structure Run where
  st : St
  got : List (Key × ℕ) := []
  edited : List Key := []

noncomputable def step (r : Run) : Op → Run
  | .call sp k => match SharedLists.call sp k r.st with
    | (.ok a, s) => { r with st := s, got := r.got ++ [(k, a)] }
    | (.error _, s) => { r with st := s }
  | .callV sp k => { r with st := (SharedLists.callV sp k r.st).2 }
  | .edit i f => match r.got[i]? with
    | some (k, a) => { r with st := { r.st with heap := Function.update r.st.heap a (f (r.st.heap a)) }, edited := k :: r.edited }
    | none => r
  | .evict sp k => { r with st := { r.st with lru := Function.update r.st.lru sp (Function.update (r.st.lru sp) k none) } }
  | .restart => { r with st := { r.st with lru := fun _ _ => none, lruV := fun _ _ => none } }

/-- The first session in a directory with given files. -/
def start (disk : Key → Option (List ℝ)) (diskV : VKey → Option ℝ) : Run := { st := ⟨fun _ => [], 0, fun _ _ => none, disk, fun _ _ => none, diskV⟩ }

noncomputable def run (r : Run) (ops : List Op) : Run := ops.foldl step r

/-- The numbers a call returns. -/
def contents (p : Prog ℕ) (s : St) : Except Err (List ℝ) := match p s with
  | (.ok a, s) => .ok (s.heap a)
  | (.error e, _) => .error e

end Chords.SharedLists
