import Verif.Model.NumTools
import Verif.Lemmas.Exc
import Mathlib.Tactic.Linarith

/-! # Properties of functions generated for numpy: C84, C85 -/

namespace Chords.NumTools.Props
open Chords.NumTools Chords.Exc

/-! ## C85 -/

/-- C85: a vector of numbers comes back from `unpack` and `congruent_concatenate`. -/
theorem C85_vec {l : List ℝ} (h : l ≠ []) : (unpack (.vec l) >>= congruentConcatenate) = .ok (.vec l) := by
  obtain ⟨a, l, rfl⟩ := List.exists_cons_of_ne_nil h
  have e : (Val.scal a :: l.map Val.scal).mapM Val.toScal? = some (a :: l) := by
    have := opt_mapM_eq (f := Val.toScal?) (g := fun v => match v with | .scal a => a | _ => 0) (l := (a :: l).map Val.scal) (by
      intro v hv
      obtain ⟨x, _, rfl⟩ := List.mem_map.1 hv
      rfl)
    rw [List.map_map] at this
    rw [List.map_cons] at this
    rw [this]
    simp [Function.comp_def]
  simp only [unpack, bind, Except.bind, List.map_cons, congruentConcatenate, Val.sizeOne, e, if_true]

/-- C85: so does a table with at least two rows and one column, in every entry. Missing for the full claim: tables with one
row (`C85_one_row_refuted`). -/
theorem C85_table_partial {m : ℕ} (hm : 0 < m) {rows : List (Fin m → ℝ)} (hr : 2 ≤ rows.length) :
    (unpack (.mat m rows) >>= congruentConcatenate) = .ok (.mat m rows) := by
  obtain ⟨m, rfl⟩ : ∃ k, m = k + 1 := ⟨m - 1, by omega⟩
  obtain ⟨cols, hcols⟩ : ∃ cols : List (List ℝ), cols = (List.finRange (m + 1)).map fun j => rows.map fun r => r j := ⟨_, rfl⟩
  have e0 : ((List.finRange (m + 1)).map fun j => Val.vec (rows.map fun r => r j)) = cols.map Val.vec := by
    rw [hcols, List.map_map]; rfl
  have hl : cols.length = m + 1 := by rw [hcols]; simp
  obtain ⟨c, cs, hc⟩ := List.exists_cons_of_ne_nil (show cols ≠ [] by intro h; rw [h] at hl; simp at hl)
  have hlen : ∀ c ∈ cols, c.length = rows.length := by
    intro c hc
    rw [hcols] at hc
    obtain ⟨j, _, rfl⟩ := List.mem_map.1 hc
    simp
  have hmap : (cols.map Val.vec).mapM Val.toVec? = some cols := by
    have := opt_mapM_eq (f := Val.toVec?) (g := fun v => match v with | .vec l => l | _ => []) (l := cols.map Val.vec) (by
      intro v hv
      obtain ⟨x, _, rfl⟩ := List.mem_map.1 hv
      rfl)
    rw [this, List.map_map]
    simp [Function.comp_def]
  have hh : cols.headD [] = c := by rw [hc]; rfl
  have hcl : c.length = rows.length := hlen c (by rw [hc]; simp)
  have hso : (Val.vec c).sizeOne = false := by
    simp only [Val.sizeOne, beq_eq_false_iff_ne]; omega
  have e1 : congruentConcatenate (cols.map Val.vec) = .ok (joinColumns cols rows.length) := by
    have : cols.map Val.vec = Val.vec c :: cs.map Val.vec := by rw [hc]; rfl
    rw [this, congruentConcatenate, if_neg (by rw [hso]; simp), ← this, hmap]
    simp only
    rw [hh, hcl, if_pos hlen]
  simp only [unpack, bind, Except.bind]
  rw [e0, e1, joinColumns]
  have : ∀ (n : ℕ) (g : Fin n → List ℝ) (hn : n = m + 1), (∀ j, g j = rows.map fun r => r (Fin.cast hn j)) →
      (Val.mat n ((List.range rows.length).map fun i => fun j => (g j).getD i 0)) = Val.mat (m + 1) rows := by
    intro n g hn hg
    subst hn
    congr 1
    apply List.ext_getElem
    · simp
    · intro i h1 h2
      rw [List.getElem_map, List.getElem_range]
      funext j
      rw [hg j]
      simp [List.getD_eq_getElem?_getD, h2]
  rw [this cols.length cols.get hl]
  intro j
  simp only [hcols, List.get_eq_getElem, List.getElem_map, List.getElem_finRange]
  rfl

/-- C85 is false for a table with one row and several columns: `AssertionError`. -/
theorem C85_one_row_refuted {m : ℕ} (hm : 0 < m) (r : Fin m → ℝ) :
    (unpack (.mat m [r]) >>= congruentConcatenate) = .error .assertion := by
  obtain ⟨m, rfl⟩ : ∃ k, m = k + 1 := ⟨m - 1, by omega⟩
  have h : ∀ vs, congruentConcatenate (.vec [r 0] :: vs) = .error .assertion := by
    intro vs
    rw [congruentConcatenate, if_pos (by rfl), opt_mapM_none ⟨.vec [r 0], by simp, by rfl⟩]
  simp only [unpack, bind, Except.bind, List.map_cons, List.map_nil, List.finRange_succ, h]

example : (2 : ℕ) ≤ ([fun _ => 1, fun _ => 2] : List (Fin 1 → ℝ)).length := by simp

/-! ## C84 -/

/-- The variables of row `k` of a series with `nx` state columns, `nu` control columns and constant parameters. -/
def rowVars {nx nu : ℕ} (x : Fin nx → ℝ) (u : Fin nu → ℝ) (p : List ℝ) : List ℝ := List.ofFn x ++ List.ofFn u ++ p

/-- The arguments of a series call. -/
def seriesArgs {nx nu : ℕ} (X : List (Fin nx → ℝ)) (U : List (Fin nu → ℝ)) (p : List ℝ) : List Val :=
  ((List.finRange nx).map fun j => Val.vec (X.map fun r => r j)) ++ ((List.finRange nu).map fun j => Val.vec (U.map fun r => r j))
    ++ p.map Val.scal

theorem lens_col {m : ℕ} (R : List (Fin m → ℝ)) (i : ℕ) :
    (((List.finRange m).map fun j => Val.vec (R.map fun r => r j)))[i]? = if h' : i < m then some (Val.vec (R.map fun r => r ⟨i, h'⟩)) else none := by
  split
  · next h' => rw [List.getElem?_map, List.getElem?_eq_getElem (by simpa using h')]; simp
  · next h' => rw [List.getElem?_eq_none (by simpa using h')]

theorem arg_at {nx nu : ℕ} (X : List (Fin nx → ℝ)) (U : List (Fin nu → ℝ)) (p : List ℝ) (i : ℕ) :
    (∃ hi : i < nx, (seriesArgs X U p)[i]? = some (.vec (X.map fun r => r ⟨i, hi⟩))) ∨
    (∃ hi : i - nx < nu, nx ≤ i ∧ (seriesArgs X U p)[i]? = some (.vec (U.map fun r => r ⟨i - nx, hi⟩))) ∨
    (nx + nu ≤ i ∧ (seriesArgs X U p)[i]? = (p[i - nx - nu]?).map Val.scal) := by
  unfold seriesArgs
  by_cases h1 : i < nx
  · left
    refine ⟨h1, ?_⟩
    rw [List.getElem?_append_left (by simp; omega), List.getElem?_append_left (by simpa using h1), lens_col, dif_pos h1]
  · right
    by_cases h2 : i - nx < nu
    · left
      refine ⟨h2, by omega, ?_⟩
      rw [List.getElem?_append_left (by simp; omega), List.getElem?_append_right (by simp; omega), lens_col]
      simp only [List.length_map, List.length_finRange]
      rw [dif_pos h2]
    · right
      refine ⟨by omega, ?_⟩
      rw [List.getElem?_append_right (by simp; omega), List.getElem?_map]
      simp only [List.length_append, List.length_map, List.length_finRange]
      rw [Nat.sub_add_eq]

theorem row_at {nx nu : ℕ} (x : Fin nx → ℝ) (u : Fin nu → ℝ) (p : List ℝ) (i : ℕ) :
    (∀ hi : i < nx, (rowVars x u p)[i]? = some (x ⟨i, hi⟩)) ∧
    (∀ hi : i - nx < nu, nx ≤ i → (rowVars x u p)[i]? = some (u ⟨i - nx, hi⟩)) ∧
    (nx + nu ≤ i → (rowVars x u p)[i]? = p[i - nx - nu]?) := by
  unfold rowVars
  refine ⟨?_, ?_, ?_⟩
  · intro hi
    rw [List.getElem?_append_left (by simp; omega), List.getElem?_append_left (by simpa using hi), List.getElem?_ofFn, dif_pos hi]
  · intro hi h
    rw [List.getElem?_append_left (by simp; omega), List.getElem?_append_right (by simpa using h), List.getElem?_ofFn]
    simp only [List.length_ofFn]
    rw [dif_pos hi]
  · intro h
    rw [List.getElem?_append_right (by simpa using h)]
    simp only [List.length_append, List.length_ofFn]
    rw [Nat.sub_add_eq]

theorem entry_row {nx nu n : ℕ} (hn : 2 ≤ n) {X : List (Fin nx → ℝ)} {U : List (Fin nu → ℝ)} (hX : X.length = n) (hU : U.length = n)
    (p : List ℝ) (k : ℕ) (hk : k < n) (i : ℕ) :
    entry ((seriesArgs X U p).getD i (.scal 0)) k = (rowVars (X[k]'(by omega)) (U[k]'(by omega)) p).getD i 0 := by
  obtain ⟨r1, r2, r3⟩ := row_at (X[k]'(by omega)) (U[k]'(by omega)) p i
  rw [List.getD_eq_getElem?_getD, List.getD_eq_getElem?_getD]
  rcases arg_at X U p i with ⟨hi, e⟩ | ⟨hi, hle, e⟩ | ⟨hle, e⟩
  · rw [e, r1 hi]
    simp only [Option.getD_some, entry]
    rw [if_neg (by simp; omega), List.getD_eq_getElem?_getD, List.getElem?_map, List.getElem?_eq_getElem (by omega)]
    rfl
  · rw [e, r2 hi hle]
    simp only [Option.getD_some, entry]
    rw [if_neg (by simp; omega), List.getD_eq_getElem?_getD, List.getElem?_map, List.getElem?_eq_getElem (by omega)]
    rfl
  · rw [e, r3 hle]
    cases p[i - nx - nu]? <;> rfl

theorem series_lens {nx nu n : ℕ} {X : List (Fin nx → ℝ)} {U : List (Fin nu → ℝ)} (hX : X.length = n)
    (hU : U.length = n) (p : List ℝ) (deps : List ℕ) (l : ℕ)
    (hl : l ∈ (deps.filterMap fun i => ((seriesArgs X U p).getD i (.scal 0)).toVec?).map List.length) : l = n := by
  obtain ⟨v, hv, rfl⟩ := List.mem_map.1 hl
  obtain ⟨i, _, hi⟩ := List.mem_filterMap.1 hv
  rw [List.getD_eq_getElem?_getD] at hi
  rcases arg_at X U p i with ⟨h, e⟩ | ⟨h, _, e⟩ | ⟨_, e⟩
  · rw [e] at hi; cases hi; simp [hX]
  · rw [e] at hi; cases hi; simp [hU]
  · rw [e] at hi
    cases hp : p[i - nx - nu]? with
    | none => rw [hp] at hi; cases hi
    | some a => rw [hp] at hi; cases hi

theorem series_lens_ne {nx nu : ℕ} {X : List (Fin nx → ℝ)} {U : List (Fin nu → ℝ)} (p : List ℝ) {deps : List ℕ}
    (h : ∃ i ∈ deps, i < nx + nu) :
    (deps.filterMap fun i => ((seriesArgs X U p).getD i (.scal 0)).toVec?).map List.length ≠ [] := by
  obtain ⟨i, hi, hlt⟩ := h
  have : ∃ v, ((seriesArgs X U p).getD i (.scal 0)).toVec? = some v := by
    rw [List.getD_eq_getElem?_getD]
    rcases arg_at X U p i with ⟨h, e⟩ | ⟨h, _, e⟩ | ⟨h, e⟩
    · rw [e]; exact ⟨_, rfl⟩
    · rw [e]; exact ⟨_, rfl⟩
    · omega
  obtain ⟨v, hv⟩ := this
  intro e
  have : v ∈ deps.filterMap fun i => ((seriesArgs X U p).getD i (.scal 0)).toVec? := List.mem_filterMap.2 ⟨i, hi, hv⟩
  rw [List.map_eq_nil_iff] at e
  rw [e] at this
  simp at this

theorem eval_series {nx nu n : ℕ} (hn : 2 ≤ n) {X : List (Fin nx → ℝ)} {U : List (Fin nu → ℝ)} (hX : X.length = n)
    (hU : U.length = n) (p : List ℝ) (f : Expr) (h : ∃ i ∈ f.deps, i < nx + nu) :
    f.eval (seriesArgs X U p) = .ok (.vec ((List.range n).map fun k =>
      f.fn fun i => entry ((seriesArgs X U p).getD i (.scal 0)) k)) := by
  have h1 := series_lens_ne (X := X) (U := U) p h
  have h2 := series_lens hX hU p f.deps
  unfold Expr.eval
  generalize ((f.deps.filterMap fun i => ((seriesArgs X U p).getD i (.scal 0)).toVec?).map List.length) = lens at *
  have h3 : lens.filter (fun l => decide (l ≠ 1)) = lens := by
    rw [List.filter_eq_self]
    intro l hl
    have := h2 l hl
    simp; omega
  simp only
  rw [if_neg h1, h3]
  have h4 : lens.headD 1 = n := by
    cases lens with
    | nil => exact absurd rfl h1
    | cons a l => exact h2 a (by simp)
  rw [h4, if_pos h2]

theorem unpack_mat {m : ℕ} (R : List (Fin m → ℝ)) :
    unpack (.mat m R) = .ok ((List.finRange m).map fun j => .vec (R.map fun r => r j)) := rfl

/-- C84, a single sample: the generated function returns the values of the expressions, in order. -/
theorem C84_sample {funcs : List Expr} (hf : funcs ≠ []) (x u p : List ℝ) :
    newF funcs (x.length + u.length + p.length) (.vec x) (.vec u) (.vec p)
      = .ok (.vec (funcs.map fun f => f.fn fun i => (x ++ u ++ p).getD i 0)) := by
  have hargs : x.map Val.scal ++ u.map Val.scal ++ p.map Val.scal = (x ++ u ++ p).map Val.scal := by simp
  have ev : ∀ f : Expr, f.eval ((x ++ u ++ p).map Val.scal) = .ok (.scal (f.fn fun i => (x ++ u ++ p).getD i 0)) := by
    intro f
    have g : ∀ i, ((x ++ u ++ p).map Val.scal).getD i (.scal 0) = .scal ((x ++ u ++ p).getD i 0) := by
      intro i
      rw [List.getD_eq_getElem?_getD, List.getD_eq_getElem?_getD, List.getElem?_map]
      cases (x ++ u ++ p)[i]? <;> rfl
    unfold Expr.eval
    simp only [g, Val.toVec?]
    rw [if_pos (by simp)]
    rfl
  unfold newF
  simp only [unpack, bind, Except.bind]
  rw [hargs, if_pos (by simp; omega), mapM_eq (fun f _ => ev f)]
  have := C85_vec (l := funcs.map fun f => f.fn fun i => (x ++ u ++ p).getD i 0) (by simpa using hf)
  simp only [unpack, bind, Except.bind, List.map_map] at this
  exact this

/-- C84, the part that holds: with at least two rows, the same number of rows of states and controls, and every expression
with some state or control in it, the result is a table with one row per sample; row `k` has the values of the expressions at
row `k`. Missing for the full claim: one row and expressions without states or controls (`C84_one_row_refuted`,
`C84_constant_refuted`). -/
theorem C84_series_partial {nx nu n : ℕ} (hn : 2 ≤ n) {X : List (Fin nx → ℝ)} {U : List (Fin nu → ℝ)} (hX : X.length = n)
    (hU : U.length = n) (p : List ℝ) {funcs : List Expr} (hf : funcs ≠ []) (hd : ∀ f ∈ funcs, ∃ i ∈ f.deps, i < nx + nu) :
    ∃ R : List (Fin funcs.length → ℝ), newF funcs (nx + nu + p.length) (.mat nx X) (.mat nu U) (.vec p) = .ok (.mat funcs.length R)
      ∧ R.length = n ∧ ∀ (k : ℕ) x u r, X[k]? = some x → U[k]? = some u → R[k]? = some r →
        ∀ j : Fin funcs.length, r j = (funcs.get j).fn fun i => (rowVars x u p).getD i 0 := by
  obtain ⟨R, hR⟩ : ∃ R : List (Fin funcs.length → ℝ), R = (List.range n).map fun k => fun j =>
    (funcs.get j).fn fun i => entry ((seriesArgs X U p).getD i (.scal 0)) k := ⟨_, rfl⟩
  refine ⟨R, ?_, by rw [hR]; simp, ?_⟩
  · have e := C85_table_partial (m := funcs.length) (List.length_pos_of_ne_nil hf) (rows := R) (by rw [hR]; simpa using hn)
    unfold newF
    simp only [unpack, bind, Except.bind] at e ⊢
    have ha : ((List.finRange nx).map fun j => Val.vec (X.map fun r => r j)) ++
      ((List.finRange nu).map fun j => Val.vec (U.map fun r => r j)) ++ p.map Val.scal = seriesArgs X U p := rfl
    rw [ha, if_pos (by simp [seriesArgs]; omega), mapM_eq (fun f hf => eval_series hn hX hU p f (hd f hf)), ← e]
    simp only
    congr 1
    apply List.ext_getElem
    · simp
    · intro j h1 h2
      simp only [List.getElem_map, List.getElem_finRange]
      congr 1
      subst hR
      rw [List.map_map]
      rfl
  · intro k x u r hx hu hr j
    rw [hR] at hr
    have hk : k < n := by rw [← hX]; exact (List.getElem?_eq_some_iff.1 hx).1
    rw [List.getElem?_map, List.getElem?_range hk] at hr
    cases hr
    simp only
    congr 1
    funext i
    rw [entry_row hn hX hU p k hk i]
    obtain ⟨_, rfl⟩ := List.getElem?_eq_some_iff.1 hx
    obtain ⟨_, rfl⟩ := List.getElem?_eq_some_iff.1 hu
    rfl

/-- The expression `x₀ + u₀` and the number 1. -/
def exSum : Expr := ⟨[0, 1], fun e => e 0 + e 1, fun e e' h => by rw [h 0 (by simp), h 1 (by simp)]⟩
def exOne : Expr := ⟨[], fun _ => 1, fun _ _ _ => rfl⟩

example : ∀ f ∈ [exSum], ∃ i ∈ f.deps, i < 1 + 1 := by
  intro f hf
  simp at hf
  subst hf
  exact ⟨0, by simp [exSum], by omega⟩

/-- C84 is false when an expression has no states or controls: with any series of at least two rows the function raises. -/
theorem C84_constant_refuted (x₁ x₂ u₁ u₂ : ℝ) :
    newF [exSum, exOne] 2 (.mat 1 [fun _ => x₁, fun _ => x₂]) (.mat 1 [fun _ => u₁, fun _ => u₂]) (.vec []) = .error .assertion := by
  have h : [exSum, exOne].mapM (fun f => f.eval (seriesArgs [fun _ : Fin 1 => x₁, fun _ => x₂] [fun _ : Fin 1 => u₁, fun _ => u₂] []))
      = .ok [.vec [x₁ + u₁, x₂ + u₂], .scal 1] := by
    simp [List.mapM_cons, Expr.eval, exSum, exOne, seriesArgs, Val.toVec?, bind, Except.bind, pure, Except.pure, entry,
      List.range_succ, List.finRange_succ]
  unfold newF
  simp only [unpack, bind, Except.bind, List.map_nil]
  have ha : ((List.finRange 1).map fun j => Val.vec ([fun _ : Fin 1 => x₁, fun _ => x₂].map fun r => r j)) ++
    ((List.finRange 1).map fun j => Val.vec ([fun _ : Fin 1 => u₁, fun _ => u₂].map fun r => r j)) ++ []
      = seriesArgs [fun _ : Fin 1 => x₁, fun _ => x₂] [fun _ : Fin 1 => u₁, fun _ => u₂] [] := rfl
  rw [ha, if_pos (by simp [seriesArgs]), h]
  simp [congruentConcatenate, Val.sizeOne, List.mapM_cons, Val.toVec?]

/-- C84 is false for a series with one row: the function raises for every expression list that starts with one that has a
state or control in it. -/
theorem C84_one_row_refuted (x u : ℝ) :
    newF [exSum] 2 (.mat 1 [fun _ => x]) (.mat 1 [fun _ => u]) (.vec []) = .error .assertion := by
  have h : [exSum].mapM (fun f => f.eval (seriesArgs [fun _ : Fin 1 => x] [fun _ : Fin 1 => u] []))
      = .ok [.vec [x + u]] := by
    simp [List.mapM_cons, Expr.eval, exSum, seriesArgs, Val.toVec?, bind, Except.bind, pure, Except.pure, entry,
      List.range_succ, List.finRange_succ]
  unfold newF
  simp only [unpack, bind, Except.bind, List.map_nil]
  have ha : ((List.finRange 1).map fun j => Val.vec ([fun _ : Fin 1 => x].map fun r => r j)) ++
    ((List.finRange 1).map fun j => Val.vec ([fun _ : Fin 1 => u].map fun r => r j)) ++ []
      = seriesArgs [fun _ : Fin 1 => x] [fun _ : Fin 1 => u] [] := rfl
  rw [ha, if_pos (by simp [seriesArgs]), h]
  simp [congruentConcatenate, Val.sizeOne, List.mapM_cons, Val.toScal?]

/-- Expressions with a state or a control give arrays, the others numbers. -/
theorem eval_kinds {nx nu n : ℕ} (hn : 1 ≤ n) {X : List (Fin nx → ℝ)} {U : List (Fin nu → ℝ)} (hX : X.length = n) (hU : U.length = n)
    (p : List ℝ) (f : Expr) : ∃ v, f.eval (seriesArgs X U p) = .ok v ∧
      ((∃ i ∈ f.deps, i < nx + nu) → ∃ l, v = .vec l ∧ l.length = n) ∧ ((∀ i ∈ f.deps, nx + nu ≤ i) → ∃ a, v = .scal a) := by
  have h1 := series_lens_ne (X := X) (U := U) p (deps := f.deps)
  have h2 := series_lens hX hU p f.deps
  have h0 : (∀ i ∈ f.deps, nx + nu ≤ i) → (f.deps.filterMap fun i => ((seriesArgs X U p).getD i (.scal 0)).toVec?).map List.length = [] := by
    intro h
    rw [List.map_eq_nil_iff, List.filterMap_eq_nil_iff]
    intro i hi
    rw [List.getD_eq_getElem?_getD]
    rcases arg_at X U p i with ⟨h', -⟩ | ⟨h', h'', -⟩ | ⟨-, e⟩
    · have := h i hi
      omega
    · have := h i hi
      omega
    · rw [e]
      cases p[i - nx - nu]? <;> rfl
  unfold Expr.eval
  generalize ((f.deps.filterMap fun i => ((seriesArgs X U p).getD i (.scal 0)).toVec?).map List.length) = lens at *
  by_cases hl : lens = []
  · rw [if_pos hl]
    exact ⟨_, rfl, fun h => absurd hl (h1 h), fun _ => ⟨_, rfl⟩⟩
  · rw [if_neg hl]
    have hh : (lens.filter (fun l => decide (l ≠ 1))).headD 1 = n := by
      cases hf : lens.filter (fun l => decide (l ≠ 1)) with
      | nil =>
        obtain ⟨l, hl'⟩ := List.exists_mem_of_ne_nil _ hl
        have := h2 l hl'
        have h3 := List.filter_eq_nil_iff.1 hf l hl'
        simp only [List.headD_nil]
        simp at h3
        omega
      | cons a t =>
        have : a ∈ lens.filter (fun l => decide (l ≠ 1)) := by rw [hf]; exact List.mem_cons_self
        exact h2 a (List.mem_filter.1 this).1
    simp only [hh]
    rw [if_pos fun l hl' => h2 l (List.mem_filter.1 hl').1]
    exact ⟨_, rfl, fun _ => ⟨_, rfl, by simp⟩, fun h => absurd (h0 h) hl⟩

theorem mapM_none {A B : Type} {f : A → Option B} {l : List A} (h : ∃ a ∈ l, f a = none) : l.mapM f = none := by
  obtain ⟨a, ha, hf⟩ := h
  induction l with
  | nil => cases ha
  | cons b l ih =>
    rw [List.mapM_cons]
    rcases List.mem_cons.1 ha with rfl | ha
    · simp [hf]
    · cases hb : f b with
      | none => simp
      | some c => simp [ih ha]

/-- The results of a series. -/
theorem results_kinds {nx nu n : ℕ} (hn : 1 ≤ n) {X : List (Fin nx → ℝ)} {U : List (Fin nu → ℝ)} (hX : X.length = n) (hU : U.length = n)
    (p : List ℝ) (fs : List Expr) : ∃ vs, (fs.mapM fun f => f.eval (seriesArgs X U p)) = .ok vs ∧
      List.Forall₂ (fun (f : Expr) v => ((∃ i ∈ f.deps, i < nx + nu) → ∃ l, v = .vec l ∧ l.length = n) ∧
        ((∀ i ∈ f.deps, nx + nu ≤ i) → ∃ a, v = .scal a)) fs vs := by
  induction fs with
  | nil => exact ⟨[], rfl, .nil⟩
  | cons f fs ih =>
    obtain ⟨vs, h1, h2⟩ := ih
    obtain ⟨v, h3, h4⟩ := eval_kinds hn hX hU p f
    refine ⟨v :: vs, ?_, .cons h4 h2⟩
    rw [List.mapM_cons, h3, h1]
    rfl

/-- C84 is false for every series with a first expression that has a state or control and another one without any: the function raises.
This is the case of every system with a constant acceleration. -/
theorem C84_mixed_refuted {nx nu n : ℕ} (hn : 2 ≤ n) {X : List (Fin nx → ℝ)} {U : List (Fin nu → ℝ)} (hX : X.length = n) (hU : U.length = n)
    (p : List ℝ) {f : Expr} {fs : List Expr} (hf : ∃ i ∈ f.deps, i < nx + nu) (hc : ∃ g ∈ fs, ∀ i ∈ g.deps, nx + nu ≤ i) :
    newF (f :: fs) (nx + nu + p.length) (.mat nx X) (.mat nu U) (.vec p) = .error .assertion := by
  obtain ⟨vs, h1, h2⟩ := results_kinds (by omega) hX hU p (f :: fs)
  have ha : ((List.finRange nx).map fun j => Val.vec (X.map fun r => r j)) ++
      ((List.finRange nu).map fun j => Val.vec (U.map fun r => r j)) ++ p.map Val.scal = seriesArgs X U p := rfl
  unfold newF
  simp only [unpack, bind, Except.bind]
  rw [ha, if_pos (by simp [seriesArgs]; omega), h1]
  obtain ⟨v, ws, hv, hws, rfl⟩ := List.forall₂_cons_left_iff.1 h2
  obtain ⟨l, rfl, hl⟩ := hv.1 hf
  have hne : ¬(Val.vec l).sizeOne := by simp [Val.sizeOne]; omega
  have hnone : (Val.vec l :: ws).mapM Val.toVec? = none := by
    obtain ⟨g, hg, hgd⟩ := hc
    obtain ⟨i, hi, rfl⟩ := List.mem_iff_getElem.1 hg
    have hi' : i < ws.length := by have := hws.length_eq; omega
    obtain ⟨a, hw⟩ := ((List.forall₂_iff_get.1 hws).2 i hi hi').2 hgd
    refine mapM_none ⟨ws[i], List.mem_cons_of_mem _ (List.getElem_mem _), ?_⟩
    rw [show ws[i] = .scal a from hw]
    rfl
  simp only [congruentConcatenate, hne, hnone]
  rfl

/-- C84 is false for every series with one row whose first expression has a state or control: the function raises. -/
theorem C84_one_row {nx nu : ℕ} {X : List (Fin nx → ℝ)} {U : List (Fin nu → ℝ)} (hX : X.length = 1) (hU : U.length = 1)
    (p : List ℝ) {f : Expr} {fs : List Expr} (hf : ∃ i ∈ f.deps, i < nx + nu) :
    newF (f :: fs) (nx + nu + p.length) (.mat nx X) (.mat nu U) (.vec p) = .error .assertion := by
  obtain ⟨vs, h1, h2⟩ := results_kinds (by omega) hX hU p (f :: fs)
  have ha : ((List.finRange nx).map fun j => Val.vec (X.map fun r => r j)) ++
      ((List.finRange nu).map fun j => Val.vec (U.map fun r => r j)) ++ p.map Val.scal = seriesArgs X U p := rfl
  unfold newF
  simp only [unpack, bind, Except.bind]
  rw [ha, if_pos (by simp [seriesArgs]; omega), h1]
  obtain ⟨v, ws, hv, hws, rfl⟩ := List.forall₂_cons_left_iff.1 h2
  obtain ⟨l, rfl, hl⟩ := hv.1 hf
  have hone : (Val.vec l).sizeOne = true := by simp [Val.sizeOne, hl]
  have hnone : (Val.vec l :: ws).mapM Val.toScal? = none := mapM_none ⟨_, List.mem_cons_self, rfl⟩
  simp only [congruentConcatenate, hone, hnone]
  rfl

end Chords.NumTools.Props
