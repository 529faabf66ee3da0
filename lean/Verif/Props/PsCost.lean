import Verif.Props.Gauss
import Verif.Props.Bary
import Verif.Model.PsCost
import Mathlib.Analysis.SpecialFunctions.Integrals.Basic

/-! # Properties of the running costs of pseudospectral problems: C36, C67, C71 -/

namespace Chords.Props
open Finset Polynomial Chords.Points Chords.Spec Chords.Bary Chords.Gauss Chords.PsCost Chords.TimeScale

/-! ## C67 -/

/-- Change of variable between tau and time. -/
theorem integ_time (t0 t1 : ℝ) (p : ℝ[X]) :
    ∃ q : ℝ[X], q.natDegree ≤ p.natDegree ∧ (∀ x, q.eval x = p.eval (tauToT x t0 t1)) ∧
      integ t0 t1 p = (t1 - t0) / 2 * integ (-1) 1 q := by
  obtain ⟨φ, hφ⟩ : ∃ φ : ℝ[X], φ = C t0 + C ((t1 - t0) / 2) * (X + 1) := ⟨_, rfl⟩
  have hev : ∀ x, φ.eval x = tauToT x t0 t1 := by intro x; rw [hφ]; simp [tauToT]; ring
  have hφd : φ.natDegree ≤ 1 := by rw [hφ]; compute_degree
  refine ⟨p.comp φ, ?_, fun x => by rw [eval_comp, hev], ?_⟩
  · have h2 : (p.comp φ).natDegree ≤ p.natDegree * φ.natDegree := natDegree_comp_le
    exact (h2.trans (Nat.mul_le_mul_left _ hφd)).trans (by omega)
  · have hd : derivative ((anti t0 p).comp φ) = C ((t1 - t0) / 2) * p.comp φ := by
      rw [derivative_comp, anti_deriv, hφ]; simp
    have h2 := integ_derivative (-1) 1 ((anti t0 p).comp φ)
    rw [hd, integ_C_mul, eval_comp, eval_comp, hev, hev] at h2
    rw [h2, anti_integ]
    have e1 : tauToT 1 t0 t1 = t1 := by unfold tauToT; ring
    have e2 : tauToT (-1) t0 t1 = t0 := by unfold tauToT; ring
    rw [e1, e2, anti_eval, sub_zero]

/-- For weights that are exact on the sampled degree the weighted sum, scaled by the horizon, is twice the integral. -/
theorem scaled_sum {N : ℕ} {w : ℕ → ℝ} {pts : List ℝ}
    (hw : ∀ p : ℝ[X], p.degree < N → ∑ i ∈ range N, w i * p.eval (arr pts i) = ∫ x in (-1 : ℝ)..1, p.eval x)
    {g : ℝ[X]} (hg : g.degree < N) {a : ℕ → ℝ} {e : ℕ} {t0 t1 : ℝ}
    (ha : ∀ i < N, a i ^ e = g.eval (tauToT (arr pts i) t0 t1)) :
    (t1 - t0) * ∑ i ∈ range N, w i * a i ^ e = 2 * ∫ t in t0..t1, g.eval t := by
  obtain ⟨q, h1, h2, h3⟩ := integ_time t0 t1 g
  have hq : q.degree < N := by
    rcases eq_or_ne g 0 with rfl | h0
    · have : q = 0 := Polynomial.funext (fun x => by rw [h2]; simp)
      rw [this, degree_zero]; exact WithBot.bot_lt_coe _
    · rw [degree_eq_natDegree h0] at hg
      have : g.natDegree < N := by exact_mod_cast hg
      exact lt_of_le_of_lt degree_le_natDegree (by exact_mod_cast (by omega : q.natDegree < N))
  have e1 : ∑ i ∈ range N, w i * a i ^ e = integ (-1) 1 q := by
    rw [← (show ∑ i ∈ range N, w i * q.eval (arr pts i) = integ (-1) 1 q from hw q hq)]
    apply sum_congr rfl
    intro i hi
    rw [ha i (mem_range.1 hi), h2]
  have h3' : ∫ t in t0..t1, g.eval t = (t1 - t0) / 2 * integ (-1) 1 q := h3
  rw [e1, h3']; ring

theorem coll_order {scheme : String} {order : ℕ} (h : scheme ∉ jacobiSchemes ∨ order = 2) (N : ℕ) :
    collPoints N scheme order = collPoints N scheme := by
  rcases h with h | rfl
  · simp only [jacobiSchemes, List.mem_cons, List.not_mem_nil, or_false, not_or] at h
    simp [collPoints, h]
  · rfl

/-- C67 for samples at the collocation points of a node based problem: `quad_cost` of samples (or, with `squared`, of
numbers whose squares are samples) of polynomials of degree below the number of points is TWICE the integral over the
horizon, summed over the columns. Missing for the full claim: the factor should be 1. -/
theorem C67_coll_partial {scheme : String} (hs : scheme ∈ implemented) {order : ℕ} (ho : 1 ≤ order)
    (hj : scheme ∉ jacobiSchemes ∨ order = 2) {N : ℕ} (hN : minPoints scheme ≤ N) (n_arr : ℕ) (t0 t1 : ℝ)
    (squared : Bool) (m : ℕ) :
    ∃ coll, collPoints N scheme = .ok coll ∧ ∀ (a : ℕ → ℕ → ℝ) (g : ℕ → ℝ[X]), (∀ c < m, (g c).degree < N) →
      (∀ i < N, ∀ c < m, a i c ^ (if squared then 2 else 1) = (g c).eval (tauToT (arr coll i) t0 t1)) →
      quadCost scheme N n_arr order t0 t1 N m a squared = .ok (2 * ∑ c ∈ range m, ∫ t in t0..t1, (g c).eval t) := by
  obtain ⟨coll, w, h1, h2, -, h4⟩ := C28_u hs ho hN
  refine ⟨coll, by rw [← coll_order hj, h1], fun a g hg ha => ?_⟩
  have e : quadCost scheme N n_arr order t0 t1 N m a squared
      = .ok ((t1 - t0) * ∑ c ∈ range m, ∑ i ∈ range N, w i * a i c ^ (if squared then 2 else 1)) := by
    simp only [quadCost, quadIntCas, if_true, h2, bind, Except.bind, pure, Except.pure]
  rw [e, mul_sum, mul_sum]
  congr 1
  apply sum_congr rfl
  intro c hc
  exact scaled_sum h4 (hg c (mem_range.1 hc)) (fun i hi => ha i hi c (mem_range.1 hc))

/-- The same for samples at the times of all rows of `x`. -/
theorem C67_rows_partial {scheme : String} (hs : scheme ∈ implemented) (order : ℕ) {N : ℕ} (hN : minPoints scheme ≤ N)
    (t0 t1 : ℝ) (squared : Bool) (m : ℕ) :
    ∃ full, arrPoints N scheme = .ok full ∧ (full.length ≠ N →
      ∀ (a : ℕ → ℕ → ℝ) (g : ℕ → ℝ[X]), (∀ c < m, (g c).degree < full.length) →
      (∀ i < full.length, ∀ c < m,
        a i c ^ (if squared then 2 else 1) = (g c).eval (tauToT (arr full i) t0 t1)) →
      quadCost scheme N full.length order t0 t1 full.length m a squared
        = .ok (2 * ∑ c ∈ range m, ∫ t in t0..t1, (g c).eval t)) := by
  obtain ⟨full, w, h1, h2, -, h4⟩ := C28_x hs hN order
  refine ⟨full, h1, fun hne a g hg ha => ?_⟩
  have e : quadCost scheme N full.length order t0 t1 full.length m a squared
      = .ok ((t1 - t0) * ∑ c ∈ range m, ∑ i ∈ range full.length, w i * a i c ^ (if squared then 2 else 1)) := by
    simp only [quadCost, quadIntCas, if_neg hne, if_true, h2, bind, Except.bind, pure, Except.pure]
  rw [e, mul_sum, mul_sum]
  congr 1
  apply sum_congr rfl
  intro c hc
  exact scaled_sum h4 (hg c (mem_range.1 hc)) (fun i hi => ha i hi c (mem_range.1 hc))

/-- Any other number of rows is refused. -/
theorem C67_shape (scheme : String) (n_coll n_arr order : ℕ) (t0 t1 : ℝ) {N : ℕ} (h1 : N ≠ n_coll) (h2 : N ≠ n_arr)
    (m : ℕ) (a : ℕ → ℕ → ℝ) (sq : Bool) : quadCost scheme n_coll n_arr order t0 t1 N m a sq = .error .valueError := by
  simp [quadCost, h1, h2, bind, Except.bind]

/-- Two squared controls on an LGL problem of order 2: 1 and 1 + t. -/
example : "LGL" ∈ implemented ∧ "LGL" ∉ jacobiSchemes ∧ minPoints "LGL" ≤ 3 ∧ (1 + X : ℝ[X]).degree < (3 : ℕ) := by
  refine ⟨by decide, by decide, by decide, ?_⟩
  refine lt_of_le_of_lt (b := (1 : WithBot ℕ)) (by compute_degree) (by norm_num)

/-- C67 is false as stated: the squared control 1 over a horizon of length 1 costs 2. -/
theorem C67_refuted : uSqCost "LG" 1 3 2 0 1 1 (fun _ _ => 1) = .ok 2 ∧ (∫ _ in (0 : ℝ)..1, (1 : ℝ)) = 1 := by
  refine ⟨?_, by simp⟩
  obtain ⟨coll, -, h⟩ := C67_coll_partial (scheme := "LG") (by decide) (order := 2) (by norm_num) (Or.inr rfl) (N := 1)
    (by decide) 3 0 1 true 1
  have := h (fun _ _ => 1) (fun _ => 1) (fun c _ => lt_of_le_of_lt degree_one_le (by norm_num)) (by simp)
  unfold uSqCost
  rw [this]
  simp

/-! ## C36 -/

theorem trapSum_const {t coefs : List ℝ} {c : ℝ} (h : ∀ j < t.length, arr coefs j = c) (e : ℕ) :
    trapSum t coefs e = c ^ e * (arr t (t.length - 1) - arr t 0) := by
  unfold trapSum
  rw [← sum_range_sub, mul_sum]
  apply sum_congr rfl
  intro j hj
  have := mem_range.1 hj
  simp only [at', h j (by omega), h (j + 1) (by omega)]
  ring

/-- The schemes trapezoidal costs are implemented for. -/
def trapSchemes : List String := ["LG", "JG", "LGR", "JGR", "LGR_inv", "JGR_inv", "LGL", "JGL"]

theorem arr_cons_replicate {c : ℝ} {N : ℕ} {j : ℕ} (hj : j < N) : arr (List.replicate N c) j = c := by
  simp [arr, List.getD_eq_getElem?_getD, List.getElem?_replicate, hj]

/-- C36, what the function that `trapz_cost` is made from computes of numbers or CasADi symbols: for a constant `c` it is `c` times `1 - τ`, where `τ` is the FIRST
construction point; -1 is missing from the list of times and 1 is there twice. Missing for the full claim: it should be `2 c`, which is never the case as -1 is not a
construction point, and `trapz_cost` itself raises (`C36_refuted`). -/
theorem C36_partial {scheme : String} (hs : scheme ∈ trapSchemes) {order : ℕ} (ho : 1 ≤ order) {N : ℕ}
    (hN : minPoints scheme ≤ N) :
    ∃ constr τ, buConstructionPoints N scheme order = .ok constr ∧ constr.head? = some τ ∧ -1 < τ ∧
      ∀ squared, ∃ f, trapInt scheme N order squared = .ok f ∧
        ∀ c : ℝ, f false (List.replicate N c) = .ok (c ^ (if squared then 2 else 1) * (1 - τ)) := by
  have himp : scheme ∈ implemented ∧ scheme ∈ buImplemented := by
    simp only [trapSchemes, List.mem_cons, List.not_mem_nil, or_false] at hs
    rcases hs with rfl | rfl | rfl | rfl | rfl | rfl | rfl | rfl <;> decide
  obtain ⟨himp, hbu⟩ := himp
  have hN1 : 1 ≤ N := le_trans (minPoints_pos scheme) hN
  obtain ⟨coll, f, g, k1, k2, k3, k4⟩ := C25_u himp ho hN
  obtain ⟨coll', full, s, m1, m2, m3, m4, m5, m6, m7, m8, m9⟩ := C32_rows hbu ho hN
  have hfg : ∀ c : ℝ, f (arr (List.replicate N c)) = c ∧ g (arr (List.replicate N c)) = c := by
    intro c
    have := k4 (C c) (lt_of_le_of_lt degree_C_le (by exact_mod_cast hN1)) (arr (List.replicate N c))
      (fun i hi => by rw [arr_cons_replicate hi, eval_C])
    simpa using this
  have hlen : coll'.length = N := m8
  -- the construction points
  have hconstr : ∃ constr, buConstructionPoints N scheme order = .ok constr ∧ full = -1 :: constr := by
    simp only [buArrPoints, bind, Except.bind, pure, Except.pure] at m2
    cases hb : buConstructionPoints N scheme order with
    | error e => rw [hb] at m2; cases m2
    | ok l => rw [hb] at m2; injection m2 with h; exact ⟨l, rfl, by simpa using h.symm⟩
  obtain ⟨constr, hc1, rfl⟩ := hconstr
  have hne : constr ≠ [] := by
    rintro rfl
    simp at m7
    norm_num at m7
  obtain ⟨τ, rest, rfl⟩ : ∃ τ rest, constr = τ :: rest := by
    cases constr with
    | nil => exact absurd rfl hne
    | cons a l => exact ⟨a, l, rfl⟩
  refine ⟨_, τ, hc1, rfl, ?_, fun squared => ?_⟩
  · exact (List.pairwise_cons.1 m5).1 τ List.mem_cons_self
  refine ⟨_, by simp only [trapInt, hc1, k2, k3, bind, Except.bind, pure, Except.pure]; exact rfl, fun c => ?_⟩
  have hlast : ∀ l : List ℝ, arr (τ :: rest ++ [1]) ((τ :: rest ++ [1]).length - 1) = 1 := by
    intro _; simp [arr]
  have hfirst : arr (τ :: rest ++ [1]) 0 = τ := by simp [arr]
  have hrows : (τ :: rest).length + 1 = (if scheme = "LG" ∨ scheme = "JG" then N + 2
      else if scheme = "LGL" ∨ scheme = "JGL" then N else N + 1) := by
    have e := congrArg List.length m9
    rw [m8] at e
    simp only [trapSchemes, List.mem_cons, List.not_mem_nil, or_false] at hs
    rcases hs with rfl | rfl | rfl | rfl | rfl | rfl | rfl | rfl <;>
      (simp [collIndices, gaussLike, gaussInv_eq, gauss2_eq, radauLike, radauInv_eq, lobatoLike, otherSchemes] at m4
       subst m4
       simp at e ⊢
       omega)
  have key : ∀ l : List ℝ, (∀ j < (τ :: rest ++ [1]).length, arr l j = c) →
      trapSum (τ :: rest ++ [1]) l (if squared then 2 else 1) = c ^ (if squared then 2 else 1) * (1 - τ) := by
    intro l hl
    rw [trapSum_const hl, hlast [], hfirst]
  have gl : ∀ (a b : ℕ) (j : ℕ), j < a + N + b →
      arr (List.replicate a c ++ List.replicate N c ++ List.replicate b c) j = c := by
    intro a b j hj
    rw [List.replicate_append_replicate, List.replicate_append_replicate]
    exact arr_cons_replicate hj
  simp only [trapSchemes, List.mem_cons, List.not_mem_nil, or_false] at hs
  simp only [casCall, Bool.false_eq_true, if_false, bind, Except.bind, (hfg c).1, (hfg c).2]
  rcases hs with rfl | rfl | rfl | rfl | rfl | rfl | rfl | rfl <;> simp only [List.mem_cons, List.not_mem_nil, or_false,
    or_true, true_or, if_true, reduceCtorEq, String.reduceEq, if_false, or_self, false_or] at hrows ⊢ <;>
    (congr 1
     apply key
     intro j hj
     simp only [List.length_append, List.length_cons, List.length_nil] at hj hrows)
  · exact gl 1 1 j (by omega)
  · exact gl 1 1 j (by omega)
  · have := gl 0 1 j (by omega); simpa using this
  · have := gl 0 1 j (by omega); simpa using this
  · have := gl 1 0 j (by omega); simpa using this
  · have := gl 1 0 j (by omega); simpa using this
  · exact arr_cons_replicate (by omega)
  · exact arr_cons_replicate (by omega)

example : "JGR" ∈ trapSchemes ∧ minPoints "JGR" ≤ 3 := by decide

/-- C36 is false: `trapz_cost` raises for every scheme, number of points, order and array, because a CasADi function is called with SymPy symbols. -/
theorem C36_refuted (scheme : String) (n_coll n_arr order : ℕ) (t0 t1 : ℝ) (a : List ℝ) (squared : Bool) :
    ∃ e, trapzCost scheme n_coll n_arr order t0 t1 a squared = .error e := by
  have h : ∀ mode, ∃ e, trapIntCas scheme n_coll order mode squared = .error e := by
    intro mode
    have hf : ∀ f, trapInt scheme n_coll order squared = .ok f → ∀ l, ∃ e, f true l = .error e := by
      intro f hf l
      simp only [trapInt, bind, Except.bind, pure, Except.pure] at hf
      cases h1 : buConstructionPoints n_coll scheme order with
      | error e => rw [h1] at hf; cases hf
      | ok constr =>
        cases h2 : baryExtreme scheme n_coll "u" "start" order with
        | error e => rw [h1, h2] at hf; cases hf
        | ok f1 =>
          cases h3 : baryExtreme scheme n_coll "u" "end" order with
          | error e => rw [h1, h2, h3] at hf; cases hf
          | ok f2 =>
            rw [h1, h2, h3] at hf
            cases hf
            exact ⟨.notImplemented, rfl⟩
    rw [trapIntCas]
    generalize trapSize scheme n_coll mode = n
    cases n with
    | error e => exact ⟨e, rfl⟩
    | ok n =>
      cases h1 : trapInt scheme n_coll order squared with
      | error e => exact ⟨e, rfl⟩
      | ok f =>
        obtain ⟨e, he⟩ := hf f h1 (List.replicate n 0)
        refine ⟨e, ?_⟩
        simp only [bind, Except.bind, he]
  rw [trapzCost]
  generalize trapMode a.length n_coll n_arr = mode
  cases mode with
  | error e => exact ⟨e, rfl⟩
  | ok mode =>
    obtain ⟨e, he⟩ := h mode
    refine ⟨e, ?_⟩
    simp only [bind, Except.bind, he]

/-- The function it is made from is wrong too: with two LGL points the integral of the constant 1 is 0 instead of 2. -/
theorem C36_function_refuted : ∃ f, trapInt "LGL" 2 2 false = .ok f ∧ f false [1, 1] = .ok 0 := by
  obtain ⟨constr, τ, h1, h2, -, h3⟩ := C36_partial (scheme := "LGL") (by decide) (order := 2) (by norm_num) (N := 2)
    (by decide)
  obtain ⟨f, h4, h5⟩ := h3 false
  refine ⟨f, h4, ?_⟩
  have h := h5 1
  have e : buConstructionPoints 2 "LGL" 2 = .ok [1] := by
    simp [buConstructionPoints, buCollPoints, gaussLike, radauLike, radauInv_eq, lobatoLike, LGL, legendre, realRoots,
      bind, Except.bind, pure, Except.pure]
  rw [e] at h1
  cases h1
  simp at h2
  subst h2
  simpa using h

/-- The sum itself is the trapezoidal rule on the times and values that it gets: it is exact for values that depend
linearly on time. -/
theorem C36_rule {t coefs : List ℝ} {a b : ℝ} (h : ∀ j < t.length, arr coefs j = a + b * arr t j) :
    trapSum t coefs 1 = a * (arr t (t.length - 1) - arr t 0) + b * (arr t (t.length - 1) ^ 2 - arr t 0 ^ 2) / 2 := by
  unfold trapSum
  rw [← sum_range_sub, ← sum_range_sub (fun j => arr t j ^ 2), mul_sum, mul_sum, sum_div, ← sum_add_distrib]
  apply sum_congr rfl
  intro j hj
  have := mem_range.1 hj
  simp only [at', h j (by omega), h (j + 1) (by omega)]
  ring

example : trapSum [0, 1, 3] [1, 3, 7] 1 = 12 := by
  rw [C36_rule (a := 1) (b := 2) (by intro j hj; simp at hj; interval_cases j <;> norm_num [arr])]
  norm_num [arr]

/-- The Chebyshev schemes, accepted by the problems, are refused by that function. -/
theorem C36_chebyshev {scheme : String} (hs : scheme ∈ ["CG", "CGR", "CGR_inv", "CGL"]) {order : ℕ} (ho : 1 ≤ order)
    {N : ℕ} (hN : minPoints scheme ≤ N) (squared : Bool) :
    ∃ f, trapInt scheme N order squared = .ok f ∧ ∀ a, f false a = .error .notImplemented := by
  have himp : scheme ∈ implemented ∧ scheme ∈ buImplemented := by
    simp only [List.mem_cons, List.not_mem_nil, or_false] at hs
    rcases hs with rfl | rfl | rfl | rfl <;> decide
  obtain ⟨coll, f, g, k1, k2, k3, k4⟩ := C25_u himp.1 ho hN
  obtain ⟨coll', full, s, m1, m2, -⟩ := C32_rows himp.2 ho hN
  have hconstr : ∃ constr, buConstructionPoints N scheme order = .ok constr := by
    simp only [buArrPoints, bind, Except.bind, pure, Except.pure] at m2
    cases hb : buConstructionPoints N scheme order with
    | error e => rw [hb] at m2; cases m2
    | ok l => exact ⟨l, rfl⟩
  obtain ⟨constr, hc⟩ := hconstr
  refine ⟨_, by simp only [trapInt, hc, k2, k3, bind, Except.bind, pure, Except.pure]; exact rfl, fun a => ?_⟩
  simp only [casCall, Bool.false_eq_true, if_false]
  simp only [List.mem_cons, List.not_mem_nil, or_false] at hs
  rcases hs with rfl | rfl | rfl | rfl <;> simp

/-! ## C71 -/

/-- C71 where it holds (schemes that are not Jacobi ones, or order 2), up to the factor of C67: the squared control
cost of bottom-up and top-down problems is twice the integral of the polynomials whose samples the squared controls
are. Missing for the full claim: Jacobi schemes on problems of another order, and the factor. -/
theorem C71_partial {scheme : String} (hs : scheme ∈ buImplemented) {order : ℕ} (ho : 1 ≤ order)
    (hj : scheme ∉ jacobiSchemes ∨ order = 2) {N : ℕ} (hN : minPoints scheme ≤ N) (t0 t1 : ℝ) (m : ℕ) :
    ∃ coll, buCollPoints N scheme order = .ok coll ∧ ∀ (u : ℕ → ℕ → ℝ) (g : ℕ → ℝ[X]), (∀ c < m, (g c).degree < N) →
      (∀ i < N, ∀ c < m, u i c ^ 2 = (g c).eval (tauToT (arr coll i) t0 t1)) →
      buUSqCost scheme N t0 t1 m u = .ok (2 * ∑ c ∈ range m, ∫ t in t0..t1, (g c).eval t) := by
  obtain ⟨hc, himp⟩ := bu_coll_eq hs N order
  obtain ⟨coll, w, h1, h2, -, h4⟩ := C28_u himp (order := 2) (by norm_num) hN
  refine ⟨coll, by rw [hc, coll_order hj, h1], fun u g hg ha => ?_⟩
  have e : buUSqCost scheme N t0 t1 m u = .ok ((t1 - t0) * ∑ c ∈ range m, ∑ i ∈ range N, w i * u i c ^ 2) := by
    simp only [buUSqCost, quadIntCas, if_true, h2, bind, Except.bind, pure, Except.pure]
  rw [e, mul_sum, mul_sum]
  congr 1
  apply sum_congr rfl
  intro c hc
  exact scaled_sum h4 (hg c (mem_range.1 hc)) (fun i hi => ha i hi c (mem_range.1 hc))

example : "JGR_inv" ∈ buImplemented ∧ minPoints "JGR_inv" ≤ 2 := by decide

/-- C71 is false for a Jacobi scheme on a problem of order 1: with two "JG" points on the horizon [-1, 1], controls whose
squares are the samples of `1 + t` do not cost (twice) the integral of `1 + t`, because the weights belong to other
points. -/
theorem C71_refuted :
    ∃ coll v, buCollPoints 2 "JG" 1 = .ok coll ∧
      buUSqCost "JG" 2 (-1) 1 1 (fun i _ => Real.sqrt ((1 + X : ℝ[X]).eval (tauToT (arr coll i) (-1) 1))) = .ok v ∧
      (∀ i < 2, 0 ≤ (1 + X : ℝ[X]).eval (tauToT (arr coll i) (-1) 1)) ∧
      v ≠ 2 * ∫ t in (-1 : ℝ)..1, (1 + X : ℝ[X]).eval t := by
  obtain ⟨coll, w, h1, h2, h3, h4⟩ := C28_u (scheme := "JG") (by decide) (order := 2) (by norm_num) (N := 2) (by decide)
  have hcoll : coll = [(-1 - Real.sqrt 6) / 5, (-1 + Real.sqrt 6) / 5] := by
    rw [← JG22]; simp [collPoints] at h1; exact h1.symm
  subst hcoll
  have p6 : 0 < Real.sqrt 6 := Real.sqrt_pos.2 (by norm_num)
  have p3 : 0 < Real.sqrt 3 := Real.sqrt_pos.2 (by norm_num)
  have q3 : Real.sqrt 3 ≤ 3 := by rw [Real.sqrt_le_left (by norm_num)]; norm_num
  have hX : ∀ a b : ℝ, ∫ x in a..b, (X : ℝ[X]).eval x = (b ^ 2 - a ^ 2) / 2 := by
    intro a b; simp [integral_id]
  have m1 := h4 X (lt_of_le_of_lt degree_X_le (by norm_num))
  rw [hX] at m1
  simp [sum_range_succ, arr] at m1 h3
  refine ⟨[-Real.sqrt 3 / 3, Real.sqrt 3 / 3], 2 * (w 0 * (1 - Real.sqrt 3 / 3) + w 1 * (1 + Real.sqrt 3 / 3)), ?_, ?_, ?_, ?_⟩
  · rw [← JG21]; simp [buCollPoints]
  · simp only [buUSqCost, quadIntCas, h2, bind, Except.bind, pure, Except.pure]
    congr 1
    have e0 : tauToT (-Real.sqrt 3 / 3) (-1) 1 = -Real.sqrt 3 / 3 := by unfold tauToT; ring
    have e1 : tauToT (Real.sqrt 3 / 3) (-1) 1 = Real.sqrt 3 / 3 := by unfold tauToT; ring
    simp [sum_range_succ, arr, e0, e1]
    rw [Real.sq_sqrt (by linarith), Real.sq_sqrt (by linarith)]
    ring
  · intro i hi
    have e0 : tauToT (-Real.sqrt 3 / 3) (-1) 1 = -Real.sqrt 3 / 3 := by unfold tauToT; ring
    have e1 : tauToT (Real.sqrt 3 / 3) (-1) 1 = Real.sqrt 3 / 3 := by unfold tauToT; ring
    have : i = 0 ∨ i = 1 := by omega
    rcases this with rfl | rfl <;> simp [arr, e0, e1] <;> linarith
  · have hI : ∫ t in (-1 : ℝ)..1, (1 + X : ℝ[X]).eval t = 2 := by
      have := integ_add (-1) 1 1 X
      rw [integ_one, show integ (-1) 1 X = 0 by unfold integ; rw [hX]; norm_num] at this
      unfold integ at this
      rw [this]; norm_num
    rw [hI]
    intro e
    have k1 : (w 1 - w 0) * Real.sqrt 3 = 0 := by linarith
    have k2 : w 1 - w 0 = 0 := by
      rcases mul_eq_zero.1 k1 with h | h
      · exact h
      · linarith
    have k3 : w 0 = 1 := by linarith
    have k4 : w 1 = 1 := by linarith
    rw [k3, k4] at m1
    linarith

end Chords.Props
