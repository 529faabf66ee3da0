import Verif.Model.NumTools
import Verif.Lemmas.Exc
import Mathlib.Algebra.BigOperators.Fin
import Mathlib.Analysis.SpecialFunctions.Integrals.Basic
import Mathlib.Tactic.Module
import Mathlib.Tactic.FieldSimp
import Mathlib.Tactic.LinearCombination

/-! # Properties of the numeric helpers: C55, C56, C82 -/

namespace Chords.NumTools.Props
open Finset Chords.NumTools Chords.Exc

/-! ## C56 -/

theorem sum_getD (l : List ℝ) : l.sum = ∑ k ∈ range l.length, l.getD k 0 := by
  induction l with
  | nil => simp
  | cons a l ih => rw [List.sum_cons, ih, List.length_cons, Finset.sum_range_succ', add_comm]; simp

/-- The sum of the areas of the first `i` trapezoids. -/
noncomputable def areas (X t : List ℝ) (i : ℕ) : ℝ :=
  ∑ k ∈ range i, (t.getD (k + 1) 0 - t.getD k 0) * (X.getD k 0 + X.getD (k + 1) 0) / 2

theorem zip_tail_getD (f : ℝ → ℝ → ℝ) (l : List ℝ) {k : ℕ} (hk : k + 1 < l.length) :
    (List.zipWith f l.tail l).getD k 0 = f (l.getD (k + 1) 0) (l.getD k 0) := by
  rw [List.getD_eq_getElem?_getD, List.getElem?_zipWith, List.getElem?_tail, List.getElem?_eq_getElem hk,
    List.getElem?_eq_getElem (by omega)]
  simp [List.getD_eq_getElem?_getD, hk, show k < l.length by omega]

theorem trapz_same {y x : List ℝ} (h : y.length = x.length) : trapz y x = .ok (areas y x (x.length - 1)) := by
  have l1 : (diffs x).length = x.length - 1 := by simp [diffs]
  have l2 : (pairSums y).length = x.length - 1 := by simp [pairSums, h]
  rw [trapz]
  rw [if_pos (by rw [l1, l2]), sum_getD]
  have l3 : (List.zipWith (fun a b => a * b / 2) (diffs x) (pairSums y)).length = x.length - 1 := by
    rw [List.length_zipWith, l1, l2, min_self]
  rw [l3, areas]
  congr 1
  apply sum_congr rfl
  intro k hk
  have hk := mem_range.1 hk
  have e1 := zip_tail_getD (fun b a => b - a) x (k := k) (by omega)
  have e2 := zip_tail_getD (fun b a => b + a) y (k := k) (by omega)
  rw [List.getD_eq_getElem?_getD, List.getElem?_zipWith]
  rw [List.getD_eq_getElem?_getD] at e1 e2
  have g1 : (diffs x)[k]? = some ((diffs x)[k]?.getD 0) := by
    rw [List.getElem?_eq_getElem (by omega)]; rfl
  have g2 : (pairSums y)[k]? = some ((pairSums y)[k]?.getD 0) := by
    rw [List.getElem?_eq_getElem (by omega)]; rfl
  rw [g1, g2, diffs, pairSums, e1, e2]
  simp only [Option.getD_some]
  ring

theorem areas_take {X t : List ℝ} {i : ℕ} (_h1 : i < X.length) (_h2 : i < t.length) :
    areas (X.take (i + 1)) (t.take (i + 1)) i = areas X t i := by
  apply sum_congr rfl
  intro k hk
  have hk := mem_range.1 hk
  have g : ∀ (l : List ℝ) (m : ℕ), m < i + 1 → (l.take (i + 1)).getD m 0 = l.getD m 0 := by
    intro l m hm
    rw [List.getD_eq_getElem?_getD, List.getD_eq_getElem?_getD, List.getElem?_take, if_pos hm]
  rw [g t _ (by omega), g t _ (by omega), g X _ (by omega), g X _ (by omega)]

theorem trapzIntegrate_eq {X t : List ℝ} (h : t.length = X.length) :
    trapzIntegrate X t = .ok ((List.range X.length).map (areas X t)) := by
  apply mapM_eq
  intro i hi
  have hi := List.mem_range.1 hi
  by_cases h0 : i = 0
  · subst h0; simp [areas]
  · rw [if_neg h0, trapz_same (by simp [h])]
    have e : (t.take (i + 1)).length - 1 = i := by simp; omega
    rw [e, areas_take hi (by omega)]

theorem getD_of {l : List ℝ} {i : ℕ} {a : ℝ} (h : l[i]? = some a) : l.getD i 0 = a := by
  rw [List.getD_eq_getElem?_getD, h]; rfl

theorem range_map_get {A : Type} {f : ℕ → A} {n i : ℕ} {a : A} (h : ((List.range n).map f)[i]? = some a) :
    i < n ∧ a = f i := by
  rw [List.getElem?_map] at h
  by_cases hi : i < n
  · rw [List.getElem?_range hi] at h
    simp at h
    exact ⟨hi, h.symm⟩
  · rw [List.getElem?_eq_none (by simpa using hi)] at h
    simp at h

/-- C56: with as many times as samples there is a result with as many entries; it starts at 0 and each step adds the area
of one trapezoid. -/
theorem C56_running_total {X t : List ℝ} (h : t.length = X.length) :
    ∃ r, trapzIntegrate X t = .ok r ∧ r.length = X.length ∧ (∀ a, r[0]? = some a → a = 0) ∧
      ∀ (i : ℕ) x x' s s' a b, X[i]? = some x → X[i + 1]? = some x' → t[i]? = some s → t[i + 1]? = some s' →
        r[i]? = some a → r[i + 1]? = some b → b - a = (s' - s) * (x + x') / 2 := by
  refine ⟨_, trapzIntegrate_eq h, by simp, ?_, ?_⟩
  · intro a ha
    obtain ⟨_, rfl⟩ := range_map_get ha
    simp [areas]
  · intro i x x' s s' a b h1 h2 h3 h4 ha hb
    obtain ⟨_, rfl⟩ := range_map_get ha
    obtain ⟨_, rfl⟩ := range_map_get hb
    rw [areas, areas, Finset.sum_range_succ, getD_of h1, getD_of h2, getD_of h3, getD_of h4]
    ring

example : trapzIntegrate [1, 3, 3] [0, 1, 3] = .ok [0, 2, 8] := by
  rw [trapzIntegrate_eq (by rfl)]
  norm_num [areas, List.range_succ, Finset.sum_range_succ]

/-- C56, linearity. -/
theorem C56_linear {X Y t : List ℝ} (hX : t.length = X.length) (hY : t.length = Y.length) (p q : ℝ) :
    ∃ r rX rY, trapzIntegrate (List.zipWith (fun x y => p * x + q * y) X Y) t = .ok r ∧ trapzIntegrate X t = .ok rX ∧
      trapzIntegrate Y t = .ok rY ∧ r = List.zipWith (fun x y => p * x + q * y) rX rY := by
  have hl : (List.zipWith (fun x y => p * x + q * y) X Y).length = X.length := by simp; omega
  refine ⟨_, _, _, trapzIntegrate_eq (by rw [hl, hX]), trapzIntegrate_eq hX, trapzIntegrate_eq hY, ?_⟩
  rw [hl, show Y.length = X.length by omega, List.zipWith_map_left, List.zipWith_map_right,
    List.zipWith_self]
  apply List.map_congr_left
  intro i hi
  have hi := List.mem_range.1 hi
  rw [areas, areas, areas, mul_sum, mul_sum, ← sum_add_distrib]
  apply sum_congr rfl
  intro k hk
  have hk := mem_range.1 hk
  have g : ∀ m, m < X.length → (List.zipWith (fun x y => p * x + q * y) X Y).getD m 0 = p * X.getD m 0 + q * Y.getD m 0 := by
    intro m hm
    rw [List.getD_eq_getElem?_getD, List.getElem?_zipWith, List.getElem?_eq_getElem hm,
      List.getElem?_eq_getElem (show m < Y.length by omega)]
    simp [List.getD_eq_getElem?_getD, hm, show m < Y.length by omega]
  rw [g k (by omega), g (k + 1) (by omega)]
  ring

/-- C56, monotone: non-negative data and increasing times give an increasing result. -/
theorem C56_monotone {X t : List ℝ} (h : t.length = X.length) (hX : ∀ x ∈ X, 0 ≤ x) (ht : t.Pairwise (· ≤ ·)) :
    ∃ r, trapzIntegrate X t = .ok r ∧ r.Pairwise (· ≤ ·) := by
  refine ⟨_, trapzIntegrate_eq h, ?_⟩
  rw [List.pairwise_map]
  refine List.Pairwise.imp_of_mem ?_ (List.pairwise_lt_range)
  intro i j hi hj hij
  have hj := List.mem_range.1 hj
  rw [areas, areas]
  apply Finset.sum_le_sum_of_subset_of_nonneg
  · intro k hk
    have := mem_range.1 hk
    exact mem_range.2 (by omega)
  · intro k hk _
    have hk := mem_range.1 hk
    have m : ∀ m, m < X.length → 0 ≤ X.getD m 0 := by
      intro m hm
      rw [List.getD_eq_getElem?_getD, List.getElem?_eq_getElem hm]
      exact hX _ (List.getElem_mem hm)
    have m2 : t.getD k 0 ≤ t.getD (k + 1) 0 := by
      rw [List.getD_eq_getElem?_getD, List.getD_eq_getElem?_getD, List.getElem?_eq_getElem (show k < t.length by omega),
        List.getElem?_eq_getElem (show k + 1 < t.length by omega)]
      exact List.pairwise_iff_getElem.1 ht k (k + 1) (by omega) (by omega) (by omega)
    have := m k (by omega)
    have := m (k + 1) (by omega)
    have : 0 ≤ t.getD (k + 1) 0 - t.getD k 0 := by linarith
    positivity

/-- `f` is the broken line through the samples. -/
def BrokenLine (X t : List ℝ) (f : ℝ → ℝ) : Prop :=
  ∀ (i : ℕ) x x' s s', X[i]? = some x → X[i + 1]? = some x' → t[i]? = some s → t[i + 1]? = some s' →
    ∀ τ, s ≤ τ → τ ≤ s' → f τ = x + (x' - x) * ((τ - s) / (s' - s))

theorem integral_line (x x' s s' : ℝ) (hs : s < s') :
    ∫ τ in s..s', (x + (x' - x) * ((τ - s) / (s' - s))) = (s' - s) * (x + x') / 2 := by
  have hne : s' - s ≠ 0 := by linarith
  have e : ∀ τ : ℝ, x + (x' - x) * ((τ - s) / (s' - s)) = (x - (x' - x) * s / (s' - s)) + (x' - x) / (s' - s) * τ := by
    intro τ; field_simp; ring
  simp only [e]
  have hi : IntervalIntegrable (fun τ : ℝ => (x' - x) / (s' - s) * τ) MeasureTheory.volume s s' :=
    Continuous.intervalIntegrable (by fun_prop) _ _
  rw [intervalIntegral.integral_add (by simp) hi,
    intervalIntegral.integral_const, intervalIntegral.integral_const_mul, integral_id]
  simp only [smul_eq_mul]
  field_simp
  ring

/-- C56, exactness: for strictly increasing times entry `i` is the integral of the broken line through the samples, from the
first time to time `i`. -/
theorem C56_exact {X t : List ℝ} (h : t.length = X.length) (ht : t.Pairwise (· < ·)) {f : ℝ → ℝ} (hf : BrokenLine X t f) :
    ∃ r, trapzIntegrate X t = .ok r ∧ ∀ (i : ℕ) a t0 s, r[i]? = some a → t[0]? = some t0 → t[i]? = some s →
      a = ∫ τ in t0..s, f τ := by
  refine ⟨_, trapzIntegrate_eq h, ?_⟩
  intro i a t0 s ha h0 hs
  obtain ⟨hi, rfl⟩ := range_map_get ha
  clear ha
  have key : ∀ i s, i < X.length → t[i]? = some s →
      IntervalIntegrable f MeasureTheory.volume t0 s ∧ areas X t i = ∫ τ in t0..s, f τ := by
    intro i
    induction i with
    | zero =>
      intro s _ hs
      rw [h0] at hs
      cases hs
      simp [areas]
    | succ i ih =>
      intro s hi hs
      have h1 : t[i]? = some t[i] := List.getElem?_eq_getElem (by omega)
      obtain ⟨ii, ie⟩ := ih _ (by omega) h1
      have hx : X[i]? = some X[i] := List.getElem?_eq_getElem (by omega)
      have hx' : X[i + 1]? = some X[i + 1] := List.getElem?_eq_getElem (by omega)
      have hlt : t[i] < s := by
        have := List.pairwise_iff_getElem.1 ht i (i + 1) (by omega) (by omega) (by omega)
        rw [List.getElem?_eq_getElem (by omega)] at hs
        cases hs
        exact this
      have hb := hf i _ _ _ _ hx hx' h1 hs
      have hcong : Set.EqOn (fun τ => X[i] + (X[i + 1] - X[i]) * ((τ - t[i]) / (s - t[i]))) f (Set.uIcc t[i] s) := by
        intro τ hτ
        rw [Set.uIcc_of_le hlt.le] at hτ
        exact (hb τ hτ.1 hτ.2).symm
      have hc : Continuous fun τ : ℝ => X[i] + (X[i + 1] - X[i]) * ((τ - t[i]) / (s - t[i])) := by fun_prop
      have hint : IntervalIntegrable f MeasureTheory.volume t[i] s :=
        (hc.intervalIntegrable _ _).congr (hcong.mono Set.uIoc_subset_uIcc)
      refine ⟨ii.trans hint, ?_⟩
      rw [← intervalIntegral.integral_add_adjacent_intervals ii hint, ← ie, ← intervalIntegral.integral_congr hcong,
        integral_line _ _ _ _ hlt, areas, Finset.sum_range_succ, ← areas, getD_of hx, getD_of hx', getD_of h1, getD_of hs]
  exact (key i s hi hs).2

/-- A broken line that meets the hypothesis. -/
example : BrokenLine [0, 1, 2] [0, 1, 2] (fun τ => τ) := by
  intro i x x' s s' h1 h2 h3 h4 τ _ _
  match i with
  | 0 => simp at h1 h2 h3 h4; subst h1 h2 h3 h4; ring
  | 1 => simp at h1 h2 h3 h4; subst h1 h2 h3 h4; ring
  | i + 2 => simp at h2

/-- C56 is false for an array of integers: the running total is cut to integers, here 0 and 0 instead of 0 and 1/2. -/
theorem C56_int_refuted : trapzIntegrateInt [0, 1] [0, 1] = .ok [0, 0] := by
  rw [trapzIntegrateInt]
  simp only [List.map_cons, List.map_nil]
  rw [trapzIntegrate_eq (by rfl)]
  have h1 : trunc (1 / 2) = 0 := by
    rw [trunc, if_pos (by norm_num), Int.floor_eq_iff]
    norm_num
  have h0 : trunc 0 = 0 := by simp [trunc]
  simp [areas, List.range_succ, bind, Except.bind, pure, Except.pure, h0]
  simpa using h1

/-- C56 is false for states with several variables: any array of at least three rows raises. -/
theorem C56_rows_refuted {m : ℕ} (X : List (Fin m → ℝ)) (t : List ℝ) (h : 3 ≤ X.length) :
    ∃ e, trapzIntegrate2 X t = .error e := by
  cases hr : trapzIntegrate2 X t with
  | error e => exact ⟨e, rfl⟩
  | ok r =>
    exfalso
    obtain ⟨_, hg⟩ := mapM_ok hr
    have step : ∀ i, 0 < i → i < X.length → i + 1 = m := by
      intro i h0 hi
      obtain ⟨b, _, hb⟩ := hg i i (List.getElem?_range hi)
      rw [if_neg (by omega)] at hb
      obtain ⟨v, hv, hb⟩ := bind_ok hb
      have hl := (mapM_ok hv).1
      have hl2 : v.length = i + 1 := by rw [hl]; simp; omega
      rw [hl2] at hb
      split at hb
      · assumption
      · split at hb
        · omega
        · cases hb
    have := step 1 (by omega) (by omega)
    have := step 2 (by omega) (by omega)
    omega

/-! ## C82 -/

/-- C82: the total error of a coordinate is not negative, and for at least two strictly increasing times it is zero exactly
when all the errors are zero. -/
theorem C82_total_error {m : ℕ} {t : List ℝ} {err : List (Fin m → ℝ)} (h : t.length = err.length) (h2 : 2 ≤ t.length)
    (ht : t.Pairwise (· < ·)) (j : Fin m) :
    ∃ v, totalStateError t err j = .ok v ∧ 0 ≤ v ∧ (v = 0 ↔ ∀ r ∈ err, r j = 0) := by
  have hl : (err.map fun r => |r j|).length = t.length := by simp [h]
  refine ⟨_, trapz_same hl, ?_⟩
  obtain ⟨y, hy⟩ : ∃ y : List ℝ, y = err.map fun r => |r j| := ⟨_, rfl⟩
  rw [← hy] at hl ⊢
  have hy0 : ∀ m, 0 ≤ y.getD m 0 := by
    intro m
    rw [List.getD_eq_getElem?_getD]
    by_cases hm : m < y.length
    · rw [List.getElem?_eq_getElem hm]
      have h' : ∀ a ∈ y, 0 ≤ a := by
        intro a ha
        rw [hy] at ha
        obtain ⟨r, _, hr⟩ := List.mem_map.1 ha
        rw [← hr]; exact abs_nonneg _
      exact h' _ (List.getElem_mem hm)
    · rw [List.getElem?_eq_none (by omega)]; simp
  have hd : ∀ k, k < t.length - 1 → 0 < t.getD (k + 1) 0 - t.getD k 0 := by
    intro k hk
    rw [List.getD_eq_getElem?_getD, List.getD_eq_getElem?_getD, List.getElem?_eq_getElem (show k < t.length by omega),
        List.getElem?_eq_getElem (show k + 1 < t.length by omega)]
    have := List.pairwise_iff_getElem.1 ht k (k + 1) (by omega) (by omega) (by omega)
    simp only [Option.getD_some]
    linarith
  have hterm : ∀ k ∈ range (t.length - 1), 0 ≤ (t.getD (k + 1) 0 - t.getD k 0) * (y.getD k 0 + y.getD (k + 1) 0) / 2 := by
    intro k hk
    have := hd k (mem_range.1 hk)
    have := hy0 k
    have := hy0 (k + 1)
    positivity
  refine ⟨sum_nonneg hterm, ?_⟩
  rw [areas, sum_eq_zero_iff_of_nonneg hterm]
  have hz : (∀ r ∈ err, r j = 0) ↔ ∀ m < y.length, y.getD m 0 = 0 := by
    constructor
    · intro hr m hm
      rw [List.getD_eq_getElem?_getD, List.getElem?_eq_getElem hm]
      simp only [Option.getD_some]
      have := List.getElem_mem hm
      have h' : ∀ a ∈ y, a = 0 := by
        intro a ha
        rw [hy] at ha
        obtain ⟨r, hr1, hr2⟩ := List.mem_map.1 ha
        rw [← hr2, hr r hr1, abs_zero]
      exact h' _ this
    · intro hm r hr
      have : |r j| ∈ y := by rw [hy]; exact List.mem_map.2 ⟨r, hr, rfl⟩
      obtain ⟨k, hk, e⟩ := List.mem_iff_getElem.1 this
      have := hm k hk
      rw [List.getD_eq_getElem?_getD, List.getElem?_eq_getElem hk] at this
      simp only [Option.getD_some] at this
      rw [e] at this
      exact abs_eq_zero.1 this
  rw [hz]
  constructor
  · intro hk m hm
    have both : ∀ k, k < t.length - 1 → y.getD k 0 = 0 ∧ y.getD (k + 1) 0 = 0 := by
      intro k hkk
      have e := hk k (mem_range.2 hkk)
      have h1 := hd k hkk
      have h3 : y.getD k 0 + y.getD (k + 1) 0 = 0 := by
        rcases mul_eq_zero.1 (show (t.getD (k + 1) 0 - t.getD k 0) * (y.getD k 0 + y.getD (k + 1) 0) = 0 by linarith) with e | e
        · linarith
        · exact e
      have := hy0 k
      have := hy0 (k + 1)
      constructor <;> linarith
    rcases m with _ | m
    · exact (both 0 (by omega)).1
    · exact (both m (by omega)).2
  · intro hm k hk
    have := mem_range.1 hk
    rw [hm k (by omega), hm (k + 1) (by omega)]
    ring

/-- C82, value: the total is the integral of any broken line through the absolute errors. -/
theorem C82_integral {m : ℕ} {t : List ℝ} {err : List (Fin m → ℝ)} (h : t.length = err.length)
    (ht : t.Pairwise (· < ·)) (j : Fin m) {f : ℝ → ℝ} (hf : BrokenLine (err.map fun r => |r j|) t f) (t0 tf : ℝ)
    (h0 : t[0]? = some t0) (h1 : t[t.length - 1]? = some tf) : totalStateError t err j = .ok (∫ τ in t0..tf, f τ) := by
  have hl : (err.map fun r => |r j|).length = t.length := by simp [h]
  obtain ⟨r, hr, he⟩ := C56_exact hl.symm ht hf
  rw [trapzIntegrate_eq hl.symm] at hr
  cases hr
  have hpos := (List.getElem?_eq_some_iff.1 h1).1
  rw [totalStateError, trapz_same hl]
  congr 1
  refine he (t.length - 1) _ t0 tf ?_ h0 h1
  rw [List.getElem?_map, List.getElem?_range (by omega)]
  rfl

/-! ## C55 -/

section
variable {V : Type} [AddCommGroup V] [Module ℝ V]

theorem numDerivative_at {X : List V} {h : ℝ} (hn : 2 ≤ X.length) :
    ∃ r, numDerivative X h = .ok r ∧ r.length = X.length ∧
      (∀ x x', X[0]? = some x → X[1]? = some x' → r[0]? = some ((1 / h) • (x' - x))) ∧
      (∀ (i : ℕ) x x', X[i]? = some x → X[i + 2]? = some x' → r[i + 1]? = some ((1 / (2 * h)) • (x' - x))) ∧
      (∀ (i : ℕ) x x', i + 2 = X.length → X[i]? = some x → X[i + 1]? = some x' → r[i + 1]? = some ((1 / h) • (x - x'))) := by
  refine ⟨_, by rw [numDerivative, if_neg (by omega)], by simp, ?_, ?_, ?_⟩
  · intro x x' h1 h2
    rw [List.getElem?_map, List.getElem?_range (by omega)]
    simp only [Option.map_some]
    rw [if_neg (by omega), if_pos trivial]
    simp [List.getD_eq_getElem?_getD, h1, h2]
  · intro i x x' h1 h2
    have := (List.getElem?_eq_some_iff.1 h2).1
    rw [List.getElem?_map, List.getElem?_range (by omega)]
    simp only [Option.map_some]
    rw [if_neg (by omega), if_neg (by omega)]
    simp [List.getD_eq_getElem?_getD, h1, h2]
  · intro i x x' hi h1 h2
    rw [List.getElem?_map, List.getElem?_range (by omega)]
    simp only [Option.map_some]
    rw [if_pos (by omega)]
    rw [show X.length - 2 = i by omega, show X.length - 1 = i + 1 by omega]
    simp [List.getD_eq_getElem?_getD, h1, h2]

/-- C55, the part that holds: samples `a + (i h) b` of a straight line give the slope `b` at every sample but the last, for
numbers and for rows. Missing for the full claim: the last sample, where the result is `-b` (`C55_last_refuted`). -/
theorem C55_line_partial {X : List V} {h : ℝ} (hh : h ≠ 0) (hn : 2 ≤ X.length) {a b : V}
    (hX : ∀ (i : ℕ) x, X[i]? = some x → x = a + ((i : ℝ) * h) • b) :
    ∃ r, numDerivative X h = .ok r ∧ r.length = X.length ∧ ∀ (i : ℕ) v, i + 1 < X.length → r[i]? = some v → v = b := by
  obtain ⟨r, hr, hl, h0, h1, _⟩ := numDerivative_at (h := h) hn
  refine ⟨r, hr, hl, ?_⟩
  intro i v hi hv
  rcases i with _ | i
  · have g0 : X[0]? = some X[0] := List.getElem?_eq_getElem (by omega)
    have g1 : X[1]? = some X[1] := List.getElem?_eq_getElem (by omega)
    rw [h0 _ _ g0 g1] at hv
    cases hv
    rw [hX _ _ g0, hX _ _ g1]
    have : h * (1 / h) = 1 := by field_simp
    calc (1 / h) • (a + (((1 : ℕ) : ℝ) * h) • b - (a + (((0 : ℕ) : ℝ) * h) • b)) = (h * (1 / h)) • b := by
          push_cast; module
      _ = b := by rw [this, one_smul]
  · have g0 : X[i]? = some X[i] := List.getElem?_eq_getElem (by omega)
    have g1 : X[i + 2]? = some X[i + 2] := List.getElem?_eq_getElem (by omega)
    rw [h1 i _ _ g0 g1] at hv
    cases hv
    rw [hX _ _ g0, hX _ _ g1]
    have : (2 * h) * (1 / (2 * h)) = 1 := by field_simp
    calc (1 / (2 * h)) • (a + (((i + 2 : ℕ) : ℝ) * h) • b - (a + ((i : ℝ) * h) • b)) = ((2 * h) * (1 / (2 * h))) • b := by
          push_cast; module
      _ = b := by rw [this, one_smul]

/-- C55 is false at the last sample: for every straight line the slope found there has the wrong sign. -/
theorem C55_last_refuted {X : List V} {h : ℝ} (hh : h ≠ 0) (hn : 2 ≤ X.length) {a b : V}
    (hX : ∀ (i : ℕ) x, X[i]? = some x → x = a + ((i : ℝ) * h) • b) :
    ∃ r, numDerivative X h = .ok r ∧ r[X.length - 1]? = some (-b) := by
  obtain ⟨r, hr, hl, _, _, h2⟩ := numDerivative_at (h := h) hn
  refine ⟨r, hr, ?_⟩
  obtain ⟨i, hi⟩ : ∃ i, i + 2 = X.length := ⟨X.length - 2, by omega⟩
  have g0 : X[i]? = some X[i] := List.getElem?_eq_getElem (by omega)
  have g1 : X[i + 1]? = some X[i + 1] := List.getElem?_eq_getElem (by omega)
  rw [show X.length - 1 = i + 1 by omega, h2 i _ _ hi g0 g1, hX _ _ g0, hX _ _ g1]
  have : h * (1 / h) = 1 := by field_simp
  congr 1
  calc (1 / h) • (a + ((i : ℝ) * h) • b - (a + (((i + 1 : ℕ) : ℝ) * h) • b)) = -((h * (1 / h)) • b) := by
        push_cast; module
    _ = -b := by rw [this, one_smul]

/-- C55, inner samples: the derivative of a parabola is exact. -/
theorem C55_parabola {X : List V} {h : ℝ} (hh : h ≠ 0) (hn : 2 ≤ X.length) {a b c : V}
    (hX : ∀ (i : ℕ) x, X[i]? = some x → x = a + ((i : ℝ) * h) • b + ((i : ℝ) * h) ^ 2 • c) :
    ∃ r, numDerivative X h = .ok r ∧
      ∀ (i : ℕ) v, 0 < i → i + 1 < X.length → r[i]? = some v → v = b + (2 * ((i : ℝ) * h)) • c := by
  obtain ⟨r, hr, hl, h0, h1, _⟩ := numDerivative_at (h := h) hn
  refine ⟨r, hr, ?_⟩
  intro i v hi0 hi hv
  obtain ⟨i, rfl⟩ : ∃ k, i = k + 1 := ⟨i - 1, by omega⟩
  have g0 : X[i]? = some X[i] := List.getElem?_eq_getElem (by omega)
  have g1 : X[i + 2]? = some X[i + 2] := List.getElem?_eq_getElem (by omega)
  rw [h1 i _ _ g0 g1] at hv
  cases hv
  rw [hX _ _ g0, hX _ _ g1]
  have : (2 * h) * (1 / (2 * h)) = 1 := by field_simp
  calc (1 / (2 * h)) • (a + (((i + 2 : ℕ) : ℝ) * h) • b + (((i + 2 : ℕ) : ℝ) * h) ^ 2 • c
        - (a + ((i : ℝ) * h) • b + ((i : ℝ) * h) ^ 2 • c))
      = ((2 * h) * (1 / (2 * h))) • (b + (2 * (((i + 1 : ℕ) : ℝ) * h)) • c) := by push_cast; module
    _ = b + (2 * (((i + 1 : ℕ) : ℝ) * h)) • c := by rw [this, one_smul]

/-- Fewer than two samples raise. -/
theorem C55_few {X : List V} {h : ℝ} (hn : X.length < 2) : numDerivative X h = .error .index := by
  rw [numDerivative, if_pos hn]

end

example : ∀ (i : ℕ) (x : ℝ), ([1, 3, 5] : List ℝ)[i]? = some x → x = 1 + ((i : ℝ) * 1) • (2 : ℝ) := by
  intro i x hx
  match i with
  | 0 => simp at hx; subst hx; norm_num
  | 1 => simp at hx; subst hx; norm_num
  | 2 => simp at hx; subst hx; norm_num
  | i + 3 => simp at hx

/-- C55 is false for an array of integers: the line `0, 1, 2` with step 2 has slope 1/2 and the result is 0 everywhere. -/
theorem C55_int_refuted : numDerivativeInt [0, 1, 2] 2 = .ok [0, 0, 0] := by
  have h1 : trunc (1 / 2) = 0 := by
    rw [trunc, if_pos (by norm_num), Int.floor_eq_iff]; norm_num
  have h2 : trunc (-(1 / 2)) = 0 := by
    rw [trunc, if_neg (by norm_num), Int.ceil_eq_iff]; norm_num
  have e : numDerivative [((0 : ℤ) : ℝ), ((1 : ℤ) : ℝ), ((2 : ℤ) : ℝ)] 2 = .ok [1 / 2, 1 / 2, -(1 / 2)] := by
    norm_num [numDerivative, List.range_succ]
  simp only [numDerivativeInt, List.map_cons, List.map_nil, e, bind, Except.bind, pure, Except.pure, h1, h2]

end Chords.NumTools.Props
