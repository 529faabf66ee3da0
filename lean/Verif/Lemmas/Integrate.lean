import Verif.Model.Integrate
import Mathlib.Tactic.Linarith

/-! # Lemmas about the integration loops -/

namespace Chords.Integ

/-- `xs` has `N + 1` states, starts at `x0` and its consecutive states are related by `R`. -/
def IsRun {X : Type} (N : ℕ) (x0 : X) (R : ℕ → X → X → Prop) (xs : List X) : Prop :=
  xs.length = N + 1 ∧ xs[0]? = some x0 ∧ ∀ i x x', xs[i]? = some x → xs[i + 1]? = some x' → R i x x'

theorem IsRun.mono {X : Type} {N : ℕ} {x0 : X} {R S : ℕ → X → X → Prop} {xs : List X} (h : IsRun N x0 R xs)
    (hRS : ∀ i x x', R i x x' → S i x x') : IsRun N x0 S xs :=
  ⟨h.1, h.2.1, fun i x x' a b => hRS i x x' (h.2.2 i x x' a b)⟩

theorem loop_total {X : Type} (step : ℕ → X → Except IErr X) (R : ℕ → X → X → Prop) :
    ∀ (N ii : ℕ) (_ : ∀ k, ii ≤ k → k < ii + N → ∀ x, ∃ x', step k x = .ok x' ∧ R k x x') (cur : X),
      ∃ xs, loop step ii N cur = .ok xs ∧ xs.length = N ∧
        ∀ k x x', (cur :: xs)[k]? = some x → (cur :: xs)[k + 1]? = some x' → R (ii + k) x x'
  | 0, ii, _, cur => ⟨[], rfl, rfl, by simp⟩
  | N + 1, ii, h, cur => by
    obtain ⟨y, hy, hR⟩ := h ii le_rfl (by omega) cur
    obtain ⟨xs, hl, hlen, hx⟩ := loop_total step R N (ii + 1) (fun k h1 h2 => h k (by omega) (by omega)) y
    refine ⟨y :: xs, ?_, by simp [hlen], ?_⟩
    · simp only [loop, hy, hl, bind, Except.bind, pure, Except.pure]
    · intro k x x' h1 h2
      cases k with
      | zero =>
        simp at h1 h2
        subst h1; subst h2
        simpa using hR
      | succ k =>
        have := hx k x x' (by simpa using h1) (by simpa using h2)
        rwa [show ii + (k + 1) = ii + 1 + k by omega]

theorem getAt_map {U : Type} (e : U → Ctrl) (us : List U) (i : ℕ) (u : U) (h : us[i]? = some u) :
    getAt (us.map e) i = .ok (e u) := by
  simp [getAt, h]

theorem euler_total {X U : Type} (u : UArr) (us : List U) (e : U → Ctrl) (hent : u.entries = us.map e)
    (hlen : u.vecLen = us.length) (step : X → Ctrl → Except IErr X) (R : X → X → U → Prop)
    (hs : ∀ u x, ∃ x', step x (e u) = .ok x' ∧ R x x' u) (x0 : X) :
    ∃ xs, (do
      let xs ← loop (fun ii cur => do
        let c ← getAt u.entries ii
        step cur c) 0 u.vecLen x0
      return x0 :: xs : Except IErr (List X)) = .ok xs ∧
      IsRun us.length x0 (fun i x x' => ∃ u, us[i]? = some u ∧ R x x' u) xs := by
  obtain ⟨xs, hl, hn, hx⟩ := loop_total (fun ii cur => do
        let c ← getAt u.entries ii
        step cur c) (fun i x x' => ∃ u, us[i]? = some u ∧ R x x' u) u.vecLen 0 (by
    intro k _ hk x
    have hk' : k < us.length := by omega
    obtain ⟨x', h1, h2⟩ := hs us[k] x
    refine ⟨x', ?_, us[k], by simp, h2⟩
    simp only [hent, getAt_map e us k us[k] (by simp), bind, Except.bind, h1]) x0
  refine ⟨x0 :: xs, ?_, by simp [hn, hlen], by simp, ?_⟩
  · rw [hl]; rfl
  · intro i x x' h1 h2
    simpa using hx i x x' h1 h2

theorem twoPoint_total {X U : Type} (u : UArr) (us : List U) (e : U → Ctrl) (hent : u.entries = us.map e)
    (hlen : u.vecLen = us.length) (hne : us ≠ []) (step : ℕ → X → Ctrl → Ctrl → Except IErr X)
    (final : X → Ctrl → Except IErr X) (R : ℕ → X → X → U → U → Prop)
    (hs : ∀ i u un, us[i]? = some u → us[i + 1]? = some un →
      ∀ x, ∃ x', step i x (e u) (e un) = .ok x' ∧ R i x x' u un)
    (hf : ∀ u, us[us.length - 1]? = some u → ∀ x, ∃ x', final x (e u) = .ok x' ∧ R (us.length - 1) x x' u u) (x0 : X) :
    ∃ xs, twoPoint u step final x0 = .ok xs ∧
      IsRun us.length x0 (fun i x x' => ∃ u, us[i]? = some u ∧ R i x x' u (us[i + 1]?.getD u)) xs := by
  have hpos : 0 < us.length := List.length_pos_iff.2 hne
  obtain ⟨xs, hl, hn, hx⟩ := loop_total (fun ii cur => do
        let c ← getAt u.entries ii
        let c' ← getAt u.entries (ii + 1)
        step ii cur c c') (fun i x x' => ∃ u, us[i]? = some u ∧ R i x x' u (us[i + 1]?.getD u)) (u.vecLen - 1) 0 (by
    intro k _ hk x
    have hk1 : k < us.length := by omega
    have hk2 : k + 1 < us.length := by omega
    obtain ⟨x', h1, h2⟩ := hs k us[k] us[k + 1] (by simp) (by simp) x
    refine ⟨x', ?_, us[k], by simp, by rw [List.getElem?_eq_getElem hk2]; exact h2⟩
    simp only [hent, getAt_map e us k us[k] (by simp), getAt_map e us (k + 1) us[k + 1] (by simp), bind, Except.bind, h1])
    x0
  obtain ⟨w, hw⟩ : ∃ w, us[us.length - 1]? = some w := ⟨_, List.getElem?_eq_getElem (by omega)⟩
  have hlast : getLast u.entries = .ok (e w) := by
    have : (us.map e).getLast? = some (e w) := by
      rw [List.getLast?_eq_getElem?, List.length_map, List.getElem?_map, hw]; rfl
    simp only [getLast, hent, this]
  obtain ⟨y, hy, hR⟩ := hf w hw ((x0 :: xs).getLast (by simp))
  refine ⟨x0 :: xs ++ [y], ?_, ?_, by simp, ?_⟩
  · unfold twoPoint
    rw [hl]
    simp only [hlast, hy, bind, Except.bind, pure, Except.pure]
  · simp [hn, hlen]; omega
  · intro i x x' h1 h2
    by_cases hi : i + 1 < (x0 :: xs).length
    · rw [List.getElem?_append_left (by omega)] at h1
      rw [List.getElem?_append_left hi] at h2
      simpa using hx i x x' h1 h2
    · have hlen2 : (x0 :: xs).length = us.length := by simp [hn, hlen]; omega
      have hi2 : i + 1 < (x0 :: xs ++ [y]).length := by
        by_contra hc
        rw [List.getElem?_eq_none (by omega)] at h2
        cases h2
      have hi3 : i + 1 = us.length := by simp [hlen] at hi2 hlen2 hi; omega
      have hi4 : i = us.length - 1 := by omega
      rw [List.getElem?_append_left (by omega)] at h1
      rw [List.getElem?_append_right (by omega), hlen2, hi3] at h2
      simp at h2
      subst h2
      have hxl : (x0 :: xs).getLast (by simp) = x := by
        rw [List.getLast_eq_getElem]
        have : (x0 :: xs)[(x0 :: xs).length - 1]? = some x := by rw [hlen2, ← hi4]; exact h1
        rw [List.getElem?_eq_getElem (by simp)] at this
        exact Option.some.inj this
      rw [hxl] at hR
      refine ⟨w, by rw [hi4]; exact hw, ?_⟩
      rw [show i + 1 = us.length from hi3, List.getElem?_eq_none le_rfl, hi4]
      exact hR

theorem coherent_tape {X A : Type} (func : X → UArr → Except IErr A) (n : ℕ) (x0 : X) (l : List ℝ) (F : DynF X)
    (h : n = 2 ∨ F x0 (.row l.length l.get) = .error .typeError) (x : X0Arr X) (hx : x = .flat x0 ∨ x = .line x0) :
    coherent func n x (.vec l) F = func x0 (.vec l) := by
  rcases hx with rfl | rfl <;> rcases h with rfl | h <;> simp [coherent, *]

theorem coherent_table {X A : Type} (func : X → UArr → Except IErr A) (n m : ℕ) (x0 : X) (l : List (Fin m → ℝ))
    (F : DynF X) (x : X0Arr X) (hx : x = .flat x0 ∨ x = .line x0) :
    coherent func n x (.mat m l) F = func x0 (.mat m l) := by
  rcases hx with rfl | rfl <;> simp [coherent]

theorem vecLen_vec (l : List ℝ) : (UArr.vec l).vecLen = l.length := by
  simp only [UArr.vecLen]
  split_ifs with h
  · exact h.symm
  · rfl

theorem vecLen_mat (m : ℕ) (l : List (Fin m → ℝ)) (h : l.length ≠ 1 ∨ m = 1) : (UArr.mat m l).vecLen = l.length := by
  simp only [UArr.vecLen]
  split_ifs with h1 h2
  · rcases h with h | rfl
    · exact absurd (Nat.eq_one_of_mul_eq_one_right h1) h
    · omega
  · rcases h with h | rfl
    · exact absurd h2 h
    · exact h2.symm
  · rfl

theorem comb_num (a b u v : ℝ) : Ctrl.comb a b (.num u) (.num v) = .num (a • u + b • v) := rfl

theorem comb_row (m : ℕ) (a b : ℝ) (u v : Fin m → ℝ) : Ctrl.comb a b (.row m u) (.row m v) = .row m (a • u + b • v) := by
  simp only [Ctrl.comb, dif_pos]
  rfl

theorem mids_get {U : Type} [AddCommGroup U] [Module ℝ U] (e : U → Ctrl)
    (hc : ∀ (a b : ℝ) u v, Ctrl.comb a b (e u) (e v) = e (a • u + b • v)) (us : List U) (i : ℕ) (u un : U)
    (h1 : us[i]? = some u) (h2 : us[i + 1]? = some un) :
    getAt (mids (us.map e)) i = .ok (e ((1 / 2 : ℝ) • (u + un))) := by
  have hi : i + 1 < us.length := (List.getElem?_eq_some_iff.1 h2).1
  have e1 : (us.map e).dropLast[i]? = some (e u) := by
    rw [List.getElem?_dropLast]; simp [h1]; omega
  have e2 : (us.map e).tail[i]? = some (e un) := by simp [h2]
  have : (mids (us.map e))[i]? = some (e ((1 / 2 : ℝ) • (u + un))) := by
    simp only [mids, List.getElem?_zipWith, e1, e2, hc, smul_add]
  simp [getAt, this]

end Chords.Integ
