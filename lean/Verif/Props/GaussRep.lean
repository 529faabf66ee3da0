import Verif.Model.GaussRep
import Verif.Props.Gauss

/-! # Repeated integrals of functions with several components: C181 -/

namespace Chords.Props
open Finset Polynomial Chords.Points Chords.Spec Chords.Bary Chords.Gauss Chords.GaussRep

/-- With one Gauss point, and with as many components as points and no factor, the entries are the integrals of the components one by one. -/
theorem rep2d_one (p : ℕ → ℝ[X]) (m : ℕ) (t0 t1 : ℝ) {n_pol n : ℕ} (hg : ceilHalf (n_pol + n - 1 + 1) = 1 ∨ (ceilHalf (n_pol + n - 1 + 1) = m ∧ n = 1)) :
    gaussRepIntegral2d (fun t c => (p c).eval t) m t0 t1 n_pol n =
      .ok ((List.range m).map fun c => gaussRepIntegral (fun t => (p c).eval t) t0 t1 n_pol n) := by
  unfold gaussRepIntegral2d gaussRepIntegral gaussIntegral
  dsimp only
  obtain ⟨g, hgg⟩ : ∃ g, g = ceilHalf (n_pol + n - 1 + 1) := ⟨_, rfl⟩
  rw [← hgg] at hg ⊢
  have e : ∃ M : Mat, mulRow g (fun j => (t1 - gaussPoint g t0 t1 j) ^ (n - 1)) (evalRows (fun t c => (p c).eval t) m g (gaussPoint g t0 t1)) = .ok M ∧
      M.cols = m ∧ M.rows = g ∧ ∀ i < g, ∀ k < m, M.val i k = (t1 - gaussPoint g t0 t1 i) ^ (n - 1) * (p k).eval (gaussPoint g t0 t1 i) := by
    unfold mulRow evalRows
    rcases hg with rfl | ⟨rfl, rfl⟩
    · by_cases h : 1 = m
      · subst h
        rw [if_pos rfl]
        refine ⟨_, rfl, rfl, rfl, fun i hi k hk => ?_⟩
        rw [show i = 0 by omega, show k = 0 by omega]
      · rw [if_neg h, if_pos rfl]
        refine ⟨_, rfl, rfl, rfl, fun i hi k hk => ?_⟩
        rw [show i = 0 by omega]
    · rw [if_pos rfl]
      refine ⟨_, rfl, rfl, rfl, fun i hi k hk => by simp⟩
  obtain ⟨M, e1, e2, e3, e4⟩ := e
  rw [e1]
  show Except.ok _ = Except.ok _
  rw [e2]
  congr 1
  refine List.map_congr_left fun k hk => ?_
  rw [e3]
  have hs : ∑ i ∈ range g, arr (leggaussWeights g) i * M.val i k =
      ∑ i ∈ range g, arr (leggaussWeights g) i * ((t1 - gaussPoint g t0 t1 i) ^ (n - 1) * (p k).eval (gaussPoint g t0 t1 i)) :=
    Finset.sum_congr rfl fun i hi => ?_
  · rw [hs]
  rw [e4 i (Finset.mem_range.1 hi) k (List.mem_range.1 hk)]

/-- C181: `gauss_rep_integral` with `f2d` gives the repeated integrals of all the components when one Gauss point is enough, that is `n_pol + n_integ ≤ 2`, or when the
integral is not repeated and there are as many components as Gauss points. Missing: the other cases, see `C181_error` and `C181_refuted`. -/
theorem C181_partial {m n_pol n : ℕ} (hn : 1 ≤ n) (hg : n_pol + n ≤ 2 ∨ (n = 1 ∧ m = (n_pol + 2) / 2)) {p : ℕ → ℝ[X]} (hp : ∀ c < m, (p c).natDegree ≤ n_pol) (t0 t1 : ℝ) :
    gaussRepIntegral2d (fun t c => (p c).eval t) m t0 t1 n_pol n = .ok ((List.range m).map fun c => iterInt t0 n (fun t => (p c).eval t) t1) := by
  rw [rep2d_one p m t0 t1 (by
    unfold ceilHalf
    rcases hg with h | ⟨rfl, rfl⟩
    · left; omega
    · right; constructor <;> omega)]
  congr 1
  refine List.map_congr_left fun c hc => ?_
  exact C26_repeated hn (hp c (List.mem_range.1 hc)) t0 t1

/-- The hypotheses hold of two straight lines. -/
example : (1 + 1 ≤ 2 ∨ (1 = 1 ∧ 2 = (1 + 2) / 2)) ∧ ∀ c < 2, ((fun c : ℕ => (C 3 * X + C (c : ℝ) : ℝ[X])) c).natDegree ≤ 1 :=
  ⟨by norm_num, fun c _ => natDegree_linear_le⟩

/-- C181 fails: with other numbers of components the call raises. -/
theorem C181_error {m n_pol n : ℕ} (hm : 2 ≤ m) (h1 : 3 ≤ n_pol + n) (h2 : m ≠ (n_pol + n + 1) / 2) (f : ℝ → ℕ → ℝ) (t0 t1 : ℝ) :
    gaussRepIntegral2d f m t0 t1 n_pol n = .error .valueError := by
  unfold gaussRepIntegral2d mulRow evalRows
  dsimp only
  have h3 : ceilHalf (n_pol + n - 1 + 1) = (n_pol + n + 1) / 2 := by unfold ceilHalf; omega
  rw [if_neg (by omega), if_neg (by omega), if_neg (by omega)]
  rfl

/-- The hypotheses hold of the double integral of two cubics and of the integral of three parabolas. -/
example : (2 ≤ 2 ∧ 3 ≤ 3 + 2 ∧ 2 ≠ (3 + 2 + 1) / 2) ∧ (2 ≤ 3 ∧ 3 ≤ 2 + 1 ∧ 3 ≠ (2 + 1 + 1) / 2) := by omega

/-- C181 fails for one component: there is one number for each Gauss point. -/
theorem C181_column_refuted {n_pol n : ℕ} (h1 : 3 ≤ n_pol + n) (f : ℝ → ℕ → ℝ) (t0 t1 : ℝ) :
    ∃ l, gaussRepIntegral2d f 1 t0 t1 n_pol n = .ok l ∧ l.length = (n_pol + n + 1) / 2 ∧ l.length ≠ 1 := by
  have h3 : ceilHalf (n_pol + n - 1 + 1) = (n_pol + n + 1) / 2 := by unfold ceilHalf; omega
  unfold gaussRepIntegral2d mulRow evalRows
  dsimp only
  rw [if_neg (by omega), if_neg (by omega), if_pos rfl]
  refine ⟨_, rfl, by simp [h3], ?_⟩
  simp only [List.length_map, List.length_range]
  omega

/-- C181 fails where the sizes match: repeated integrals are wrong, even those of constants. -/
theorem C181_refuted {m n_pol n : ℕ} (hm : 2 ≤ m) (hn : 2 ≤ n) (h2 : m = (n_pol + n + 1) / 2) {t0 t1 : ℝ} (ht : t0 < t1) :
    ∃ l, gaussRepIntegral2d (fun _ _ => 1) m t0 t1 n_pol n = .ok l ∧ l.length = m ∧ l ≠ (List.range m).map fun _ => iterInt t0 n (fun _ => 1) t1 := by
  have h3 : ceilHalf (n_pol + n - 1 + 1) = m := by unfold ceilHalf; omega
  have hw : (t1 - t0) * (∑ i ∈ range m, arr (leggaussWeights m) i) / 2 = t1 - t0 := by
    have := C26_integral (N := m) (by omega) (p := (1 : ℝ[X])) (by simp) t0 t1
    simpa [gaussIntegral] using this
  unfold gaussRepIntegral2d mulRow evalRows
  dsimp only
  rw [h3, if_pos rfl]
  refine ⟨_, rfl, by simp, fun h => ?_⟩
  have hk : ∀ k < m, 1 / (Nat.factorial (n - 1) : ℝ) * ((t1 - gaussPoint m t0 t1 k) ^ (n - 1) * (t1 - t0)) = iterInt t0 n (fun _ => 1) t1 := by
    intro k hk
    have := List.map_inj_left.1 h k (List.mem_range.2 hk)
    rw [← this]
    congr 1
    simp only [mul_one]
    rw [← Finset.sum_mul]
    conv_lhs => rw [← hw]
    ring
  have hf : (Nat.factorial (n - 1) : ℝ) ≠ 0 := by exact_mod_cast Nat.factorial_ne_zero _
  have hh : t1 - t0 ≠ 0 := sub_ne_zero.2 ht.ne'
  have h01 : (t1 - gaussPoint m t0 t1 0) ^ (n - 1) = (t1 - gaussPoint m t0 t1 1) ^ (n - 1) := by
    have := (hk 0 (by omega)).trans (hk 1 (by omega)).symm
    field_simp at this
    exact this
  have hpos : ∀ i < m, 0 ≤ t1 - gaussPoint m t0 t1 i := by
    intro i hi
    have := ((gauss_nodes m).2.2.1 i hi).2
    unfold gaussPoint
    dsimp only
    nlinarith
  have := (pow_left_inj₀ (hpos 0 (by omega)) (hpos 1 (by omega)) (by omega : n - 1 ≠ 0)).1 h01
  exact absurd (gaussPoint_inj ht.ne (by omega : 0 < m) (by omega : 1 < m) (by linarith)) (by norm_num)

/-- The hypotheses hold of the double integral of two functions. -/
example : 2 ≤ 2 ∧ 2 ≤ 2 ∧ 2 = (1 + 2 + 1) / 2 ∧ (0 : ℝ) < 1 := by norm_num

end Chords.Props
