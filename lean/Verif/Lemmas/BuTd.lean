import Verif.Model.BuTd
import Verif.Lemmas.Gauss
import Verif.Lemmas.Traj
import Verif.Props.Points
import Verif.Props.Bary

/-! # Lemmas for the bottom-up, top-down and node based constraints -/

namespace Chords.BuTd
open Finset Polynomial Chords.Points Chords.Spec Chords.Bary Chords.Gauss Chords.TimeScale Chords.Props

theorem iter_degree {p : ℝ[X]} {M n : ℕ} (h : p.degree < (M + n : ℕ)) : (derivative^[M] p).degree < n := by
  rw [degree_lt_iff_coeff_zero] at h ⊢
  intro m hm
  rw [coeff_iterate_derivative, h (m + M) (by omega), smul_zero]

theorem iter_degree_lt {p : ℝ[X]} {n : ℕ} (M : ℕ) (h : p.degree < n) : (derivative^[M] p).degree < n := by
  rw [degree_lt_iff_coeff_zero] at h ⊢
  intro m hm
  rw [coeff_iterate_derivative, h (m + M) (by omega), smul_zero]

theorem iter_comp (t0 h : ℝ) (p : ℝ[X]) (k : ℕ) :
    derivative^[k] (p.comp (toTau t0 h)) = C ((2 / h) ^ k) * (derivative^[k] p).comp (toTau t0 h) := by
  induction k with
  | zero => simp
  | succ k ih =>
    have hd : derivative (toTau t0 h) = C (2 / h) := by simp [toTau]
    rw [Function.iterate_succ_apply', ih, derivative_C_mul, derivative_comp, hd, Function.iterate_succ_apply', pow_succ,
      C_mul]
    ring

/-- From tau to time as a polynomial. -/
noncomputable def toT (t0 t1 : ℝ) : ℝ[X] := C ((t1 - t0) / 2) * X + C (t0 + (t1 - t0) / 2)

theorem toT_eval (t0 t1 τ : ℝ) : (toT t0 t1).eval τ = tauToT τ t0 t1 := by simp [toT, tauToT]; ring

theorem toTau_toT {t0 t1 : ℝ} (h : t0 ≠ t1) : (toTau t0 (t1 - t0)).comp (toT t0 t1) = X := by
  apply Polynomial.funext
  intro x
  rw [eval_comp, toT_eval, toTau_eval h, eval_X]

theorem toT_toTau {t0 t1 : ℝ} (h : t0 ≠ t1) : (toT t0 t1).comp (toTau t0 (t1 - t0)) = X := by
  have := sub_ne_zero.2 h.symm
  apply Polynomial.funext
  intro x
  rw [eval_comp, toT_eval, eval_X]
  simp [toTau, tauToT]
  field_simp
  ring

theorem comp_toT_degree (t0 t1 : ℝ) {A : ℝ[X]} {n : ℕ} (hA : A.degree < n) : (A.comp (toT t0 t1)).degree < n := by
  rcases eq_or_ne A 0 with rfl | h0
  · simpa using hA
  have h1 : A.natDegree < n := by rw [degree_eq_natDegree h0] at hA; exact_mod_cast hA
  have h2 : (toT t0 t1).natDegree ≤ 1 := by
    unfold toT
    compute_degree
  have h3 : (A.comp (toT t0 t1)).natDegree ≤ A.natDegree * (toT t0 t1).natDegree := natDegree_comp_le
  have h4 : A.natDegree * (toT t0 t1).natDegree ≤ A.natDegree * 1 := Nat.mul_le_mul_left _ h2
  exact lt_of_le_of_lt degree_le_natDegree (by exact_mod_cast (by omega : (A.comp (toT t0 t1)).natDegree < n))

/-- Every polynomial in time is one in tau. -/
theorem eq_comp_toTau {t0 t1 : ℝ} (h : t0 ≠ t1) (Q : ℝ[X]) : Q = (Q.comp (toT t0 t1)).comp (toTau t0 (t1 - t0)) := by
  rw [comp_assoc, toT_toTau h, comp_X]

theorem interp_eval {N : ℕ} {t : ℕ → ℝ} {a : ℕ → ℝ} (x : ℝ) :
    (Lagrange.interpolate (range N) t a).eval x = ∑ c ∈ range N, (Lagrange.basis (range N) t c).eval x * a c := by
  rw [Lagrange.interpolate_apply, eval_finsetSum]
  apply sum_congr rfl
  intro c _
  rw [eval_mul, eval_C, mul_comm]

/-- One row of the integration matrix times the data. -/
theorem row_eq {t0 t1 : ℝ} (ht : t0 ≠ t1) {N P M : ℕ} (hP : P < M) {t : ℕ → ℝ} (τ : ℝ) (x0 a : ℕ → ℝ)
    {row : ℕ → ℝ} (h1 : ∀ c < P, row c = 0) (h2 : ∀ k < M - P, row (P + k)
      = ((1 + τ) * (t1 - t0) / 2) ^ k / (Nat.factorial k : ℝ))
    (h3 : ∀ c < N, row (M + c) = ((t1 - t0) / 2) ^ (M - P) * (antiK (-1) (M - P) (Lagrange.basis (range N) t c)).eval τ) :
    ∑ c ∈ range (M + N), row c * (if c < M then x0 c else a (c - M))
      = (derivative^[P] (traj t0 (t1 - t0) M x0 (Lagrange.interpolate (range N) t a))).eval (tauToT τ t0 t1) := by
  have hh := sub_ne_zero.2 ht.symm
  rw [traj_iter hh hP.le, traj_eval, toTau_eval ht, sum_range_add]
  congr 1
  · obtain ⟨m, rfl⟩ : ∃ m, M = P + m := ⟨M - P, by omega⟩
    rw [Nat.add_sub_cancel_left] at h2 ⊢
    rw [sum_range_add, sum_eq_zero, zero_add]
    · apply sum_congr rfl
      intro k hk
      have hk := mem_range.1 hk
      rw [if_pos (by omega), h2 k hk, add_comm k P]
      have : tauToT τ t0 t1 - t0 = (1 + τ) * (t1 - t0) / 2 := by simp [tauToT]; ring
      rw [this]; ring
    · intro c hc; rw [h1 c (mem_range.1 hc), zero_mul]
  · rw [Lagrange.interpolate_apply, antiK_sum, eval_finsetSum, mul_sum]
    apply sum_congr rfl
    intro c hc
    rw [h3 c (mem_range.1 hc), antiK_C_mul, eval_mul, eval_C, if_neg (by omega), Nat.add_sub_cancel_left]
    ring

/-- How many construction points there are. -/
theorem constr_length {scheme : String} (hs : scheme ∈ buImplemented) {order : ℕ} (ho : 1 ≤ order) {N : ℕ}
    (hN : minPoints scheme ≤ N) :
    ∃ coll constr full s, buCollPoints N scheme order = .ok coll ∧ collPoints N scheme order = .ok coll ∧
      buConstructionPoints N scheme order = .ok constr ∧ buArrPoints N scheme order = .ok full ∧
      full = -1 :: constr ∧ tdConstructionPoints N scheme order = .ok full ∧ collIndices scheme = .ok s ∧
      full.Pairwise (· < ·) ∧ full.getLast? = some 1 ∧ coll.length = N ∧ Distinct N (arr coll) ∧
      pySlice s.1 s.2 full = coll ∧
      (scheme ∈ gaussLike → constr.length = N + 1) ∧ (scheme ∉ gaussLike → constr.length ≤ N) := by
  obtain ⟨hc, himp⟩ := bu_coll_eq hs N order
  obtain ⟨coll, full, s, h1, h2, h3, h4, h5, -, h6, h7, h8⟩ := C32_rows hs ho hN
  obtain ⟨L, k1, k2, k3⟩ := coll_distinct himp ho hN
  rw [← hc, h1] at k1
  cases k1
  have h2' := h2
  unfold buArrPoints at h2'
  cases hcp : buConstructionPoints N scheme order with
  | error e => rw [hcp] at h2'; simp [bind, Except.bind] at h2'
  | ok constr =>
    rw [hcp] at h2'
    simp [bind, Except.bind, pure, Except.pure] at h2'
    refine ⟨coll, constr, full, s, h1, hc ▸ h1, rfl, h2, h2'.symm, h3, h4, h5, h6, h7, k3, h8, ?_⟩
    rw [buImplemented_eq] at hs
    simp only [List.mem_cons, List.not_mem_nil, or_false] at hs
    have hpos : 1 ≤ N := le_trans (minPoints_pos scheme) hN
    rcases hs with rfl | rfl | rfl | rfl | rfl | rfl | rfl | rfl | rfl | rfl | rfl | rfl <;>
      simp [h1, buConstructionPoints, gaussLike, radauLike, radauInv_eq, lobatoLike, bind, Except.bind, pure,
        Except.pure] at hcp <;> subst hcp <;> simp [gaussLike, h7] <;> omega

theorem integrationMatrix_ok {scheme : String} (hs : scheme ∈ buImplemented) {P M : ℕ} (hP : P < M) {N : ℕ}
    (hN : minPoints scheme ≤ N) (h1 : 2 ≤ N ∨ scheme ∉ gaussLike) (h : ℝ) {coll constr : List ℝ}
    (hc : collPoints N scheme M = .ok coll) (hd : Distinct N (arr coll))
    (hcp : buConstructionPoints N scheme M = .ok constr) (hlen : scheme ∉ gaussLike → constr.length ≤ N) :
    ∃ mat, integrationMatrix N scheme P h M = .ok mat ∧ (∀ i, ∀ c < P, mat i c = 0) ∧
      (∀ i, ∀ k < M - P, mat i (P + k) = ((1 + arr constr i) * h / 2) ^ k / (Nat.factorial k : ℝ)) ∧
      ∀ i, ∀ c < N, mat i (M + c)
        = (h / 2) ^ (M - P) * (antiK (-1) (M - P) (Lagrange.basis (range N) (arr coll) c)).eval (arr constr i) := by
  have hpos : 1 ≤ N := le_trans (minPoints_pos scheme) hN
  obtain ⟨g, hg, hgd, hgv⟩ := lagInteg2d_eq hpos hc hd (M - P)
  have hguard : ¬ (g.dim = none ∧ 1 < constr.length ∧ N ≠ constr.length) := by
    rintro ⟨k1, k2, k3⟩
    rw [hgd] at k1
    split_ifs at k1 with k4
    rcases h1 with h1 | h1
    · omega
    · have := hlen h1; omega
  refine ⟨fun i c => if M ≤ c then (h / 2) ^ (M - P) * g.val (arr constr i) (c - M) else
      (if 1 < M - P then
        fun i c => if P + 1 ≤ c ∧ c < M then ((1 + arr constr i) * h / 2) ^ (c - P) / (Nat.factorial (c - P) : ℝ)
          else (if c = P then 1 else 0)
      else fun _ c => if c = P then 1 else 0) i c, ?_, ?_, ?_, ?_⟩
  · unfold integrationMatrix
    rw [if_pos hP]
    simp only [hcp, hg, lift, bind, Except.bind, pure, Except.pure]
    rw [if_neg hguard]
  · intro i c hc
    simp only
    rw [if_neg (by omega)]
    have hcP : c ≠ P := by omega
    split_ifs <;> simp [hcP] <;> omega
  · intro i k hk
    simp only
    rw [if_neg (by omega)]
    rcases Nat.eq_zero_or_pos k with rfl | hk0
    · split_ifs <;> simp
    · rw [if_pos (by omega), if_pos (by omega), Nat.add_sub_cancel_left]
  · intro i c hc
    simp only
    rw [if_pos (by omega), Nat.add_sub_cancel_left, hgv c hc]

/-- The trajectory polynomial is the only one with its data. -/
theorem traj_unique {t0 t1 : ℝ} (ht : t0 ≠ t1) {N M : ℕ} {t : ℕ → ℝ} (hd : Distinct N t) {x0 a : ℕ → ℝ}
    {Q : ℝ[X]} (h1 : Q.degree < (M + N : ℕ)) (h2 : ∀ k < M, (derivative^[k] Q).eval t0 = x0 k)
    (h3 : ∀ c < N, (derivative^[M] Q).eval (tauToT (t c) t0 t1) = a c) :
    Q = traj t0 (t1 - t0) M x0 (Lagrange.interpolate (range N) t a) := by
  have hh := sub_ne_zero.2 ht.symm
  apply eq_of_iter_deriv (M := M) (a := t0)
  · intro k hk
    rw [h2 k hk, traj_iter hh hk.le, traj_start (by omega), zero_add]
  · rw [traj_highest hh]
    have h4 := comp_toT_degree t0 t1 (iter_degree h1)
    rw [interpolate_self hd h4 (fun i hi => by rw [eval_comp, toT_eval, h3 i hi]), ← eq_comp_toTau ht]

theorem traj_spec {t0 t1 : ℝ} (ht : t0 ≠ t1) {N M : ℕ} {t : ℕ → ℝ} (hd : Distinct N t) (x0 a : ℕ → ℝ) :
    (traj t0 (t1 - t0) M x0 (Lagrange.interpolate (range N) t a)).degree < (M + N : ℕ) ∧
    (∀ k < M, (derivative^[k] (traj t0 (t1 - t0) M x0 (Lagrange.interpolate (range N) t a))).eval t0 = x0 k) ∧
    ∀ τ, (derivative^[M] (traj t0 (t1 - t0) M x0 (Lagrange.interpolate (range N) t a))).eval (tauToT τ t0 t1)
      = (Lagrange.interpolate (range N) t a).eval τ := by
  have hh := sub_ne_zero.2 ht.symm
  refine ⟨traj_degree hh M x0 (by simpa using Lagrange.degree_interpolate_lt a hd.injOn), ?_, ?_⟩
  · intro k hk
    rw [traj_iter hh hk.le, traj_start (by omega), zero_add]
  · intro τ
    rw [traj_highest hh, eval_comp, toTau_eval ht]

end Chords.BuTd
