import Verif.Props.Degrees
import Verif.Props.BuTd

/-! # C170: the end of the motion of a bottom-up or top-down problem -/

namespace Chords.Props
open Finset Polynomial Chords.Points Chords.Spec Chords.Bary Chords.Gauss Chords.TimeScale Chords.BuTd

/-- Taylor's formula with the remainder as an integral, for a motion that starts at rest. -/
theorem taylor_end (k : ℕ) (F : ℝ[X]) (h : ∀ j ≤ k, (derivative^[j] F).eval (-1) = 0) :
    integ (-1) 1 ((1 - X) ^ k * derivative^[k + 1] F) = (Nat.factorial k : ℝ) * F.eval 1 := by
  induction k with
  | zero =>
    have := integ_derivative (-1) 1 F
    have h0 := h 0 le_rfl
    simp only [Function.iterate_zero, id] at h0
    simpa [h0] using this
  | succ k ih =>
    have ih' := ih fun j hj => h j (by omega)
    have hd := integ_derivative (-1) 1 ((1 - X) ^ (k + 1) * derivative^[k + 1] F)
    have e : derivative ((1 - X : ℝ[X]) ^ (k + 1) * derivative^[k + 1] F)
        = C (-((k : ℝ) + 1)) * ((1 - X) ^ k * derivative^[k + 1] F) + (1 - X) ^ (k + 1) * derivative^[k + 1 + 1] F := by
      rw [derivative_mul, derivative_pow, ← Function.iterate_succ_apply' derivative]
      simp
      ring
    rw [e, integ_add, integ_C_mul, ih', eval_mul, eval_mul, h (k + 1) le_rfl] at hd
    simp only [eval_pow, eval_sub, eval_one, eval_X, sub_self, ne_eq, Nat.add_eq_zero_iff, one_ne_zero, and_false,
      not_false_eq_true, zero_pow, zero_mul, mul_zero] at hd
    rw [Nat.factorial_succ]
    push_cast
    linarith

/-- The error at the end vanishes. -/
theorem end_zero {L : List ℝ} {N g e M P : ℕ} (hL : L.length = N) (hd : Distinct N (arr L)) (hO : Orth (jw e 0) L N g) (hP : P < M)
    (he : e + P < M) {E : ℝ[X]} (h0 : ∀ k < M, (derivative^[k] E).eval (-1) = 0)
    (hz : ∀ i < N, (derivative^[M] E).eval (arr L i) = 0)
    (hdeg : (derivative^[M] E).degree < (N + (N - g - (M - 1 - P - e)) : ℕ)) : (derivative^[P] E).eval 1 = 0 := by
  obtain ⟨ω, g1, g2, g3, g4⟩ := hO
  obtain ⟨r, hr⟩ : ∃ r, r = M - 1 - P - e := ⟨_, rfl⟩
  rw [← hr] at hdeg
  have hq := quad_extend (k := N - g - r) (t := arr L)
    (c := fun i => integ (-1) 1 ((1 - X) ^ (M - 1 - P) * Lagrange.basis (range N) (arr L) i)) (w := (1 - X) ^ (M - 1 - P))
    g1 g2 (fun i hi => g3 _ ?_) (fun q hq => ?_) (fun p hp => ?_) hdeg
  · have hs : ∑ i ∈ range N, integ (-1) 1 ((1 - X) ^ (M - 1 - P) * Lagrange.basis (range N) (arr L) i)
        * (derivative^[M] E).eval (arr L i) = 0 := sum_eq_zero fun i hi => by rw [hz i (mem_range.1 hi), mul_zero]
    rw [hs] at hq
    have ht := taylor_end (M - 1 - P) (derivative^[P] E) (fun j hj => by
      rw [← Function.iterate_add_apply]
      exact h0 _ (by omega))
    rw [← Function.iterate_add_apply, show M - 1 - P + 1 + P = M by omega, ← hq] at ht
    have hf : (Nat.factorial (M - 1 - P) : ℝ) ≠ 0 := by exact_mod_cast Nat.factorial_ne_zero _
    exact (mul_eq_zero.1 ht.symm).resolve_left hf
  · rw [arr, List.getD_eq_getElem?_getD, List.getElem?_eq_getElem (by omega), Option.getD_some]
    exact List.getElem_mem _
  · have e1 : (1 - X : ℝ[X]) ^ (M - 1 - P) * (ω * q) = jw e 0 * (ω * ((1 - X) ^ r * q)) := by
      unfold jw
      rw [show M - 1 - P = e + r by omega, pow_add]
      ring
    rw [e1]
    apply g4
    rcases eq_or_ne q 0 with rfl | hq0
    · rw [mul_zero, degree_zero]; exact WithBot.bot_lt_coe _
    · rw [degree_eq_natDegree hq0] at hq
      have hq' : q.natDegree < N - g - r := by exact_mod_cast hq
      have hm : ((1 - X : ℝ[X]) ^ r * q).natDegree ≤ r + q.natDegree := by
        refine natDegree_mul_le.trans (Nat.add_le_add_right ?_ _)
        refine natDegree_pow_le.trans ?_
        rw [one_sub_X_deg, mul_one]
      exact lt_of_le_of_lt degree_le_natDegree (by exact_mod_cast (by omega : ((1 - X : ℝ[X]) ^ r * q).natDegree < N - g))
  · have e := interpolate_self hd hp (fun i _ => rfl)
    conv_rhs => rw [← e, Lagrange.interpolate_apply, mul_sum, integ_sum]
    apply sum_congr rfl
    intro i hi
    rw [mul_comm, ← integ_C_mul]
    congr 1
    ring

theorem iterate_comp_toT (t0 t1 : ℝ) (k : ℕ) (p : ℝ[X]) : derivative^[k] (p.comp (toT t0 t1))
    = C (((t1 - t0) / 2) ^ k) * (derivative^[k] p).comp (toT t0 t1) := by
  have e : derivative (toT t0 t1) = C ((t1 - t0) / 2) := by simp [toT]
  induction k generalizing p with
  | zero => simp
  | succ k ih =>
    rw [Function.iterate_succ_apply, derivative_comp, e, iterate_derivative_C_mul, ih, Function.iterate_succ_apply,
      ← mul_assoc, ← C_mul, pow_succ']

theorem iterate_degree_lt {p : ℝ[X]} {M n : ℕ} (hp : p.degree < (M + n : ℕ)) : (derivative^[M] p).degree < n := by
  rcases eq_or_ne (derivative^[M] p) 0 with h0 | h0
  · rw [h0, degree_zero]; exact WithBot.bot_lt_coe _
  · have hp0 : p ≠ 0 := by rintro rfl; simp at h0
    rw [degree_eq_natDegree hp0] at hp
    have h1 : p.natDegree < M + n := by exact_mod_cast hp
    have h2 := natDegree_iterate_derivative p M
    by_cases hM : p.natDegree < M
    · exact absurd (iterate_derivative_eq_zero hM) h0
    · exact lt_of_le_of_lt degree_le_natDegree (by exact_mod_cast (by omega : (derivative^[M] p).natDegree < n))

/-- The power of `1 - τ` in the weight of the points. -/
def jacExp (scheme : String) (order : ℕ) : ℕ := if scheme ∈ jacobiSchemes then order - 1 else 0

/-- How far beyond the number of points the end is exact. -/
def gain (scheme : String) (order N P : ℕ) : ℕ := N - lost scheme - (order - 1 - P - jacExp scheme order)

/-- Samples of polynomials whose highest derivatives at the collocation points are those of a motion of higher degree. -/
theorem end_trajectory {scheme : String} (hs : scheme ∈ buImplemented) (hl : scheme ∈ legendreSchemes ++ jacobiSchemes) {order : ℕ}
    (ho : 1 ≤ order) {N : ℕ} (hN : minPoints scheme ≤ N) (n_q : ℕ) {t0 t1 : ℝ} (ht : t0 ≠ t1) {coll full : List ℝ}
    (hc : buCollPoints N scheme order = .ok coll) (hf : buArrPoints N scheme order = .ok full) {v : Vars}
    (hv : IsTrajectory v order n_q (order + N) full t0 t1) {P : ℕ} (hP : jacExp scheme order + P < order) {Q : ℕ → ℝ[X]}
    (hQ : ∀ j < n_q, (Q j).degree < (order + (N + gain scheme order N P) : ℕ))
    (h0 : ∀ j < n_q, ∀ k < order, v.lev order n_q k 0 j = (derivative^[k] (Q j)).eval t0)
    (hA : ∀ j < n_q, ∀ m < N, ∀ i < full.length, arr full i = arr coll m →
      v.lev order n_q order i j = (derivative^[order] (Q j)).eval (tauToT (arr coll m) t0 t1)) :
    ∀ j < n_q, v.lev order n_q P (full.length - 1) j = (derivative^[P] (Q j)).eval t1 := by
  obtain ⟨coll', constr, full', s, k1, k2, k3, k4, hfull, k5, k6, hsort, hlast, hlen, hd, hsl, -, -⟩ := constr_length hs ho hN
  rw [hc] at k1
  obtain rfl := Except.ok.inj k1
  rw [hf] at k4
  obtain rfl := Except.ok.inj k4
  obtain ⟨L, c1, c2, c3, c4⟩ := coll_orth hl ho hN
  rw [k2] at c1
  obtain rfl := Except.ok.inj c1
  obtain ⟨R, hR⟩ := hv
  intro j hj
  obtain ⟨r1, r2⟩ := hR j hj
  have hf0 : arr full 0 = -1 := by rw [hfull]; rfl
  have hfl : 0 < full.length := by rw [hfull]; simp
  have hf1 : arr full (full.length - 1) = 1 := by
    rw [arr, List.getD_eq_getElem?_getD, ← List.getLast?_eq_getElem?, hlast]
    rfl
  have hT0 : tauToT (-1) t0 t1 = t0 := tauToT_start t0 t1
  have hT1 : tauToT 1 t0 t1 = t1 := by unfold tauToT; ring
  have hcs : ((t1 - t0) / 2) ≠ 0 := div_ne_zero (sub_ne_zero.2 ht.symm) two_ne_zero
  have hE : ∀ k τ, (derivative^[k] ((Q j - R j).comp (toT t0 t1))).eval τ = ((t1 - t0) / 2) ^ k *
      ((derivative^[k] (Q j)).eval (tauToT τ t0 t1) - (derivative^[k] (R j)).eval (tauToT τ t0 t1)) := by
    intro k τ
    rw [iterate_comp_toT, eval_mul, eval_C, eval_comp, toT_eval, iterate_derivative_sub, eval_sub]
  have key := end_zero (P := P) hlen hd (e := jacExp scheme order) (g := lost scheme) (M := order) c4 (by omega) hP
    (E := (Q j - R j).comp (toT t0 t1)) (fun k hk => ?_) (fun i hi => ?_) ?_
  · rw [hE, hT1] at key
    have := (mul_eq_zero.1 key).resolve_left (pow_ne_zero _ hcs)
    rw [r2 P (by omega) (full.length - 1) (by omega), hf1, hT1]
    linarith
  · rw [hE, hT0, ← h0 j hj k hk, r2 k hk.le 0 hfl, hf0, hT0, sub_self, mul_zero]
  · obtain ⟨q1, q2⟩ := rows_spec hsl (m := i) (by omega)
    rw [hE, ← hA j hj i hi _ q1 q2, r2 order le_rfl _ q1, q2, sub_self, mul_zero]
  · rw [iterate_comp_toT]
    have hdeg : (derivative^[order] (Q j - R j)).degree < (N + gain scheme order N P : ℕ) := by
      apply iterate_degree_lt
      refine lt_of_le_of_lt (degree_sub_le _ _) (max_lt (hQ j hj) (lt_of_lt_of_le r1 ?_))
      exact_mod_cast (by omega : order + N ≤ order + (N + gain scheme order N P))
    have := comp_toT_degree t0 t1 hdeg
    rw [degree_C_mul (pow_ne_zero _ hcs)]
    exact this

/-- C170 for bottom-up problems: at every feasible point whose accelerations at the collocation points are those of a
polynomial motion with the same initial conditions, the last row has the exact end of that motion, although its degree may
be beyond those that the scheme can represent: with Jacobi points for the coordinates, and with Legendre points for all the
derivatives below the order, one degree less for each level. -/
theorem C170_bu {scheme : String} (hs : scheme ∈ buImplemented) (hl : scheme ∈ legendreSchemes ++ jacobiSchemes) {order : ℕ}
    (ho : 1 ≤ order) {N : ℕ} (hN : minPoints scheme ≤ N) (h1 : 2 ≤ N ∨ scheme ∉ gaussLike) (F : Dyn) (n_q : ℕ) {t0 t1 : ℝ}
    (ht : t0 ≠ t1) : ∃ coll full C, buCollPoints N scheme order = .ok coll ∧ buArrPoints N scheme order = .ok full ∧
      buConstraints F scheme N order n_q t0 t1 = .ok C ∧ ∀ v, C v → ∀ P, jacExp scheme order + P < order → ∀ Q : ℕ → ℝ[X],
        (∀ j < n_q, (Q j).degree < (order + (N + gain scheme order N P) : ℕ)) →
        (∀ j < n_q, ∀ k < order, v.lev order n_q k 0 j = (derivative^[k] (Q j)).eval t0) →
        (∀ j < n_q, ∀ m < N, ∀ i < full.length, arr full i = arr coll m →
          v.lev order n_q order i j = (derivative^[order] (Q j)).eval (tauToT (arr coll m) t0 t1)) →
        ∀ j < n_q, v.lev order n_q P (full.length - 1) j = (derivative^[P] (Q j)).eval t1 := by
  obtain ⟨coll, full, C, h2, h3, h4, h5⟩ := C30_feasible hs ho hN h1 F n_q ht
  exact ⟨coll, full, C, h2, h3, h4, fun v hv P hP Q hQ q0 qA =>
    end_trajectory hs hl ho hN n_q ht h2 h3 ((h5 v).1 hv).1 hP hQ q0 qA⟩

/-- C170 for top-down problems. -/
theorem C170_td {scheme : String} (hs : scheme ∈ buImplemented) (hl : scheme ∈ legendreSchemes ++ jacobiSchemes) {order : ℕ}
    (ho : 1 ≤ order) {N : ℕ} (hN : minPoints scheme ≤ N) (F : Dyn) (n_q : ℕ) {t0 t1 : ℝ}
    (ht : t0 ≠ t1) : ∃ coll full C, buCollPoints N scheme order = .ok coll ∧ tdConstructionPoints N scheme order = .ok full ∧
      tdConstraints F scheme N order n_q t0 t1 = .ok C ∧ ∀ v q, C v q → ∀ P, jacExp scheme order + P < order → ∀ Q : ℕ → ℝ[X],
        (∀ j < n_q, (Q j).degree < (order + (N + gain scheme order N P) : ℕ)) →
        (∀ j < n_q, ∀ k < order, v.lev order n_q k 0 j = (derivative^[k] (Q j)).eval t0) →
        (∀ j < n_q, ∀ m < N, ∀ i < full.length, arr full i = arr coll m →
          v.lev order n_q order i j = (derivative^[order] (Q j)).eval (tauToT (arr coll m) t0 t1)) →
        ∀ j < n_q, v.lev order n_q P (full.length - 1) j = (derivative^[P] (Q j)).eval t1 := by
  obtain ⟨coll, full, nu, C, h2, h3, -, h4, h5, -⟩ := C31_feasible hs ho hN F n_q ht
  obtain ⟨coll', constr, full', s, k1, k2, k3, k4, hfull, k5, -⟩ := constr_length hs ho hN
  rw [h3] at k5
  obtain rfl := Except.ok.inj k5
  exact ⟨coll, full, C, h2, h3, h4, fun v q hv P hP Q hQ q0 qA =>
    end_trajectory hs hl ho hN n_q ht h2 k4 ((h5 v).1 ⟨q, hv⟩).1 hP hQ q0 qA⟩

/-- Two Jacobi points and order two: motions up to degree five instead of three. -/
example : "JG" ∈ buImplemented ∧ "JG" ∈ legendreSchemes ++ jacobiSchemes ∧ minPoints "JG" ≤ 2 ∧ jacExp "JG" 2 + 0 < 2 ∧
    2 + (2 + gain "JG" 2 2 0) = 6 ∧ gain "LG" 2 2 0 = 1 ∧ gain "LG" 2 2 1 = 2 := by decide

end Chords.Props
