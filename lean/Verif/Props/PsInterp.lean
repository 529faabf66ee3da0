import Verif.Model.PsInterp
import Verif.Props.NodePs
import Verif.Props.InterpU
import Verif.Lemmas.Exc

/-! # Interpolation of node based results: C65, C66, C103 to C108 -/

namespace Chords.Props
open Finset Polynomial Chords.Points Chords.Spec Chords.Bary Chords.Gauss Chords.TimeScale Chords.BuTd Chords.PsInterp
open Chords.Ph (linspace searchsorted)

/-! ## Polynomial interpolation -/

theorem tauToT_tToTau {t0 t1 : ℝ} (h : t0 ≠ t1) (t : ℝ) : tauToT (tToTau t t0 t1) t0 t1 = t := by
  have := sub_ne_zero.2 h.symm
  simp only [tauToT, tToTau]; field_simp; ring

theorem tToTau_tauToT {t0 t1 : ℝ} (h : t0 ≠ t1) (τ : ℝ) : tToTau (tauToT τ t0 t1) t0 t1 = τ := by
  have := sub_ne_zero.2 h.symm
  simp only [tauToT, tToTau]; field_simp; ring

/-- The barycentric formula in tau, for samples of a polynomial in time. -/
theorem bary_time {t0 t1 : ℝ} (ht : t0 ≠ t1) {n : ℕ} (hn : 1 ≤ n) {t : ℕ → ℝ} (hd : Distinct n t) {p : ℝ[X]}
    (hp : p.degree < n) {y : ℕ → ℝ} (hy : ∀ i < n, y i = p.eval (tauToT (t i) t0 t1)) (T : ℝ) :
    baryPoly n t y (tToTau T t0 t1) = p.eval T := by
  rw [baryPoly_eq hd hn, interpolate_self hd (comp_toT_degree t0 t1 hp)
    (fun i hi => by rw [hy i hi, eval_comp, toT_eval]), eval_comp, toT_eval, tauToT_tToTau ht]

theorem diff_time {t0 t1 : ℝ} (ht : t0 ≠ t1) {n : ℕ} {t : ℕ → ℝ} (hd : Distinct n t) {p : ℝ[X]} (hp : p.degree < n)
    {y : ℕ → ℕ → ℝ} {c : ℕ} (hy : ∀ i < n, y i c = p.eval (tauToT (t i) t0 t1)) {i : ℕ} (hi : i < n) :
    timeDiff n (dMat n t (vSum n t)) t0 t1 y i c = (derivative p).eval (tauToT (t i) t0 t1) :=
  node_deriv ht hd hp hy hi

theorem diffPow_time {t0 t1 : ℝ} (ht : t0 ≠ t1) {n : ℕ} {t : ℕ → ℝ} (hd : Distinct n t) {p : ℝ[X]} (hp : p.degree < n)
    {y : ℕ → ℕ → ℝ} {c : ℕ} (hy : ∀ i < n, y i c = p.eval (tauToT (t i) t0 t1)) (k : ℕ) {i : ℕ} (hi : i < n) :
    timeDiffPow n (dMat n t (vSum n t)) t0 t1 k y i c = (derivative^[k] p).eval (tauToT (t i) t0 t1) := by
  unfold timeDiffPow
  rw [dMat_pow hd (comp_toT_degree t0 t1 hp) (fun j hj => by rw [hy j hj, eval_comp, toT_eval]) k hi]
  have hh := sub_ne_zero.2 ht.symm
  have e : derivative (toT t0 t1) = C ((t1 - t0) / 2) := by simp [toT]
  have key : ∀ (k : ℕ) (p : ℝ[X]), derivative^[k] (p.comp (toT t0 t1))
      = C (((t1 - t0) / 2) ^ k) * (derivative^[k] p).comp (toT t0 t1) := by
    intro k
    induction k with
    | zero => intro p; simp
    | succ k ih =>
      intro p
      rw [Function.iterate_succ_apply, derivative_comp, e, iterate_derivative_C_mul, ih, Function.iterate_succ_apply,
        ← mul_assoc, ← C_mul, pow_succ']
  rw [key, eval_mul, eval_C, eval_comp, toT_eval, ← mul_assoc, ← mul_pow]
  have : 2 / (t1 - t0) * ((t1 - t0) / 2) = 1 := by field_simp
  rw [this]; simp

/-- The instants asked for: those given, or `n_interp` equispaced ones. -/
noncomputable def instants (t0 t1 : ℝ) (n_interp : ℕ) (given : Option (List ℝ)) : List ℝ :=
  match given with
  | some l => l
  | none => linspace t0 t1 n_interp

theorem timesOf_eq {t0 t1 : ℝ} (ht : t0 ≠ t1) (k : ℕ) (given : Option (List ℝ)) :
    timesOf t0 t1 k given = ((instants t0 t1 k given).map fun t => tToTau t t0 t1, instants t0 t1 k given) := by
  have hh := sub_ne_zero.2 ht.symm
  cases given with
  | some l => rfl
  | none =>
    simp only [timesOf, instants, Prod.mk.injEq, and_true]
    unfold linspace
    split_ifs with h1
    · simp [tToTau]
    · rw [List.map_map]
      apply List.map_congr_left
      intro i _
      simp only [Function.comp, tToTau]
      field_simp
      ring

/-- Polynomials in time through the rows of an array. -/
def Through (p : ℕ → ℝ[X]) (n : ℕ) (taus : List ℝ) (t0 t1 : ℝ) (l : List Row) : Prop :=
  ∀ c, (p c).degree < n ∧ ∀ i < n, rows l i c = (p c).eval (tauToT (arr taus i) t0 t1)

/-- There are such polynomials for every array. -/
theorem through_exists {t0 t1 : ℝ} (ht : t0 ≠ t1) {taus : List ℝ} (hd : Distinct taus.length (arr taus)) (l : List Row) :
    ∃ p, Through p taus.length taus t0 t1 l := by
  choose p hp using fun c => interp_time ht hd (fun i => rows l i c)
  exact ⟨p, fun c => ⟨(hp c).1, fun i hi => ((hp c).2 i hi).symm⟩⟩

theorem bary2d_time {t0 t1 : ℝ} (ht : t0 ≠ t1) {taus : List ℝ} (hn : 1 ≤ taus.length)
    (hd : Distinct taus.length (arr taus)) {p : ℕ → ℝ[X]} {y : ℕ → ℕ → ℝ} (hp : ∀ c, (p c).degree < taus.length)
    (hy : ∀ c, ∀ i < taus.length, y i c = (p c).eval (tauToT (arr taus i) t0 t1)) (T : List ℝ) :
    (T.map fun t => tToTau t t0 t1).map (baryPoly2d taus.length (arr taus) y) = T.map fun t c => (p c).eval t := by
  rw [List.map_map]
  apply List.map_congr_left
  intro t _
  funext c
  exact bary_time ht hn hd (hp c) (hy c) t

/-- C103: with polynomial interpolation, the arrays of a node based result are the values, at the instants asked for, of
the polynomials through the nodes and of their true derivatives in time, and the controls those of the polynomials through
the collocation points. -/
theorem C103_interp (lib : Lib) {scheme : String} (hs : scheme ∈ implemented) {N : ℕ} (hN : minPoints scheme ≤ N)
    {t0 t1 : ℝ} (ht : t0 ≠ t1) :
    ∃ coll n nodes, collPoints N scheme = .ok coll ∧ nColToNNodes scheme N = .ok n ∧ nodePoints n scheme = .ok nodes ∧
      ∀ (qq vv uu : List Row) (k : ℕ) (given : Option (List ℝ)), qq.length = n → vv.length = n → uu.length = N →
      ∃ o p r s, interpolationsPs lib qq vv uu scheme t0 t1 "pol" "pol" k given = .ok o ∧
        Through p n nodes t0 t1 qq ∧ Through r n nodes t0 t1 vv ∧ Through s N coll t0 t1 uu ∧
        o.q = (instants t0 t1 k given).map (fun t c => (p c).eval t) ∧
        o.q_d = (instants t0 t1 k given).map (fun t c => (derivative (p c)).eval t) ∧
        o.q_d_d = (instants t0 t1 k given).map (fun t c => (derivative (derivative (p c))).eval t) ∧
        o.v = (instants t0 t1 k given).map (fun t c => (r c).eval t) ∧
        o.v_d = (instants t0 t1 k given).map (fun t c => (derivative (r c)).eval t) ∧
        o.u = (instants t0 t1 k given).map (fun t c => (s c).eval t) := by
  obtain ⟨coll, n, nodes, full, k1, k2, k3, k4, hlen, hd, -, -, -, hn1, hcl, -⟩ := node_rows hs hN
  obtain ⟨coll', g1, g2, g3, -⟩ := C21_points hs (order := 2) (by norm_num) hN
  rw [k1] at g1; cases g1
  have hdc := distinct_arr g3
  have hN1 : 1 ≤ N := le_trans (minPoints_pos scheme) hN
  refine ⟨coll, n, nodes, k1, k2, k3, fun qq vv uu k given hq hv hu => ?_⟩
  have hD : matrixDBary n scheme = .ok (dMat n (arr nodes) (vSum n (arr nodes))) := by
    simp [matrixDBary, k3, hlen, bind, Except.bind, pure, Except.pure]
  subst hlen
  subst hcl
  obtain ⟨p, hp⟩ := through_exists ht hd qq
  obtain ⟨r, hr⟩ := through_exists ht hd vv
  obtain ⟨s, hss⟩ := through_exists ht hdc uu
  have hdd : ∀ p : ℝ[X], p.degree < nodes.length → (derivative p).degree < nodes.length := fun p hp => by
    simpa using iter_degree_lt 1 hp
  simp only [interpolationsPs, interpU, getPolU, getPolX, timesOf_eq ht, hq, hv, hu, k1, k3, hD, PsInterp.lift, bind,
    Except.bind, pure, Except.pure, if_true]
  refine ⟨_, p, r, s, rfl, hp, hr, hss, ?_, ?_, ?_, ?_, ?_, ?_⟩
  · exact bary2d_time ht hn1 hd (fun c => (hp c).1) (fun c => (hp c).2) _
  · exact bary2d_time ht hn1 hd (fun c => hdd _ (hp c).1) (fun c i hi => diff_time ht hd (hp c).1 (hp c).2 hi) _
  · exact bary2d_time ht hn1 hd (fun c => hdd _ (hdd _ (hp c).1))
      (fun c i hi => diff_time ht hd (hdd _ (hp c).1) (fun i hi => diff_time ht hd (hp c).1 (hp c).2 hi) hi) _
  · exact bary2d_time ht hn1 hd (fun c => (hr c).1) (fun c => (hr c).2) _
  · exact bary2d_time ht hn1 hd (fun c => hdd _ (hr c).1) (fun c i hi => diff_time ht hd (hr c).1 (hr c).2 hi) _
  · exact bary2d_time ht (by omega) hdc (fun c => (hss c).1) (fun c => (hss c).2) _

/-- C103 for derivatives of any order. -/
theorem C103_deriv (lib : Lib) {scheme : String} (hs : scheme ∈ implemented) {N : ℕ} (hN : minPoints scheme ≤ N)
    {t0 t1 : ℝ} (ht : t0 ≠ t1) :
    ∃ n nodes, nColToNNodes scheme N = .ok n ∧ nodePoints n scheme = .ok nodes ∧
      ∀ (xx : List Row) (m k : ℕ) (given : Option (List ℝ)), xx.length = n →
      ∃ o p, interpolationsDerivPs lib xx scheme m t0 t1 "pol" k given = .ok o ∧ Through p n nodes t0 t1 xx ∧
        o = (instants t0 t1 k given).map (fun t c => (derivative^[m] (p c)).eval t) := by
  obtain ⟨coll, n, nodes, full, k1, k2, k3, k4, hlen, hd, -, -, -, hn1, -⟩ := node_rows hs hN
  refine ⟨n, nodes, k2, k3, fun xx m k given hx => ?_⟩
  have hD : matrixDBary n scheme = .ok (dMat n (arr nodes) (vSum n (arr nodes))) := by
    simp [matrixDBary, k3, hlen, bind, Except.bind, pure, Except.pure]
  subst hlen
  obtain ⟨p, hp⟩ := through_exists ht hd xx
  simp only [interpolationsDerivPs, timesOf_eq ht, hx, k3, hD, PsInterp.lift, bind, Except.bind, pure, Except.pure,
    if_true]
  exact ⟨_, p, rfl, hp, bary2d_time ht hn1 hd (fun c => iter_degree_lt m (hp c).1)
    (fun c i hi => diffPow_time ht hd (hp c).1 (hp c).2 m hi) _⟩

example : "LG_inv" ∈ implemented ∧ minPoints "LG_inv" ≤ 3 ∧ (0 : ℝ) ≠ 5 := by
  refine ⟨by decide, by decide, by norm_num⟩

end Chords.Props
