import Verif.Props.Coordinates
import Verif.Props.Momentum

/-! # C195: moving and accelerated frames -/

namespace Chords.Frames
open Finset Polynomial Chords.Points Chords.Bary Chords.BuTd Chords.Equi Chords.PhScheme Chords.Problem Chords.Spec Chords.Props Chords.TimeScale Chords.Units Chords.Momentum

/-- The arrays seen from another frame: at time `t` the coordinate `j` is `p j` of `t` larger, its velocity the derivative of that, and so on. Row `i` is at time `T i`. -/
noncomputable def moved (p : ℕ → ℝ[X]) (n : ℕ) (T : ℕ → ℝ) (v : Vars) : Vars :=
  ⟨fun i c => v.x i c + (derivative^[c / n] (p (c % n))).eval (T i), fun i c => v.xd i c + (derivative^[c / n + 1] (p (c % n))).eval (T i), v.u, v.lam⟩

/-- `F'` are the equations of the system `F` in that frame. -/
def SeenFrom (p : ℕ → ℝ[X]) (n : ℕ) (F F' : Dyn) : Prop :=
  ∀ t x xd u lam, zero (F x xd u lam) ↔ zero (F' (fun c => x c + (derivative^[c / n] (p (c % n))).eval t) (fun c => xd c + (derivative^[c / n + 1] (p (c % n))).eval t) u lam)

section
variable {p : ℕ → ℝ[X]} {n : ℕ} {F F' : Dyn} {T : ℕ → ℝ}

theorem SeenFrom.back (h : SeenFrom p n F F') : SeenFrom (fun j => -p j) n F' F := by
  intro t x xd u lam
  rw [h t]
  simp [iterate_map_neg]

theorem moved_back (v : Vars) : moved (fun j => -p j) n T (moved p n T v) = v := by
  cases v
  simp [moved, iterate_map_neg]

theorem moved_lev {order k j : ℕ} (v : Vars) (i : ℕ) (ho : 1 ≤ order) (hk : k ≤ order) (hj : j < n) :
    (moved p n T v).lev order n k i j = v.lev order n k i j + (derivative^[k] (p j)).eval (T i) := by
  have hn : 0 < n := by omega
  have e : ∀ k, (n * k + j) / n = k := fun k => by rw [Nat.mul_add_div hn, Nat.div_eq_of_lt hj, add_zero]
  have e' : ∀ k, (n * k + j) % n = j := fun k => by rw [Nat.mul_add_mod, Nat.mod_eq_of_lt hj]
  unfold Vars.lev
  split
  · simp only [moved, e, e']
  · simp only [moved, e, e']
    rw [show order - 1 + 1 = k by omega]

theorem SeenFrom.row (h : SeenFrom p n F F') {v : Vars} {i m k : ℕ} (hz : zero (F (v.x i) (v.xd i) (v.u m) (v.lam k))) :
    zero (F' ((moved p n T v).x i) ((moved p n T v).xd i) ((moved p n T v).u m) ((moved p n T v).lam k)) := (h (T i) _ _ _ _).1 hz
end

/-! ## Equispaced problems -/

/-- Where in the step the third point is. -/
noncomputable def third : Shape → ℝ
  | .line => 1 / 2
  | .parab θ => θ

theorem reached_poly (s : Shape) {q : ℝ[X]} (hq : q.natDegree ≤ 2) {M : ℕ} (hM : 1 ≤ M) (a h : ℝ) :
    Reached s M (fun k => (derivative^[k] q).eval a) (fun k => (derivative^[k] q).eval (a + h)) (fun k => (derivative^[k] q).eval (a + third s * h))
      ((derivative^[M] q).eval a) ((derivative^[M] q).eval (a + h)) ((derivative^[M] q).eval (a + third s * h)) h := by
  have hm : Motion fun k (t : ℝ) => (derivative^[k] q).eval (a + t) := fun k t => by
    have := (derivative^[k] q).hasDerivAt (a + t)
    rw [← Function.iterate_succ_apply' derivative] at this
    exact this.comp_const_add a t
  have hd : (derivative^[M] q).natDegree ≤ 1 := (natDegree_iterate_derivative q M).trans (by omega)
  obtain ⟨b, hb⟩ : ∃ b : ℝ, ∀ t, (derivative^[M] q).eval (a + t) = (derivative^[M] q).eval a + t * b := by
    refine ⟨(derivative^[M] q).coeff 1, fun t => ?_⟩
    rw [eq_X_add_C_of_natDegree_le_one hd]
    simp
    ring
  refine ⟨fun k t => (derivative^[k] q).eval (a + t), ?_, fun k _ => rfl, fun θ hθ k _ => by subst hθ; rfl⟩
  cases s with
  | line => exact ⟨hm, fun k _ => by simp, ⟨b, fun t => by rw [hb]; simp⟩, rfl⟩
  | parab θ => exact ⟨hm, fun k _ => by simp, ⟨b, 0, fun t => by rw [hb]; simp⟩, rfl, rfl⟩

section
variable {p : ℕ → ℝ[X]} {n order N n_u : ℕ} {F F' : Dyn} {scheme : String} {s : Shape} {t0 t1 : ℝ}

/-- The time of row `i`. -/
noncomputable def rowTime (t0 t1 : ℝ) (N i : ℕ) : ℝ := t0 + i * ((t1 - t0) / N)

/-- The time of the third point of step `i`. -/
noncomputable def thirdTime (s : Shape) (t0 t1 : ℝ) (N i : ℕ) : ℝ := t0 + (i + third s) * ((t1 - t0) / N)

private theorem next_time (i : ℕ) : rowTime t0 t1 N (i + 1) = rowTime t0 t1 N i + (t1 - t0) / N := by
  unfold rowTime; push_cast; ring

private theorem mid_time (i : ℕ) : thirdTime s t0 t1 N i = rowTime t0 t1 N i + third s * ((t1 - t0) / N) := by
  unfold rowTime thirdTime; ring

private theorem motion_half (hp : ∀ j < n, (p j).natDegree ≤ 2) (hF : SeenFrom p n F F') (hs : SchemeIs (some order) scheme s order) (ho : 1 ≤ order) (hN : 0 < N) (ht : t0 ≠ t1)
    {P P' : Vars → Vars → Prop} (hP : equiConstraints F scheme N order n n_u t0 t1 = .ok P) (hP' : equiConstraints F' scheme N order n n_u t0 t1 = .ok P') {v c : Vars} (h : P v c) :
    P' (moved p n (rowTime t0 t1 N) v) (moved p n (thirdTime s t0 t1 N) c) := by
  obtain ⟨Q, hQ, hv⟩ := C91_motion F hs N n n_u hN ht
  obtain rfl := Except.ok.inj (hP.symm.trans hQ)
  obtain ⟨Q', hQ', hv'⟩ := C91_motion F' hs N n n_u hN ht
  obtain rfl := Except.ok.inj (hP'.symm.trans hQ')
  obtain ⟨h1, h2, h3⟩ := (hv v c).1 h
  refine (hv' _ _).2 ⟨fun i hi j hj => ?_, fun i hi => hF.row (h2 i hi), fun θ hθ => ⟨fun i hi => hF.row ((h3 θ hθ).1 i hi), (h3 θ hθ).2⟩⟩
  have := Reached.add (h1 i hi j hj) (reached_poly s (hp j hj) ho (rowTime t0 t1 N i) ((t1 - t0) / N))
  rw [← next_time, ← mid_time] at this
  simp only [moved_lev _ _ ho le_rfl hj]
  refine Conv.reached_congr ?_ ?_ ?_ this <;> exact fun k hk => (moved_lev _ _ ho hk.le hj).symm

private theorem levels_half (hp : ∀ j < n, (p j).natDegree ≤ 2) (hF : SeenFrom p n F F')
    (hs : scheme = "trapz" ∧ s = .line ∨ (scheme = "hs" ∨ scheme = "hs_parab") ∧ s = .parab (1 / 2)) (ho : 1 ≤ order) (hN : 0 < N) (ht : t0 ≠ t1)
    {P P' : Vars → Vars → Prop} (hP : equiConstraints F scheme N order n n_u t0 t1 = .ok P) (hP' : equiConstraints F' scheme N order n n_u t0 t1 = .ok P') {v c : Vars} (h : P v c) :
    P' (moved p n (rowTime t0 t1 N) v) (moved p n (thirdTime s t0 t1 N) c) := by
  obtain ⟨Q, hQ, hv⟩ := C91_levels F hs N order n n_u hN ht
  obtain rfl := Except.ok.inj (hP.symm.trans hQ)
  obtain ⟨Q', hQ', hv'⟩ := C91_levels F' hs N order n n_u hN ht
  obtain rfl := Except.ok.inj (hP'.symm.trans hQ')
  obtain ⟨h1, h2, h3⟩ := (hv v c).1 h
  refine (hv' _ _).2 ⟨fun i hi j hj k hk => ?_, fun i hi => hF.row (h2 i hi), fun hl => ⟨fun i hi => hF.row ((h3 hl).1 i hi), (h3 hl).2⟩⟩
  have hq : (derivative^[k] (p j)).natDegree ≤ 2 := (natDegree_iterate_derivative (p j) k).trans (by have := hp j hj; omega)
  have := Reached.add (h1 i hi j hj k hk) (reached_poly s hq le_rfl (rowTime t0 t1 N i) ((t1 - t0) / N))
  rw [← next_time, ← mid_time] at this
  simp only [moved_lev _ _ ho hk.le hj, moved_lev _ _ ho (show k + 1 ≤ order by omega) hj, Function.iterate_succ_apply' derivative]
  refine Conv.reached_congr ?_ ?_ ?_ this <;>
  · intro q hq
    obtain rfl : q = 0 := by omega
    rfl

private theorem shape_ok (hs : UsesShape order scheme s) (F : Dyn) (hN : 0 < N) (ht : t0 ≠ t1) : ∃ P, equiConstraints F scheme N order n n_u t0 t1 = .ok P := by
  rcases hs with hs | hs | hs | ⟨rfl, rfl, rfl⟩
  · obtain ⟨P, h, -⟩ := C91_motion F hs N n n_u hN ht
    exact ⟨P, h⟩
  · obtain ⟨P, h, -⟩ := C91_levels F (.inl hs) N order n n_u hN ht
    exact ⟨P, h⟩
  · obtain ⟨P, h, -⟩ := C91_levels F (.inr hs) N order n n_u hN ht
    exact ⟨P, h⟩
  · obtain ⟨P, h, -⟩ := C91_motion F .hsj_parab N n n_u hN ht
    exact ⟨P, h⟩

private theorem shape_half (hp : ∀ j < n, (p j).natDegree ≤ 2) (hF : SeenFrom p n F F') (hs : UsesShape order scheme s) (ho : 1 ≤ order) (hN : 0 < N) (ht : t0 ≠ t1)
    {P P' : Vars → Vars → Prop} (hP : equiConstraints F scheme N order n n_u t0 t1 = .ok P) (hP' : equiConstraints F' scheme N order n n_u t0 t1 = .ok P') {v c : Vars} (h : P v c) :
    P' (moved p n (rowTime t0 t1 N) v) (moved p n (thirdTime s t0 t1 N) c) := by
  rcases hs with hs | hs | hs | ⟨rfl, rfl, rfl⟩
  · exact motion_half hp hF hs ho hN ht hP hP' h
  · exact levels_half hp hF (.inl hs) ho hN ht hP hP' h
  · exact levels_half hp hF (.inr hs) ho hN ht hP hP' h
  · rw [C91_hsj_parab_mod] at hP hP'
    exact motion_half hp hF .hsj_parab ho hN ht hP hP' h

/-- C195, equispaced problems: a motion meets the constraints if and only if the same motion seen from a frame with constant acceleration meets those of the system seen from there. -/
theorem C195_equispaced (hs : UsesShape order scheme s) (ho : 1 ≤ order) (hN : 0 < N) (hp : ∀ j < n, (p j).natDegree ≤ 2) (hF : SeenFrom p n F F') (n_u : ℕ) (ht : t0 ≠ t1) :
    ∃ P P', equiConstraints F scheme N order n n_u t0 t1 = .ok P ∧ equiConstraints F' scheme N order n n_u t0 t1 = .ok P' ∧
      ∀ v c, P v c ↔ P' (moved p n (rowTime t0 t1 N) v) (moved p n (thirdTime s t0 t1 N) c) := by
  obtain ⟨P, hP⟩ := shape_ok (n := n) (n_u := n_u) hs F hN ht
  obtain ⟨P', hP'⟩ := shape_ok (n := n) (n_u := n_u) hs F' hN ht
  refine ⟨P, P', hP, hP', fun v c => ⟨shape_half hp hF hs ho hN ht hP hP', fun h => ?_⟩⟩
  have := shape_half (p := fun j => -p j) (fun j hj => by rw [natDegree_neg]; exact hp j hj) hF.back hs ho hN ht hP' hP h
  rwa [moved_back, moved_back] at this
end

/-! ## Pseudospectral problems -/

section
variable {p : ℕ → ℝ[X]} {n order N : ℕ} {F F' : Dyn} {scheme : String} {t0 t1 : ℝ}

/-- The times of the rows that are at the points `taus`. -/
noncomputable def tauTime (taus : List ℝ) (t0 t1 : ℝ) (i : ℕ) : ℝ := tauToT (arr taus i) t0 t1

private theorem deg_neg {m : ℕ} (hp : ∀ j < n, (p j).degree < (m : ℕ)) : ∀ j < n, (-p j).degree < (m : ℕ) := fun j hj => by
  rw [degree_neg]; exact hp j hj

theorem moved_traj {v : Vars} {deg : ℕ} {taus : List ℝ} (ho : 1 ≤ order) (hp : ∀ j < n, (p j).degree < deg) (h : IsTrajectory v order n deg taus t0 t1) :
    IsTrajectory (moved p n (tauTime taus t0 t1) v) order n deg taus t0 t1 := by
  obtain ⟨Q, hQ⟩ := h
  refine ⟨fun j => Q j + p j, fun j hj => ⟨lt_of_le_of_lt (degree_add_le _ _) (max_lt (hQ j hj).1 (hp j hj)), fun k hk i hi => ?_⟩⟩
  rw [moved_lev _ _ ho hk hj, iterate_map_add, eval_add, (hQ j hj).2 k hk i hi]
  rfl

theorem moved_coll {v : Vars} {taus coll : List ℝ} {T : ℕ → ℝ} (hF : SeenFrom p n F F') (h : Collocated F v taus coll) : Collocated F' (moved p n T v) taus coll := by
  intro m hm
  obtain ⟨i, hi, h1, h2⟩ := h m hm
  exact ⟨i, hi, h1, hF.row h2⟩

private theorem moved_iff {v : Vars} {deg : ℕ} {taus coll : List ℝ} (ho : 1 ≤ order) (hp : ∀ j < n, (p j).degree < deg) (hF : SeenFrom p n F F') :
    IsTrajectory v order n deg taus t0 t1 ∧ Collocated F v taus coll ↔
      IsTrajectory (moved p n (tauTime taus t0 t1) v) order n deg taus t0 t1 ∧ Collocated F' (moved p n (tauTime taus t0 t1) v) taus coll := by
  refine ⟨fun h => ⟨moved_traj ho hp h.1, moved_coll hF h.2⟩, fun h => ?_⟩
  have a := moved_traj ho (deg_neg hp) h.1
  have b := moved_coll (T := tauTime taus t0 t1) hF.back h.2
  rw [moved_back] at a b
  exact ⟨a, b⟩

/-- C195, bottom-up problems: any polynomial motion of the frame up to the degree of the scheme. -/
theorem C195_bu (hs : scheme ∈ buImplemented) (ho : 1 ≤ order) (hN : minPoints scheme ≤ N) (h1 : 2 ≤ N ∨ scheme ∉ gaussLike) (hp : ∀ j < n, (p j).degree < (order + N : ℕ))
    (hF : SeenFrom p n F F') (ht : t0 ≠ t1) :
    ∃ full C C', buArrPoints N scheme order = .ok full ∧ buConstraints F scheme N order n t0 t1 = .ok C ∧ buConstraints F' scheme N order n t0 t1 = .ok C' ∧
      ∀ v, C v ↔ C' (moved p n (tauTime full t0 t1) v) := by
  obtain ⟨coll, full, C, k1, k2, hC, hv⟩ := C30_feasible hs ho hN h1 F n ht
  obtain ⟨coll', full', C', k1', k2', hC', hv'⟩ := C30_feasible hs ho hN h1 F' n ht
  obtain rfl := Except.ok.inj (k1.symm.trans k1')
  obtain rfl := Except.ok.inj (k2.symm.trans k2')
  exact ⟨full, C, C', k2, hC, hC', fun v => by rw [hv, hv']; exact moved_iff ho hp hF⟩

/-- C195, top-down problems. -/
theorem C195_td (hs : scheme ∈ buImplemented) (ho : 1 ≤ order) (hN : minPoints scheme ≤ N) (hp : ∀ j < n, (p j).degree < (order + N : ℕ)) (hF : SeenFrom p n F F') (ht : t0 ≠ t1) :
    ∃ full C C', tdConstructionPoints N scheme order = .ok full ∧ tdConstraints F scheme N order n t0 t1 = .ok C ∧ tdConstraints F' scheme N order n t0 t1 = .ok C' ∧
      ∀ v, (∃ q, C v q) ↔ ∃ q, C' (moved p n (tauTime full t0 t1) v) q := by
  obtain ⟨coll, full, _, C, k1, k2, -, hC, hv, -⟩ := C31_feasible hs ho hN F n ht
  obtain ⟨coll', full', _, C', k1', k2', -, hC', hv', -⟩ := C31_feasible hs ho hN F' n ht
  obtain rfl := Except.ok.inj (k1.symm.trans k1')
  obtain rfl := Except.ok.inj (k2.symm.trans k2')
  exact ⟨full, C, C', k2, hC, hC', fun v => by rw [hv, hv']; exact moved_iff ho hp hF⟩

private theorem deg_iter (k : ℕ) (q : ℝ[X]) : (derivative^[k] q).degree ≤ q.degree := by
  induction k with
  | zero => exact le_rfl
  | succ k ih =>
    rw [Function.iterate_succ_apply' derivative]
    exact degree_derivative_le.trans ih

theorem moved_ntraj {v : Vars} {m : ℕ} {nodes taus : List ℝ} (hn : 1 ≤ n) (hp : ∀ j < n, (p j).degree < m) (h : IsNodeTrajectory v order n m nodes taus t0 t1) :
    IsNodeTrajectory (moved p n (tauTime taus t0 t1) v) order n m nodes taus t0 t1 := by
  obtain ⟨r, hr⟩ := h
  refine ⟨fun c => r c + derivative^[c / n] (p (c % n)), fun c hc => ⟨lt_of_le_of_lt (degree_add_le _ _) (max_lt (hr c hc).1 ?_), fun i hi => ⟨?_, fun hh => ?_⟩⟩⟩
  · exact lt_of_le_of_lt (deg_iter _ _) (hp _ (Nat.mod_lt _ hn))
  · rw [eval_add, ← ((hr c hc).2 i hi).1]
    rfl
  · rw [derivative_add, eval_add, ← ((hr c hc).2 i hi).2 hh, ← Function.iterate_succ_apply' derivative]
    rfl

/-- C195, node based problems: polynomial motions of the frame of degree below the number of nodes. -/
theorem C195_node (hn : 1 ≤ n) (hs : scheme ∈ implemented) (h2 : scheme ∉ gauss2 ++ ["D2"]) (ho : 1 ≤ order) (hord : order ≤ 2 ∨ scheme ∉ gaussLike ++ gaussInv) (hN : minPoints scheme ≤ N)
    {m : ℕ} (hm : nColToNNodes scheme N = .ok m) (hp : ∀ j < n, (p j).degree < m) (hF : SeenFrom p n F F') (ht : t0 ≠ t1) :
    ∃ full C C', arrPoints N scheme = .ok full ∧ nodeConstraints F scheme N order n t0 t1 = .ok C ∧ nodeConstraints F' scheme N order n t0 t1 = .ok C' ∧
      ∀ v, C v ↔ C' (moved p n (tauTime full t0 t1) v) := by
  obtain ⟨coll, _, nodes, full, C, k1, k2, k3, k4, hC, hv⟩ := C73_feasible hs h2 ho hord hN F n ht
  obtain ⟨coll', _, nodes', full', C', k1', k2', k3', k4', hC', hv'⟩ := C73_feasible hs h2 ho hord hN F' n ht
  obtain rfl := Except.ok.inj (k1.symm.trans k1')
  obtain rfl := Except.ok.inj (k2.symm.trans k2')
  obtain rfl := Except.ok.inj (k3.symm.trans k3')
  obtain rfl := Except.ok.inj (k4.symm.trans k4')
  obtain rfl := Except.ok.inj (hm.symm.trans k2)
  refine ⟨full, C, C', k4, hC, hC', fun v => ?_⟩
  rw [hv, hv']
  refine ⟨fun h => ⟨moved_ntraj hn hp h.1, moved_coll hF h.2⟩, fun h => ?_⟩
  have a := moved_ntraj hn (deg_neg hp) h.1
  have b := moved_coll (T := tauTime full t0 t1) hF.back h.2
  rw [moved_back] at a b
  exact ⟨a, b⟩

/-- C195, node based problems with the schemes that differentiate twice. -/
theorem C195_node_second (h2 : scheme ∈ gauss2 ++ ["D2"]) (hN : minPoints scheme ≤ N) {m : ℕ} (hm : nColToNNodes scheme N = .ok m) (hp : ∀ j < n, (p j).degree < m) (hF : SeenFrom p n F F')
    (ht : t0 ≠ t1) :
    ∃ full C C', arrPoints N scheme = .ok full ∧ nodeConstraints F scheme N 2 n t0 t1 = .ok C ∧ nodeConstraints F' scheme N 2 n t0 t1 = .ok C' ∧
      ∀ v, C v ↔ C' (moved p n (tauTime full t0 t1) v) := by
  obtain ⟨coll, _, full, C, k1, k2, k3, hC, hv⟩ := C73_second h2 hN F n ht
  obtain ⟨coll', _, full', C', k1', k2', k3', hC', hv'⟩ := C73_second h2 hN F' n ht
  obtain rfl := Except.ok.inj (k1.symm.trans k1')
  obtain rfl := Except.ok.inj (k2.symm.trans k2')
  obtain rfl := Except.ok.inj (k3.symm.trans k3')
  obtain rfl := Except.ok.inj (hm.symm.trans k2)
  exact ⟨full, C, C', k3, hC, hC', fun v => by rw [hv, hv']; exact moved_iff (by norm_num) hp hF⟩
end

/-! ## Several segments -/

/-- The times of the rows of a problem with several segments that start at the times `T`. -/
noncomputable def segTime (coll : ℕ → List ℝ) : List ℕ → (ℕ → ℝ) → ℕ → ℝ
  | [], T, _ => T 0
  | _ :: _, T, 0 => T 0
  | p :: ps, T, i + 1 => if i < p then tauToT (arr (coll p) i) (T 0) (T 1) else segTime coll ps (fun s => T (s + 1)) (i - p)

private theorem knotRow_cons (p : ℕ) (ps : List ℕ) (s : ℕ) : knotRow (p :: ps) (s + 1) = knotRow ps s + p + 1 := by
  unfold knotRow
  rw [sum_range_succ']
  simp
  ring

theorem segTime_knot (coll : ℕ → List ℝ) (points : List ℕ) (T : ℕ → ℝ) {s : ℕ} (hs : s ≤ points.length) : segTime coll points T (knotRow points s) = T s := by
  induction points generalizing s T with
  | nil =>
    obtain rfl : s = 0 := by simpa using hs
    rfl
  | cons p ps ih =>
    cases s with
    | zero => simp [knotRow, segTime]
    | succ s =>
      rw [knotRow_cons, segTime, if_neg (by omega), Nat.add_sub_cancel]
      exact ih _ (by simpa using hs)

theorem segTime_col (coll : ℕ → List ℝ) (points : List ℕ) (T : ℕ → ℝ) {s m : ℕ} (hs : s < points.length) (hm : m < points.getD s 0) :
    segTime coll points T (colRow points s m) = tauToT (arr (coll (points.getD s 0)) m) (T s) (T (s + 1)) := by
  induction points generalizing s T with
  | nil => simp at hs
  | cons p ps ih =>
    cases s with
    | zero =>
      have hm' : m < p := by simpa using hm
      simp [colRow, knotRow, segTime, add_comm 1 m, hm']
    | succ s =>
      have hm' : m < ps.getD s 0 := by simpa using hm
      have := ih (fun s => T (s + 1)) (by simpa using hs) hm'
      rw [colRow, knotRow_cons, show knotRow ps s + p + 1 + 1 + m = (knotRow ps s + 1 + m) + p + 1 by ring, segTime, if_neg (by omega), Nat.add_sub_cancel]
      simpa [colRow] using this

section
variable {p : ℕ → ℝ[X]} {n order n_u : ℕ} {F F' : Dyn} {scheme : String} {points : List ℕ} {coll : ℕ → List ℝ} {ext : List ℝ}

private theorem moved_shift {v : Vars} {R : ℕ → ℝ} {s : ℕ} (h : KnotShift v order n points s) : KnotShift (moved p n R v) order n points s := by
  intro c hc
  have hq : 0 < n := Nat.pos_of_ne_zero fun e => by simp [e] at hc
  simp only [moved, Nat.add_div_left _ hq, Nat.add_mod_left, h c hc]

private theorem moved_seg (hN : ∀ q ∈ points, ∀ j < n, (p j).degree < (order + q : ℕ)) (ho : 1 ≤ order) {v : Vars} {T : ℕ → ℝ} {s : ℕ} (hs : s < points.length) {Q : ℕ → ℝ[X]}
    (h : SegPoly v order n points coll T s Q) : SegPoly (moved p n (segTime coll points T) v) order n points coll T s (fun j => Q j + p j) := by
  intro j hj
  have hd := hN (points.getD s 0) (by rw [List.getD_eq_getElem?_getD, List.getElem?_eq_getElem hs]; exact List.getElem_mem _) j hj
  refine ⟨lt_of_le_of_lt (degree_add_le _ _) (max_lt (h j hj).1 hd), fun k hk => ⟨?_, ?_⟩, fun k hk m hm => ?_⟩
  · rw [moved_lev _ _ ho hk.le hj, segTime_knot _ _ _ hs.le, iterate_map_add, eval_add, ((h j hj).2.1 k hk).1]
  · rw [moved_lev _ _ ho hk.le hj, segTime_knot _ _ _ hs, iterate_map_add, eval_add, ((h j hj).2.1 k hk).2]
  · rw [moved_lev _ _ ho hk hj, segTime_col _ _ _ hs hm, iterate_map_add, eval_add, (h j hj).2.2 k hk m hm]

/-- C195, bottom-up problems with several segments. -/
theorem C195_segments_bu (hs : scheme ∈ buImplemented) (ho : 1 ≤ order) (h0 : points ≠ []) (hN : ∀ q ∈ points, minPoints scheme ≤ q) (h1 : (∀ q ∈ points, 2 ≤ q) ∨ scheme ∉ gaussLike)
    (hcoll : ∀ q ∈ points, collPoints q scheme order = .ok (coll q)) (hl : ext.length = points.length + 1) (ht : ∀ s < points.length, ext.getD s 0 ≠ ext.getD (s + 1) 0)
    (hp : ∀ q ∈ points, ∀ j < n, (p j).degree < (order + q : ℕ)) (hF : SeenFrom p n F F') (n_u : ℕ) :
    ∃ C C', phConstraints F .bu scheme order n n_u points ext = .ok C ∧ phConstraints F' .bu scheme order n n_u points ext = .ok C' ∧
      ∀ v q q', C v q ↔ C' (moved p n (segTime coll points fun s => ext.getD s 0) v) q' := by
  have key : ∀ {p : ℕ → ℝ[X]} {F F' : Dyn}, (∀ q ∈ points, ∀ j < n, (p j).degree < (order + q : ℕ)) → SeenFrom p n F F' → ∃ C C', phConstraints F .bu scheme order n n_u points ext = .ok C ∧
      phConstraints F' .bu scheme order n n_u points ext = .ok C' ∧ ∀ v q q', C v q → C' (moved p n (segTime coll points fun s => ext.getD s 0) v) q' := by
    intro p F F' hp hF
    obtain ⟨C, hC, hv⟩ := C99_feasible hs ho F n n_u h0 hN h1 hcoll hl ht
    obtain ⟨C', hC', hv'⟩ := C99_feasible hs ho F' n n_u h0 hN h1 hcoll hl ht
    refine ⟨C, C', hC, hC', fun v q q' h => (hv' _ _).2 ?_⟩
    obtain ⟨⟨Q, k1⟩, k2, k3, k4⟩ := (hv v q).1 h
    refine ⟨⟨fun s j => Q s j + p j, fun s hs => ⟨moved_seg hp ho hs (k1 s hs).1, fun j hj => ?_, fun he j hj => ?_⟩⟩, fun s hs => moved_shift (k2 s hs), fun s hs m hm => hF.row (k3 s hs m hm), k4⟩
    · rw [moved_lev _ _ ho le_rfl hj, segTime_knot _ _ _ hs.le, iterate_map_add, eval_add, (k1 s hs).2.1 j hj]
    · rw [moved_lev _ _ ho le_rfl hj, segTime_knot _ _ _ hs, iterate_map_add, eval_add, (k1 s hs).2.2 he j hj]
  obtain ⟨C, C', hC, hC', h⟩ := key hp hF
  obtain ⟨D', D, hD', hD, h'⟩ := key (p := fun j => -p j) (fun q hq j hj => by rw [degree_neg]; exact hp q hq j hj) hF.back
  obtain rfl := Except.ok.inj (hC.symm.trans hD)
  obtain rfl := Except.ok.inj (hC'.symm.trans hD')
  refine ⟨C, C', hC, hC', fun v q q' => ⟨h v q q', fun hh => ?_⟩⟩
  have := h' _ _ q hh
  rwa [moved_back] at this

/-- C195, top-down problems with several segments. -/
theorem C195_segments_td (hs : scheme ∈ buImplemented) (ho : 1 ≤ order) (h0 : points ≠ []) (hN : ∀ q ∈ points, minPoints scheme ≤ q)
    (hcoll : ∀ q ∈ points, collPoints q scheme order = .ok (coll q)) (hl : ext.length = points.length + 1) (ht : ∀ s < points.length, ext.getD s 0 ≠ ext.getD (s + 1) 0)
    (hp : ∀ q ∈ points, ∀ j < n, (p j).degree < (order + q : ℕ)) (hF : SeenFrom p n F F') (n_u : ℕ) :
    ∃ C C', phConstraints F .td scheme order n n_u points ext = .ok C ∧ phConstraints F' .td scheme order n n_u points ext = .ok C' ∧
      ∀ v, (∃ q, C v q) ↔ ∃ q, C' (moved p n (segTime coll points fun s => ext.getD s 0) v) q := by
  have key : ∀ {p : ℕ → ℝ[X]} {F F' : Dyn}, (∀ q ∈ points, ∀ j < n, (p j).degree < (order + q : ℕ)) → SeenFrom p n F F' → ∃ C C', phConstraints F .td scheme order n n_u points ext = .ok C ∧
      phConstraints F' .td scheme order n n_u points ext = .ok C' ∧ ∀ v, (∃ q, C v q) → ∃ q, C' (moved p n (segTime coll points fun s => ext.getD s 0) v) q := by
    intro p F F' hp hF
    obtain ⟨C, hC, hv⟩ := C100_feasible hs ho F n n_u h0 hN hcoll hl ht
    obtain ⟨C', hC', hv'⟩ := C100_feasible hs ho F' n n_u h0 hN hcoll hl ht
    refine ⟨C, C', hC, hC', fun v h => (hv' _).2 ?_⟩
    obtain ⟨⟨Q, k1⟩, k2, k3, k4⟩ := (hv v).1 h
    refine ⟨⟨fun s j => Q s j + p j, fun s hs => ⟨moved_seg hp ho hs (k1 s hs).1, fun j hj => ⟨?_, ?_⟩⟩⟩, fun s hs => moved_shift (k2 s hs), fun s hs m hm => hF.row (k3 s hs m hm), k4⟩
    · rw [moved_lev _ _ ho le_rfl hj, segTime_knot _ _ _ hs.le, iterate_map_add, eval_add, ((k1 s hs).2 j hj).1]
    · rw [moved_lev _ _ ho le_rfl hj, segTime_knot _ _ _ hs, iterate_map_add, eval_add, ((k1 s hs).2 j hj).2]
  obtain ⟨C, C', hC, hC', h⟩ := key hp hF
  obtain ⟨D', D, hD', hD, h'⟩ := key (p := fun j => -p j) (fun q hq j hj => by rw [degree_neg]; exact hp q hq j hj) hF.back
  obtain rfl := Except.ok.inj (hC.symm.trans hD)
  obtain rfl := Except.ok.inj (hC'.symm.trans hD')
  refine ⟨C, C', hC, hC', fun v => ⟨h v, fun hh => ?_⟩⟩
  have := h' _ hh
  rwa [moved_back] at this

/-- C195, node based problems with several segments. -/
theorem C195_segments_node (hn : 1 ≤ n) (hs : scheme ∈ implemented) (ho : 1 ≤ order) (hord : order ≤ 2 ∨ scheme ∉ gaussLike ++ gaussInv) (h0 : points ≠ []) (hN : ∀ q ∈ points, minPoints scheme ≤ q)
    {coll2 : ℕ → List ℝ} {m : ℕ → ℕ} (hcoll : ∀ q ∈ points, collPoints q scheme order = .ok (coll q)) (hcoll2 : ∀ q ∈ points, collPoints q scheme = .ok (coll2 q))
    (hm : ∀ q ∈ points, nColToNNodes scheme q = .ok (m q)) (hl : ext.length = points.length + 1) (ht : ∀ s < points.length, ext.getD s 0 ≠ ext.getD (s + 1) 0)
    (hp : ∀ q ∈ points, ∀ j < n, (p j).degree < m q) (hF : SeenFrom p n F F') (n_u : ℕ) :
    ∃ C C', phConstraints F .node scheme order n n_u points ext = .ok C ∧ phConstraints F' .node scheme order n n_u points ext = .ok C' ∧
      ∀ v q q', C v q ↔ C' (moved p n (segTime coll2 points fun s => ext.getD s 0) v) q' := by
  have key : ∀ {p : ℕ → ℝ[X]} {F F' : Dyn}, (∀ q ∈ points, ∀ j < n, (p j).degree < m q) → SeenFrom p n F F' → ∃ C C', phConstraints F .node scheme order n n_u points ext = .ok C ∧
      phConstraints F' .node scheme order n n_u points ext = .ok C' ∧ ∀ v q q', C v q → C' (moved p n (segTime coll2 points fun s => ext.getD s 0) v) q' := by
    intro p F F' hp hF
    obtain ⟨C, hC, hv⟩ := C101_feasible hs ho hord F n n_u h0 hN hcoll hcoll2 hm hl ht
    obtain ⟨C', hC', hv'⟩ := C101_feasible hs ho hord F' n n_u h0 hN hcoll hcoll2 hm hl ht
    refine ⟨C, C', hC, hC', fun v q q' h => (hv' _ _).2 ?_⟩
    obtain ⟨⟨R, k1⟩, k2, k3, k4⟩ := (hv v q).1 h
    refine ⟨⟨fun s c => R s c + derivative^[c / n] (p (c % n)), fun s hs c hc => ?_⟩,
      ⟨fun h s hs => moved_shift (k2.1 h s hs), fun h => moved_shift (k2.2.1 h), fun h => moved_shift (k2.2.2 h)⟩, fun s hs m hm => hF.row (k3 s hs m hm), k4⟩
    obtain ⟨e1, e2, e3, e4, e5⟩ := k1 s hs c hc
    have hd := hp (points.getD s 0) (by rw [List.getD_eq_getElem?_getD, List.getElem?_eq_getElem hs]; exact List.getElem_mem _) (c % n) (Nat.mod_lt _ hn)
    have t1 := segTime_knot coll2 points (fun s => ext.getD s 0) hs.le
    have t2 := segTime_knot coll2 points (fun s => ext.getD s 0) (s := s + 1) hs
    refine ⟨lt_of_le_of_lt (degree_add_le _ _) (max_lt e1 (lt_of_le_of_lt (deg_iter _ _) hd)), fun i hi => ?_, fun h => ?_, fun h => ?_, fun h => ?_⟩
    · have t := segTime_col coll2 points (fun s => ext.getD s 0) hs hi
      rw [derivative_add, eval_add, eval_add, ← (e2 i hi).1, ← (e2 i hi).2, ← t, ← Function.iterate_succ_apply' derivative]
      exact ⟨rfl, rfl⟩
    · rw [eval_add, eval_add, ← (e3 h).1, ← (e3 h).2]
      dsimp only
      rw [← t1, ← t2]
      exact ⟨rfl, rfl⟩
    · rw [derivative_add, eval_add, ← e4 h]
      dsimp only
      rw [← t1, ← Function.iterate_succ_apply' derivative]
      rfl
    · rw [derivative_add, eval_add, ← e5 h]
      dsimp only
      rw [← t2, ← Function.iterate_succ_apply' derivative]
      rfl
  obtain ⟨C, C', hC, hC', h⟩ := key hp hF
  obtain ⟨D', D, hD', hD, h'⟩ := key (p := fun j => -p j) (fun q hq j hj => by rw [degree_neg]; exact hp q hq j hj) hF.back
  obtain rfl := Except.ok.inj (hC.symm.trans hD)
  obtain rfl := Except.ok.inj (hC'.symm.trans hD')
  refine ⟨C, C', hC, hC', fun v q q' => ⟨h v q q', fun hh => ?_⟩⟩
  have := h' _ _ q hh
  rwa [moved_back] at this
end

/-! ## Examples -/

/-- A body with a thruster that falls with acceleration `g`. -/
def lift (g : ℝ) : Dyn := fun x xd u _ => [xd 0 - x 1, xd 1 + g - u 0]

/-- The fall of the cabin of a lift that starts with velocity `w`. -/
noncomputable def cabin (g w : ℝ) : ℕ → ℝ[X] := fun _ => C (g / 2) * X ^ 2 - C w * X

/-- In a falling cabin there is no weight. -/
theorem lift_seen (g w : ℝ) : SeenFrom (cabin g w) 1 (lift g) (lift 0) := by
  intro t x xd u lam
  have d2 : derivative (derivative (cabin g w 0)) = C g := by
    simp [cabin, derivative_X_pow]
    rw [← C_1, ← C_add, ← C_mul]
    congr 1
    ring
  have e : ∀ c, cabin g w c = cabin g w 0 := fun _ => rfl
  simp only [zero, lift, List.mem_cons, List.not_mem_nil, or_false, forall_eq_or_imp, forall_eq, Nat.div_one, Nat.mod_one, Function.iterate_succ, Function.iterate_zero, id, Function.comp, d2, eval_C]
  constructor
  · rintro ⟨h1, h2⟩
    exact ⟨by linarith, by linarith⟩
  · rintro ⟨h1, h2⟩
    exact ⟨by linarith, by linarith⟩

theorem cabin_degree (g w : ℝ) (j : ℕ) : (cabin g w j).natDegree ≤ 2 := by
  unfold cabin
  compute_degree

example : UsesShape 2 "hs_mod" (.parab (1 / 2)) ∧ (∀ j < 1, (cabin 9.8 3 j).natDegree ≤ 2) ∧ SeenFrom (cabin 9.8 3) 1 (lift 9.8) (lift 0) :=
  ⟨.inl .hs_mod, fun j _ => cabin_degree _ _ j, lift_seen _ _⟩

example : "LG" ∈ buImplemented ∧ minPoints "LG" ≤ 2 ∧ (∀ j < 1, (cabin 9.8 3 j).degree < (2 + 2 : ℕ)) ∧ SeenFrom (cabin 9.8 3) 1 (lift 9.8) (lift 0) :=
  ⟨by decide, by decide, fun j _ => lt_of_le_of_lt degree_le_natDegree (by exact_mod_cast lt_of_le_of_lt (cabin_degree _ _ j) (by norm_num)), lift_seen _ _⟩

example : nColToNNodes "LGR" 3 = .ok 4 ∧ ∀ j < 1, (cabin 9.8 3 j).degree < (4 : ℕ) :=
  ⟨by simp [nColToNNodes, gaussLike, gaussInv_eq, gauss2_eq, radauLike, radauInv_eq, lobatoLike, otherSchemes],
    fun j _ => lt_of_le_of_lt degree_le_natDegree (by exact_mod_cast lt_of_le_of_lt (cabin_degree _ _ j) (by norm_num))⟩

example : ([2, 3] : List ℕ) ≠ [] ∧ (∀ q ∈ [2, 3], minPoints "LGR" ≤ q) ∧ (∀ q ∈ [2, 3], collPoints q "LGR" 2 = .ok (LGR q)) ∧ (∀ s < 2, ([0, 1, 4] : List ℝ).getD s 0 ≠ ([0, 1, 4] : List ℝ).getD (s + 1) 0) ∧
    ∀ q ∈ [2, 3], ∀ j < 1, (cabin 9.8 3 j).degree < (2 + q : ℕ) := by
  refine ⟨by decide, by decide, fun q _ => by simp [collPoints], fun s hs => ?_, fun q _ j _ => lt_of_le_of_lt degree_le_natDegree (by exact_mod_cast lt_of_le_of_lt (cabin_degree _ _ j) (by
    simp_all; omega))⟩
  rcases (by omega : s = 0 ∨ s = 1) with rfl | rfl <;> norm_num

/-- A free fall in the lift: the arrays of a body at rest in the cabin, seen from outside. -/
example : (moved (cabin 2 0) 1 (rowTime 0 2 2) ⟨fun i c => if c = 0 then -(i : ℝ) ^ 2 else -2 * i, fun i c => if c = 0 then -2 * i else -2, fun _ _ => 0, fun _ _ => 0⟩).x 2 0 = 0 := by
  norm_num [moved, cabin, rowTime]

end Chords.Frames
