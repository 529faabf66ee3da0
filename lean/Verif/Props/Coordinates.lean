import Verif.Props.TimeUnit

/-! # C191: a linear change of coordinates does not matter -/

namespace Chords.Units
open Finset Polynomial Chords.Points Chords.Bary Chords.BuTd Chords.Equi Chords.PhScheme Chords.Problem Chords.Spec Chords.Props Chords.TimeScale

/-- A change of `n` coordinates: the new ones are `mat` times the old ones plus `origin`, and `back` is the inverse of the matrix `mat`. -/
structure Change (n : ℕ) where
  mat : ℕ → ℕ → ℝ
  back : ℕ → ℕ → ℝ
  origin : ℕ → ℝ
  left : ∀ j < n, ∀ l < n, ∑ k ∈ range n, back j k * mat k l = if j = l then 1 else 0
  right : ∀ j < n, ∀ l < n, ∑ k ∈ range n, mat j k * back k l = if j = l then 1 else 0

/-- A matrix applied to each group of `n` values. -/
noncomputable def lin (n : ℕ) (A : ℕ → ℕ → ℝ) (y : ℕ → ℝ) : ℕ → ℝ := fun c => ∑ k ∈ range n, A (c % n) k * y (n * (c / n) + k)

variable {n : ℕ}

namespace Change

/-- The change back. -/
noncomputable def inv (g : Change n) : Change n := ⟨g.back, g.mat, fun j => -∑ k ∈ range n, g.back j k * g.origin k, g.right, g.left⟩

/-- The row of coordinates, velocities, … in the new coordinates. -/
noncomputable def state (g : Change n) (x : ℕ → ℝ) : ℕ → ℝ := fun c => lin n g.mat x c + if c < n then g.origin c else 0

/-- The arrays in the new coordinates. -/
noncomputable def vars (g : Change n) (v : Vars) : Vars := ⟨fun i => g.state (v.x i), fun i => lin n g.mat (v.xd i), v.u, v.lam⟩

/-- The same system, described with the new coordinates. -/
noncomputable def dyn (g : Change n) (F : Dyn) : Dyn := fun x xd u l => F (g.inv.state x) (lin n g.back xd) u l

end Change

theorem lin_lin (hn : 1 ≤ n) {A B : ℕ → ℕ → ℝ} (h : ∀ j < n, ∀ l < n, ∑ k ∈ range n, B j k * A k l = if j = l then 1 else 0) (y : ℕ → ℝ) :
    lin n B (lin n A y) = y := by
  funext c
  have hc : c % n < n := Nat.mod_lt _ hn
  have e : ∀ k ∈ range n, B (c % n) k * lin n A y (n * (c / n) + k) = ∑ l ∈ range n, B (c % n) k * A k l * y (n * (c / n) + l) := by
    intro k hk
    have hk := mem_range.1 hk
    unfold lin
    rw [Nat.mul_add_mod, Nat.mod_eq_of_lt hk, Nat.mul_add_div hn, Nat.div_eq_of_lt hk, add_zero, mul_sum]
    exact sum_congr rfl fun l _ => by ring
  show ∑ k ∈ range n, _ = _
  rw [sum_congr rfl e, sum_comm]
  simp_rw [← sum_mul]
  rw [sum_congr rfl fun l hl => by rw [h _ hc l (mem_range.1 hl)]]
  simp only [ite_mul, one_mul, zero_mul, sum_ite_eq, mem_range, hc, if_true]
  rw [Nat.div_add_mod]

theorem lin_add (A : ℕ → ℕ → ℝ) (y z : ℕ → ℝ) : lin n A (fun c => y c + z c) = fun c => lin n A y c + lin n A z c := by
  funext c
  simp only [lin, mul_add, sum_add_distrib]

theorem lin_origin (A : ℕ → ℕ → ℝ) (o : ℕ → ℝ) : lin n A (fun c => if c < n then o c else 0) = fun c => if c < n then ∑ k ∈ range n, A c k * o k else 0 := by
  funext c
  unfold lin
  by_cases hc : c < n
  · rw [if_pos hc, Nat.div_eq_of_lt hc, Nat.mod_eq_of_lt hc]
    refine sum_congr rfl fun k hk => ?_
    dsimp only
    rw [mul_zero, zero_add, if_pos (mem_range.1 hk)]
  · rw [if_neg hc]
    refine sum_eq_zero fun k hk => ?_
    have hk := mem_range.1 hk
    have h1 : 1 ≤ c / n := (Nat.one_le_div_iff (by omega)).2 (by omega)
    have h2 : n * 1 ≤ n * (c / n) := Nat.mul_le_mul_left _ h1
    dsimp only
    rw [if_neg (by omega), mul_zero]

namespace Change

theorem state_inv (hn : 1 ≤ n) (g : Change n) (x : ℕ → ℝ) : g.inv.state (g.state x) = x := by
  have h : g.state x = fun c => lin n g.mat x c + if c < n then g.origin c else 0 := rfl
  rw [h]
  funext c
  show lin n g.back _ c + _ = _
  rw [lin_add, lin_lin hn g.left, lin_origin]
  dsimp only
  split
  · simp only [inv]
    ring
  · ring

theorem inv_inv_state (hn : 1 ≤ n) (g : Change n) (x : ℕ → ℝ) : g.inv.inv.state x = g.state x := by
  funext c
  show lin n g.mat x c + _ = lin n g.mat x c + _
  congr 1
  split
  · rename_i hc
    have := congrFun (lin_lin hn g.right fun c => if c < n then g.origin c else 0) c
    rw [lin_origin, lin_origin] at this
    simp only [hc, if_true] at this
    rw [← this]
    simp only [inv, mul_neg, sum_neg_distrib, neg_neg]
  · rfl

theorem vars_inv (hn : 1 ≤ n) (g : Change n) (v : Vars) : g.inv.vars (g.vars v) = v := by
  cases v
  simp only [vars, g.state_inv hn]
  congr
  funext i
  exact lin_lin hn g.left _

theorem dyn_inv (hn : 1 ≤ n) (g : Change n) (F : Dyn) : g.inv.dyn (g.dyn F) = F := by
  funext x xd u l
  show F (g.inv.state (g.inv.inv.state x)) (lin n g.back (lin n g.mat xd)) u l = _
  rw [g.inv_inv_state hn, g.state_inv hn, lin_lin hn g.left]

theorem dyn_vars (hn : 1 ≤ n) (g : Change n) (F : Dyn) (v : Vars) (i m k : ℕ) :
    g.dyn F ((g.vars v).x i) ((g.vars v).xd i) ((g.vars v).u m) ((g.vars v).lam k) = F (v.x i) (v.xd i) (v.u m) (v.lam k) := by
  show F (g.inv.state (g.state (v.x i))) (lin n g.back (lin n g.mat (v.xd i))) _ _ = _
  rw [g.state_inv hn, lin_lin hn g.left]
  rfl

theorem vars_lev (g : Change n) {order k j : ℕ} (v : Vars) (i : ℕ) (ho : 1 ≤ order) (hk : k ≤ order) (hj : j < n) :
    (g.vars v).lev order n k i j = ∑ l ∈ range n, g.mat j l * v.lev order n k i l + if k = 0 then g.origin j else 0 := by
  have hn : 0 < n := by omega
  have e : ∀ k, (n * k + j) / n = k := fun k => by rw [Nat.mul_add_div hn, Nat.div_eq_of_lt hj, add_zero]
  have e' : ∀ k, (n * k + j) % n = j := fun k => by rw [Nat.mul_add_mod, Nat.mod_eq_of_lt hj]
  unfold Vars.lev
  split
  · simp only [vars, state, lin, e, e']
    congr 1
    by_cases h0 : k = 0
    · subst h0
      simp [hj]
    · have : n * 1 ≤ n * k := Nat.mul_le_mul_left _ (by omega)
      rw [if_neg h0, if_neg (by omega)]
  · simp only [vars, lin, e, e']
    rw [if_neg (by omega), add_zero]

end Change

/-! ## Equispaced problems -/

theorem Reached.add {s : Shape} {M : ℕ} {x xn xc y yn yc : ℕ → ℝ} {a an ac d dn dc h : ℝ} (hr : Reached s M x xn xc a an ac h) (hr' : Reached s M y yn yc d dn dc h) :
    Reached s M (fun p => x p + y p) (fun p => xn p + yn p) (fun p => xc p + yc p) (a + d) (an + dn) (ac + dc) h := by
  obtain ⟨c, c1, c2, c3⟩ := hr
  obtain ⟨e, e1, e2, e3⟩ := hr'
  refine ⟨fun k t => c k t + e k t, ?_, fun p hp => by dsimp only; rw [c2 p hp, e2 p hp], fun θ hθ p hp => by dsimp only; rw [c3 θ hθ p hp, e3 θ hθ p hp]⟩
  cases s with
  | line =>
    obtain ⟨b, hb⟩ := c1.top_line
    obtain ⟨b', hb'⟩ := e1.top_line
    refine ⟨fun k t => (c1.motion k t).add (e1.motion k t), fun p hp => by rw [c1.start p hp, e1.start p hp], ⟨b + b', fun t => ?_⟩, by rw [c1.top_end, e1.top_end]⟩
    rw [hb, hb']
    simp only [smul_eq_mul]
    ring
  | parab θ =>
    obtain ⟨b, f, hb⟩ := c1.top_parabola
    obtain ⟨b', f', hb'⟩ := e1.top_parabola
    refine ⟨fun k t => (c1.motion k t).add (e1.motion k t), fun p hp => by rw [c1.start p hp, e1.start p hp], ⟨b + b', f + f', fun t => ?_⟩, by rw [c1.top_mid, e1.top_mid],
      by rw [c1.top_end, e1.top_end]⟩
    rw [hb, hb']
    simp only [smul_eq_mul]
    ring

theorem Reached.const (s : Shape) {M : ℕ} (hM : 1 ≤ M) (o h : ℝ) :
    Reached s M (fun p => if p = 0 then o else 0) (fun p => if p = 0 then o else 0) (fun p => if p = 0 then o else 0) 0 0 0 h := by
  have hm : Motion fun k (_ : ℝ) => if k = 0 then o else 0 := fun k t => by
    dsimp only
    rw [if_neg (Nat.succ_ne_zero k)]
    exact hasDerivAt_const _ _
  have h0 : M ≠ 0 := by omega
  refine ⟨fun k _ => if k = 0 then o else 0, ?_, fun p hp => rfl, fun θ hθ p hp => rfl⟩
  cases s with
  | line => exact ⟨hm, fun p hp => rfl, ⟨0, fun t => by simp [h0]⟩, by simp [h0]⟩
  | parab θ => exact ⟨hm, fun p hp => rfl, ⟨0, 0, fun t => by simp [h0]⟩, by simp [h0], by simp [h0]⟩

theorem Reached.sum {s : Shape} {M : ℕ} (hM : 1 ≤ M) {x xn xc : ℕ → ℕ → ℝ} {a an ac A : ℕ → ℝ} {h : ℝ} (o : ℝ) (m : ℕ)
    (hr : ∀ l < m, Reached s M (x l) (xn l) (xc l) (a l) (an l) (ac l) h) :
    Reached s M (fun p => ∑ l ∈ range m, A l * x l p + if p = 0 then o else 0) (fun p => ∑ l ∈ range m, A l * xn l p + if p = 0 then o else 0)
      (fun p => ∑ l ∈ range m, A l * xc l p + if p = 0 then o else 0) (∑ l ∈ range m, A l * a l) (∑ l ∈ range m, A l * an l) (∑ l ∈ range m, A l * ac l) h := by
  induction m with
  | zero =>
    simp only [range_zero, sum_empty, zero_add]
    exact Reached.const s hM o h
  | succ m ih =>
    have := Reached.add (Reached.mul (A m) (hr m (by omega))) (ih fun l hl => hr l (by omega))
    have e : ∀ (y : ℕ → ℝ) (z : ℝ), ∑ l ∈ range (m + 1), A l * y l + z = A m * y m + (∑ l ∈ range m, A l * y l + z) := fun y z => by
      rw [sum_range_succ]; ring
    have e' : ∀ (y : ℕ → ℝ), ∑ l ∈ range (m + 1), A l * y l = A m * y m + ∑ l ∈ range m, A l * y l := fun y => by
      rw [sum_range_succ]; ring
    rw [e', e', e']
    simp only [e]
    exact this

section
variable {scheme : String} {s : Shape} {order N n_u : ℕ} {t0 t1 : ℝ}

private theorem motion_half (hn : 1 ≤ n) (g : Change n) (F : Dyn) (hs : SchemeIs (some order) scheme s order) (ho : 1 ≤ order) (hN : 0 < N) (ht : t0 ≠ t1)
    {P P' : Vars → Vars → Prop} (hP : equiConstraints F scheme N order n n_u t0 t1 = .ok P)
    (hP' : equiConstraints (g.dyn F) scheme N order n n_u t0 t1 = .ok P') {v c : Vars} (h : P v c) : P' (g.vars v) (g.vars c) := by
  obtain ⟨Q, hQ, hv⟩ := C91_motion F hs N n n_u hN ht
  obtain rfl := Except.ok.inj (hP.symm.trans hQ)
  obtain ⟨Q', hQ', hv'⟩ := C91_motion (g.dyn F) hs N n n_u hN ht
  obtain rfl := Except.ok.inj (hP'.symm.trans hQ')
  obtain ⟨h1, h2, h3⟩ := (hv v c).1 h
  refine (hv' _ _).2 ⟨fun i hi j hj => ?_, fun i hi => by rw [g.dyn_vars hn]; exact h2 i hi, fun θ hθ => ⟨fun i hi => by
    rw [g.dyn_vars hn]; exact (h3 θ hθ).1 i hi, (h3 θ hθ).2⟩⟩
  have := Reached.sum (A := g.mat j) ho (g.origin j) n fun l hl => h1 i hi l hl
  simp only [g.vars_lev _ _ ho le_rfl hj, show order ≠ 0 by omega, if_false, add_zero]
  refine Conv.reached_congr ?_ ?_ ?_ this <;> exact fun p hp => (g.vars_lev _ _ ho hp.le hj).symm

private theorem levels_half (hn : 1 ≤ n) (g : Change n) (F : Dyn)
    (hs : scheme = "trapz" ∧ s = .line ∨ (scheme = "hs" ∨ scheme = "hs_parab") ∧ s = .parab (1 / 2)) (ho : 1 ≤ order) (hN : 0 < N) (ht : t0 ≠ t1)
    {P P' : Vars → Vars → Prop} (hP : equiConstraints F scheme N order n n_u t0 t1 = .ok P)
    (hP' : equiConstraints (g.dyn F) scheme N order n n_u t0 t1 = .ok P') {v c : Vars} (h : P v c) : P' (g.vars v) (g.vars c) := by
  obtain ⟨Q, hQ, hv⟩ := C91_levels F hs N order n n_u hN ht
  obtain rfl := Except.ok.inj (hP.symm.trans hQ)
  obtain ⟨Q', hQ', hv'⟩ := C91_levels (g.dyn F) hs N order n n_u hN ht
  obtain rfl := Except.ok.inj (hP'.symm.trans hQ')
  obtain ⟨h1, h2, h3⟩ := (hv v c).1 h
  refine (hv' _ _).2 ⟨fun i hi j hj p hp => ?_, fun i hi => by rw [g.dyn_vars hn]; exact h2 i hi, fun hl => ⟨fun i hi => by
    rw [g.dyn_vars hn]; exact (h3 hl).1 i hi, (h3 hl).2⟩⟩
  have := Reached.sum (A := g.mat j) le_rfl (if p = 0 then g.origin j else 0) n fun l hl => h1 i hi l hl p hp
  simp only [g.vars_lev _ _ ho hp.le hj, g.vars_lev _ _ ho (show p + 1 ≤ order by omega) hj, show p + 1 ≠ 0 by omega, if_false, add_zero]
  refine Conv.reached_congr ?_ ?_ ?_ this <;>
  · intro q hq
    obtain rfl : q = 0 := by omega
    simp

private theorem usable_ok (hs : Usable scheme order) (F : Dyn) (hN : 0 < N) (ht : t0 ≠ t1) :
    ∃ P, equiConstraints F scheme N order n n_u t0 t1 = .ok P := by
  obtain ⟨s, hs⟩ | hs | ⟨rfl, rfl⟩ := hs
  · obtain ⟨P, h, -⟩ := C91_motion F hs N n n_u hN ht
    exact ⟨P, h⟩
  · simp only [List.mem_cons, List.not_mem_nil, or_false] at hs
    obtain rfl | hs := hs
    · obtain ⟨P, h, -⟩ := C91_levels F (.inl ⟨rfl, rfl⟩) N order n n_u hN ht
      exact ⟨P, h⟩
    · obtain ⟨P, h, -⟩ := C91_levels F (.inr ⟨hs, rfl⟩) N order n n_u hN ht
      exact ⟨P, h⟩
  · obtain ⟨P, h, -⟩ := C91_motion F .hsj_parab N n n_u hN ht
    exact ⟨P, h⟩

private theorem usable_half (hn : 1 ≤ n) (g : Change n) (F : Dyn) (hs : Usable scheme order) (ho : 1 ≤ order) (hN : 0 < N) (ht : t0 ≠ t1)
    {P P' : Vars → Vars → Prop} (hP : equiConstraints F scheme N order n n_u t0 t1 = .ok P)
    (hP' : equiConstraints (g.dyn F) scheme N order n n_u t0 t1 = .ok P') {v c : Vars} (h : P v c) : P' (g.vars v) (g.vars c) := by
  obtain ⟨s, hs⟩ | hs | ⟨rfl, rfl⟩ := hs
  · exact motion_half hn g F hs ho hN ht hP hP' h
  · simp only [List.mem_cons, List.not_mem_nil, or_false] at hs
    obtain rfl | hs := hs
    · exact levels_half hn g F (.inl ⟨rfl, rfl⟩) ho hN ht hP hP' h
    · exact levels_half hn g F (.inr ⟨hs, rfl⟩) ho hN ht hP hP' h
  · rw [C91_hsj_parab_mod] at hP hP'
    exact motion_half hn g F .hsj_parab ho hN ht hP hP' h

/-- C191, equispaced problems: a trajectory is feasible if and only if it is when it and the system are written in other coordinates. -/
theorem C191_equispaced (hn : 1 ≤ n) (g : Change n) (hs : Usable scheme order) (ho : 1 ≤ order) (hN : 0 < N) (F : Dyn) (n_u : ℕ) (ht : t0 ≠ t1) :
    ∃ P P', equiConstraints F scheme N order n n_u t0 t1 = .ok P ∧ equiConstraints (g.dyn F) scheme N order n n_u t0 t1 = .ok P' ∧
      ∀ v c, P v c ↔ P' (g.vars v) (g.vars c) := by
  obtain ⟨P, hP⟩ := usable_ok (n := n) (n_u := n_u) hs F hN ht
  obtain ⟨P', hP'⟩ := usable_ok (n := n) (n_u := n_u) hs (g.dyn F) hN ht
  refine ⟨P, P', hP, hP', fun v c => ⟨usable_half hn g F hs ho hN ht hP hP', fun h => ?_⟩⟩
  have := usable_half hn g.inv (g.dyn F) hs ho hN ht hP' (P' := P) (by rw [g.dyn_inv hn]; exact hP) h
  rwa [g.vars_inv hn, g.vars_inv hn] at this
end

/-! ## Polynomials -/

/-- The polynomials of the new coordinates from those of the old ones. -/
noncomputable def Change.poly (g : Change n) (Q : ℕ → ℝ[X]) (j : ℕ) : ℝ[X] := ∑ l ∈ range n, C (g.mat j l) * Q l + C (g.origin j)

private theorem sum_degree {A : ℕ → ℝ} {Q : ℕ → ℝ[X]} {m : ℕ} (hQ : ∀ l < n, (Q l).degree < (m : ℕ)) :
    (∑ l ∈ range n, C (A l) * Q l).degree < (m : ℕ) := by
  refine lt_of_le_of_lt (degree_sum_le _ _) ((Finset.sup_lt_iff (WithBot.bot_lt_coe _)).2 fun l hl => ?_)
  rw [← smul_eq_C_mul]
  exact lt_of_le_of_lt (degree_smul_le _ _) (hQ l (mem_range.1 hl))

private theorem deg_add {p : ℝ[X]} {m : ℕ} (hm : 1 ≤ m) (hp : p.degree < (m : ℕ)) (o : ℝ) : (p + C o).degree < (m : ℕ) :=
  lt_of_le_of_lt (degree_add_le _ _) (max_lt hp (lt_of_le_of_lt degree_C_le (by exact_mod_cast hm)))

theorem Change.poly_degree (g : Change n) {Q : ℕ → ℝ[X]} {m : ℕ} (hm : 1 ≤ m) (hQ : ∀ l < n, (Q l).degree < (m : ℕ)) (j : ℕ) : (g.poly Q j).degree < (m : ℕ) :=
  deg_add hm (sum_degree hQ) _

theorem Change.poly_eval (g : Change n) (Q : ℕ → ℝ[X]) (j k : ℕ) (t : ℝ) : (derivative^[k] (g.poly Q j)).eval t =
    ∑ l ∈ range n, g.mat j l * (derivative^[k] (Q l)).eval t + if k = 0 then g.origin j else 0 := by
  unfold Change.poly
  rw [iterate_map_add, iterate_derivative_sum, eval_add, eval_finset_sum]
  congr 1
  · refine sum_congr rfl fun l _ => ?_
    rw [iterate_derivative_C_mul, eval_mul, eval_C]
  · split
    · subst_vars; simp
    · rw [iterate_derivative_C (by omega), eval_zero]

theorem Change.traj (g : Change n) {v : Vars} {order deg : ℕ} {taus : List ℝ} {t0 t1 : ℝ} (hd : 1 ≤ deg) (ho : 1 ≤ order)
    (h : IsTrajectory v order n deg taus t0 t1) : IsTrajectory (g.vars v) order n deg taus t0 t1 := by
  obtain ⟨Q, hQ⟩ := h
  refine ⟨g.poly Q, fun j hj => ⟨g.poly_degree hd (fun l hl => (hQ l hl).1) j, fun k hk i hi => ?_⟩⟩
  rw [g.vars_lev _ _ ho hk hj, g.poly_eval]
  congr 1
  exact sum_congr rfl fun l hl => by rw [(hQ l (mem_range.1 hl)).2 k hk i hi]

theorem Change.coll (hn : 1 ≤ n) (g : Change n) {F : Dyn} {v : Vars} {taus coll : List ℝ} (h : Collocated F v taus coll) :
    Collocated (g.dyn F) (g.vars v) taus coll := by
  intro m hm
  obtain ⟨i, hi, h1, h2⟩ := h m hm
  exact ⟨i, hi, h1, by rw [g.dyn_vars hn]; exact h2⟩

/-- The polynomials of the columns of the arrays in the new coordinates. -/
noncomputable def Change.cols (g : Change n) (p : ℕ → ℝ[X]) (c : ℕ) : ℝ[X] :=
  ∑ l ∈ range n, C (g.mat (c % n) l) * p (n * (c / n) + l) + C (if c < n then g.origin c else 0)

private theorem col_lt {order c l : ℕ} (hc : c < order * n) (hl : l < n) : n * (c / n) + l < order * n := by
  have h : c / n + 1 ≤ order := Nat.div_lt_of_lt_mul (by rwa [mul_comm])
  calc n * (c / n) + l < n * (c / n) + n := by omega
    _ = (c / n + 1) * n := by ring
    _ ≤ order * n := Nat.mul_le_mul_right _ h

private theorem col_ge {d c l : ℕ} (hc : n * d ≤ c) (hn : 0 < n) : n * d ≤ n * (c / n) + l := by
  have h : d ≤ c / n := (Nat.le_div_iff_mul_le hn).2 (by rwa [mul_comm])
  have := Nat.mul_le_mul_left n h
  omega

theorem Change.cols_degree (g : Change n) {p : ℕ → ℝ[X]} {order m : ℕ} (hm : 1 ≤ m) (hp : ∀ c < order * n, (p c).degree < (m : ℕ)) {c : ℕ} (hc : c < order * n) :
    (g.cols p c).degree < (m : ℕ) :=
  deg_add hm (sum_degree fun _ hl => hp _ (col_lt hc hl)) _

theorem Change.cols_eval (g : Change n) {p : ℕ → ℝ[X]} {order : ℕ} {y : ℕ → ℝ} {t : ℝ} (h : ∀ c < order * n, y c = (p c).eval t) {c : ℕ} (hc : c < order * n) :
    g.state y c = (g.cols p c).eval t := by
  unfold Change.cols Change.state lin
  rw [eval_add, eval_C, eval_finset_sum]
  congr 1
  refine sum_congr rfl fun l hl => ?_
  rw [eval_mul, eval_C, h _ (col_lt hc (mem_range.1 hl))]

theorem Change.cols_deriv (g : Change n) {p : ℕ → ℝ[X]} {c : ℕ} {y : ℕ → ℝ} {t : ℝ} (h : ∀ l < n, y (n * (c / n) + l) = (derivative (p (n * (c / n) + l))).eval t) :
    lin n g.mat y c = (derivative (g.cols p c)).eval t := by
  unfold Change.cols lin
  rw [derivative_add, derivative_C, add_zero, derivative_sum, eval_finset_sum]
  refine sum_congr rfl fun l hl => ?_
  rw [derivative_C_mul, eval_mul, eval_C, h l (mem_range.1 hl)]

theorem Change.ntraj (hn : 1 ≤ n) (g : Change n) {v : Vars} {order m : ℕ} {nodes taus : List ℝ} {t0 t1 : ℝ} (hm : 1 ≤ m)
    (h : IsNodeTrajectory v order n m nodes taus t0 t1) : IsNodeTrajectory (g.vars v) order n m nodes taus t0 t1 := by
  obtain ⟨p, hp⟩ := h
  refine ⟨g.cols p, fun c hc => ⟨g.cols_degree hm (fun c hc => (hp c hc).1) hc, fun i hi => ⟨?_, fun hh => ?_⟩⟩⟩
  · exact g.cols_eval (fun c hc => ((hp c hc).2 i hi).1) hc
  · exact g.cols_deriv fun l hl => ((hp _ (col_lt hc hl)).2 i hi).2 (hh.imp_right fun h => col_ge h hn)

/-! ## Pseudospectral problems of one interval -/

/-- C191, bottom-up problems. -/
theorem C191_bu (hn : 1 ≤ n) (g : Change n) {scheme : String} (hs : scheme ∈ buImplemented) {order : ℕ} (ho : 1 ≤ order) {N : ℕ}
    (hN : minPoints scheme ≤ N) (h1 : 2 ≤ N ∨ scheme ∉ gaussLike) (F : Dyn) {t0 t1 : ℝ} (ht : t0 ≠ t1) :
    ∃ C C', buConstraints F scheme N order n t0 t1 = .ok C ∧ buConstraints (g.dyn F) scheme N order n t0 t1 = .ok C' ∧ ∀ v, C v ↔ C' (g.vars v) := by
  obtain ⟨coll, full, C, k1, k2, hC, hv⟩ := C30_feasible hs ho hN h1 F n ht
  obtain ⟨coll', full', C', k1', k2', hC', hv'⟩ := C30_feasible hs ho hN h1 (g.dyn F) n ht
  obtain rfl := Except.ok.inj (k1.symm.trans k1')
  obtain rfl := Except.ok.inj (k2.symm.trans k2')
  refine ⟨C, C', hC, hC', fun v => ?_⟩
  rw [hv, hv']
  refine ⟨fun h => ⟨g.traj (by omega) ho h.1, g.coll hn h.2⟩, fun h => ⟨?_, ?_⟩⟩
  · have := g.inv.traj (by omega) ho h.1
    rwa [g.vars_inv hn] at this
  · have := g.inv.coll hn h.2
    rwa [g.vars_inv hn, g.dyn_inv hn] at this

/-- C191, top-down problems. -/
theorem C191_td (hn : 1 ≤ n) (g : Change n) {scheme : String} (hs : scheme ∈ buImplemented) {order : ℕ} (ho : 1 ≤ order) {N : ℕ}
    (hN : minPoints scheme ≤ N) (F : Dyn) {t0 t1 : ℝ} (ht : t0 ≠ t1) :
    ∃ C C', tdConstraints F scheme N order n t0 t1 = .ok C ∧ tdConstraints (g.dyn F) scheme N order n t0 t1 = .ok C' ∧
      ∀ v, (∃ q, C v q) ↔ ∃ q, C' (g.vars v) q := by
  obtain ⟨coll, full, nu, C, k1, k2, -, hC, hv, -⟩ := C31_feasible hs ho hN F n ht
  obtain ⟨coll', full', nu', C', k1', k2', -, hC', hv', -⟩ := C31_feasible hs ho hN (g.dyn F) n ht
  obtain rfl := Except.ok.inj (k1.symm.trans k1')
  obtain rfl := Except.ok.inj (k2.symm.trans k2')
  refine ⟨C, C', hC, hC', fun v => ?_⟩
  rw [hv, hv']
  refine ⟨fun h => ⟨g.traj (by omega) ho h.1, g.coll hn h.2⟩, fun h => ⟨?_, ?_⟩⟩
  · have := g.inv.traj (by omega) ho h.1
    rwa [g.vars_inv hn] at this
  · have := g.inv.coll hn h.2
    rwa [g.vars_inv hn, g.dyn_inv hn] at this

/-- C191, node based problems. -/
theorem C191_node (hn : 1 ≤ n) (g : Change n) {scheme : String} (hs : scheme ∈ implemented) (h2 : scheme ∉ gauss2 ++ ["D2"]) {order : ℕ}
    (ho : 1 ≤ order) (hord : order ≤ 2 ∨ scheme ∉ gaussLike ++ gaussInv) {N : ℕ} (hN : minPoints scheme ≤ N) (F : Dyn) {t0 t1 : ℝ} (ht : t0 ≠ t1) :
    ∃ C C', nodeConstraints F scheme N order n t0 t1 = .ok C ∧ nodeConstraints (g.dyn F) scheme N order n t0 t1 = .ok C' ∧ ∀ v, C v ↔ C' (g.vars v) := by
  obtain ⟨coll, m, nodes, full, C, k1, k2, k3, k4, hC, hv⟩ := C73_feasible hs h2 ho hord hN F n ht
  obtain ⟨coll', m', nodes', full', C', k1', k2', k3', k4', hC', hv'⟩ := C73_feasible hs h2 ho hord hN (g.dyn F) n ht
  obtain rfl := Except.ok.inj (k1.symm.trans k1')
  obtain rfl := Except.ok.inj (k2.symm.trans k2')
  obtain rfl := Except.ok.inj (k3.symm.trans k3')
  obtain rfl := Except.ok.inj (k4.symm.trans k4')
  have hm : 1 ≤ m := by
    obtain ⟨_, m', _, _, -, j2, -, -, -, -, -, -, -, j10, -⟩ := node_rows hs hN
    obtain rfl := Except.ok.inj (k2.symm.trans j2)
    exact j10
  refine ⟨C, C', hC, hC', fun v => ?_⟩
  rw [hv, hv']
  refine ⟨fun h => ⟨g.ntraj hn hm h.1, g.coll hn h.2⟩, fun h => ⟨?_, ?_⟩⟩
  · have := g.inv.ntraj hn hm h.1
    rwa [g.vars_inv hn] at this
  · have := g.inv.coll hn h.2
    rwa [g.vars_inv hn, g.dyn_inv hn] at this

/-- C191, node based problems with the schemes that differentiate twice. -/
theorem C191_node_second (hn : 1 ≤ n) (g : Change n) {scheme : String} (h2 : scheme ∈ gauss2 ++ ["D2"]) {N : ℕ} (hN : minPoints scheme ≤ N) (F : Dyn) {t0 t1 : ℝ}
    (ht : t0 ≠ t1) :
    ∃ C C', nodeConstraints F scheme N 2 n t0 t1 = .ok C ∧ nodeConstraints (g.dyn F) scheme N 2 n t0 t1 = .ok C' ∧ ∀ v, C v ↔ C' (g.vars v) := by
  obtain ⟨coll, m, full, C, k1, k2, k3, hC, hv⟩ := C73_second h2 hN F n ht
  obtain ⟨coll', m', full', C', k1', k2', k3', hC', hv'⟩ := C73_second h2 hN (g.dyn F) n ht
  obtain rfl := Except.ok.inj (k1.symm.trans k1')
  obtain rfl := Except.ok.inj (k2.symm.trans k2')
  obtain rfl := Except.ok.inj (k3.symm.trans k3')
  have hm : 1 ≤ m := by
    obtain ⟨_, m', _, _, -, j2, -, -, -, -, -, -, -, j10, -⟩ := node_rows (scheme := scheme) (by
      rw [gauss2_eq] at h2
      simp only [List.cons_append, List.nil_append, List.mem_cons, List.not_mem_nil, or_false] at h2
      rcases h2 with rfl | rfl | rfl | rfl | rfl <;> decide) hN
    obtain rfl := Except.ok.inj (k2.symm.trans j2)
    exact j10
  refine ⟨C, C', hC, hC', fun v => ?_⟩
  rw [hv, hv']
  refine ⟨fun h => ⟨g.traj hm (by norm_num) h.1, g.coll hn h.2⟩, fun h => ⟨?_, ?_⟩⟩
  · have := g.inv.traj hm (by norm_num) h.1
    rwa [g.vars_inv hn] at this
  · have := g.inv.coll hn h.2
    rwa [g.vars_inv hn, g.dyn_inv hn] at this

/-! ## Problems with several segments -/

theorem Change.shift (g : Change n) {v : Vars} {order : ℕ} {points : List ℕ} {s : ℕ} (h : KnotShift v order n points s) : KnotShift (g.vars v) order n points s := by
  intro c hc
  have hq : 0 < n := Nat.pos_of_ne_zero fun e => by simp [e] at hc
  have e1 : (n + c) / n = c / n + 1 := by rw [Nat.add_div_left _ hq]
  have e2 : (n + c) % n = c % n := by rw [Nat.add_mod_left]
  simp only [Change.vars, Change.state, lin, e1, e2]
  rw [if_neg (by omega), add_zero]
  refine sum_congr rfl fun l hl => ?_
  rw [← h _ (col_lt hc (mem_range.1 hl))]
  congr 2
  ring

theorem Change.phColl (hn : 1 ≤ n) (g : Change n) {F : Dyn} {v : Vars} {points : List ℕ} (h : PhCollocated F v points) : PhCollocated (g.dyn F) (g.vars v) points := by
  intro s hs m hm
  rw [g.dyn_vars hn]
  exact h s hs m hm

theorem Change.segPoly (g : Change n) {v : Vars} {order : ℕ} {points : List ℕ} {coll : ℕ → List ℝ} {T : ℕ → ℝ} (ho : 1 ≤ order) {s : ℕ} {Q : ℕ → ℝ[X]}
    (h : SegPoly v order n points coll T s Q) : SegPoly (g.vars v) order n points coll T s (g.poly Q) := by
  intro j hj
  refine ⟨g.poly_degree (by omega) (fun l hl => (h l hl).1) j, fun k hk => ?_, fun k hk m hm => ?_⟩
  · rw [g.vars_lev _ _ ho hk.le hj, g.vars_lev _ _ ho hk.le hj, g.poly_eval, g.poly_eval]
    constructor <;> congr 1 <;> refine sum_congr rfl fun l hl => ?_
    · rw [((h l (mem_range.1 hl)).2.1 k hk).1]
    · rw [((h l (mem_range.1 hl)).2.1 k hk).2]
  · rw [g.vars_lev _ _ ho hk hj, g.poly_eval]
    congr 1
    refine sum_congr rfl fun l hl => ?_
    rw [(h l (mem_range.1 hl)).2.2 k hk m hm]

private theorem top (g : Change n) {v : Vars} {order : ℕ} (ho : 1 ≤ order) {Q : ℕ → ℝ[X]} {i : ℕ} {t : ℝ}
    (h : ∀ j < n, v.lev order n order i j = (derivative^[order] (Q j)).eval t) {j : ℕ} (hj : j < n) :
    (g.vars v).lev order n order i j = (derivative^[order] (g.poly Q j)).eval t := by
  rw [g.vars_lev _ _ ho le_rfl hj, g.poly_eval]
  congr 1
  exact sum_congr rfl fun l hl => by rw [h l (mem_range.1 hl)]

section
variable {order n_u : ℕ} {points : List ℕ} {coll : ℕ → List ℝ} {ext : List ℝ}

/-- C191, bottom-up problems with several segments. -/
theorem C191_segments_bu (hn : 1 ≤ n) (g : Change n) {scheme : String} (hs : scheme ∈ buImplemented) (ho : 1 ≤ order) (F : Dyn) (n_u : ℕ)
    (h0 : points ≠ []) (hN : ∀ p ∈ points, minPoints scheme ≤ p) (h1 : (∀ p ∈ points, 2 ≤ p) ∨ scheme ∉ gaussLike)
    (hcoll : ∀ p ∈ points, collPoints p scheme order = .ok (coll p)) (hl : ext.length = points.length + 1)
    (ht : ∀ s < points.length, ext.getD s 0 ≠ ext.getD (s + 1) 0) :
    ∃ C C', phConstraints F .bu scheme order n n_u points ext = .ok C ∧ phConstraints (g.dyn F) .bu scheme order n n_u points ext = .ok C' ∧
      ∀ v q q', C v q ↔ C' (g.vars v) q' := by
  have key : ∀ (g : Change n) (F : Dyn), ∃ C C', phConstraints F .bu scheme order n n_u points ext = .ok C ∧
      phConstraints (g.dyn F) .bu scheme order n n_u points ext = .ok C' ∧ ∀ v q q', C v q → C' (g.vars v) q' := by
    intro g F
    obtain ⟨C, hC, hv⟩ := C99_feasible hs ho F n n_u h0 hN h1 hcoll hl ht
    obtain ⟨C', hC', hv'⟩ := C99_feasible hs ho (g.dyn F) n n_u h0 hN h1 hcoll hl ht
    refine ⟨C, C', hC, hC', fun v q q' h => ?_⟩
    obtain ⟨⟨Q, k1⟩, k2, k3, k4⟩ := (hv v q).1 h
    exact (hv' _ _).2 ⟨⟨fun s => g.poly (Q s), fun s h => ⟨g.segPoly ho (k1 s h).1, fun j hj => top g ho (k1 s h).2.1 hj, fun e j hj => top g ho ((k1 s h).2.2 e) hj⟩⟩,
      fun s h => g.shift (k2 s h), g.phColl hn k3, k4⟩
  obtain ⟨C, C', hC, hC', h⟩ := key g F
  refine ⟨C, C', hC, hC', fun v q q' => ⟨h v q q', fun hv => ?_⟩⟩
  obtain ⟨D, D', hD, hD', k⟩ := key g.inv (g.dyn F)
  rw [g.dyn_inv hn] at hD'
  obtain rfl := Except.ok.inj (hC'.symm.trans hD)
  obtain rfl := Except.ok.inj (hC.symm.trans hD')
  have := k _ q' q hv
  rwa [g.vars_inv hn] at this

/-- C191, top-down problems with several segments. -/
theorem C191_segments_td (hn : 1 ≤ n) (g : Change n) {scheme : String} (hs : scheme ∈ buImplemented) (ho : 1 ≤ order) (F : Dyn) (n_u : ℕ)
    (h0 : points ≠ []) (hN : ∀ p ∈ points, minPoints scheme ≤ p)
    (hcoll : ∀ p ∈ points, collPoints p scheme order = .ok (coll p)) (hl : ext.length = points.length + 1)
    (ht : ∀ s < points.length, ext.getD s 0 ≠ ext.getD (s + 1) 0) :
    ∃ C C', phConstraints F .td scheme order n n_u points ext = .ok C ∧ phConstraints (g.dyn F) .td scheme order n n_u points ext = .ok C' ∧
      ∀ v, (∃ q, C v q) ↔ ∃ q, C' (g.vars v) q := by
  have key : ∀ (g : Change n) (F : Dyn), ∃ C C', phConstraints F .td scheme order n n_u points ext = .ok C ∧
      phConstraints (g.dyn F) .td scheme order n n_u points ext = .ok C' ∧ ∀ v, (∃ q, C v q) → ∃ q, C' (g.vars v) q := by
    intro g F
    obtain ⟨C, hC, hv⟩ := C100_feasible hs ho F n n_u h0 hN hcoll hl ht
    obtain ⟨C', hC', hv'⟩ := C100_feasible hs ho (g.dyn F) n n_u h0 hN hcoll hl ht
    refine ⟨C, C', hC, hC', fun v h => ?_⟩
    obtain ⟨⟨Q, k1⟩, k2, k3, k4⟩ := (hv v).1 h
    exact (hv' _).2 ⟨⟨fun s => g.poly (Q s), fun s h => ⟨g.segPoly ho (k1 s h).1, fun j hj => ⟨top g ho (fun j hj => ((k1 s h).2 j hj).1) hj,
      top g ho (fun j hj => ((k1 s h).2 j hj).2) hj⟩⟩⟩, fun s h => g.shift (k2 s h), g.phColl hn k3, k4⟩
  obtain ⟨C, C', hC, hC', h⟩ := key g F
  refine ⟨C, C', hC, hC', fun v => ⟨h v, fun hv => ?_⟩⟩
  obtain ⟨D, D', hD, hD', k⟩ := key g.inv (g.dyn F)
  rw [g.dyn_inv hn] at hD'
  obtain rfl := Except.ok.inj (hC'.symm.trans hD)
  obtain rfl := Except.ok.inj (hC.symm.trans hD')
  have := k _ hv
  rwa [g.vars_inv hn] at this

/-- C191, node based problems with several segments. -/
theorem C191_segments_node (hn : 1 ≤ n) (g : Change n) {scheme : String} (hs : scheme ∈ implemented) (ho : 1 ≤ order) (hord : order ≤ 2 ∨ scheme ∉ gaussLike ++ gaussInv)
    (F : Dyn) (n_u : ℕ) (h0 : points ≠ []) (hN : ∀ p ∈ points, minPoints scheme ≤ p) {coll2 : ℕ → List ℝ} {m : ℕ → ℕ}
    (hcoll : ∀ p ∈ points, collPoints p scheme order = .ok (coll p)) (hcoll2 : ∀ p ∈ points, collPoints p scheme = .ok (coll2 p))
    (hm : ∀ p ∈ points, nColToNNodes scheme p = .ok (m p)) (hl : ext.length = points.length + 1)
    (ht : ∀ s < points.length, ext.getD s 0 ≠ ext.getD (s + 1) 0) :
    ∃ C C', phConstraints F .node scheme order n n_u points ext = .ok C ∧ phConstraints (g.dyn F) .node scheme order n n_u points ext = .ok C' ∧
      ∀ v q q', C v q ↔ C' (g.vars v) q' := by
  have hm1 : ∀ s < points.length, 1 ≤ m (points.getD s 0) := by
    intro s h
    have hp : points.getD s 0 ∈ points := by
      rw [List.getD_eq_getElem?_getD, List.getElem?_eq_getElem h]
      exact List.getElem_mem _
    obtain ⟨_, m', _, _, -, j2, -, -, -, -, -, -, -, j10, -⟩ := node_rows hs (hN _ hp)
    rw [Except.ok.inj ((hm _ hp).symm.trans j2)]
    exact j10
  have key : ∀ (g : Change n) (F : Dyn), ∃ C C', phConstraints F .node scheme order n n_u points ext = .ok C ∧
      phConstraints (g.dyn F) .node scheme order n n_u points ext = .ok C' ∧ ∀ v q q', C v q → C' (g.vars v) q' := by
    intro g F
    obtain ⟨C, hC, hv⟩ := C101_feasible hs ho hord F n n_u h0 hN hcoll hcoll2 hm hl ht
    obtain ⟨C', hC', hv'⟩ := C101_feasible hs ho hord (g.dyn F) n n_u h0 hN hcoll hcoll2 hm hl ht
    refine ⟨C, C', hC, hC', fun v q q' h => ?_⟩
    obtain ⟨⟨P, k1⟩, k2, k3, k4⟩ := (hv v q).1 h
    refine (hv' _ _).2 ⟨⟨fun s => g.cols (P s), fun s h c hc => ⟨g.cols_degree (hm1 s h) (fun c hc => (k1 s h c hc).1) hc, fun i hi => ⟨?_, ?_⟩, fun e => ⟨?_, ?_⟩, fun e => ?_,
      fun e => ?_⟩⟩, ⟨fun e s h => g.shift (k2.1 e s h), fun e => g.shift (k2.2.1 e), fun e => g.shift (k2.2.2 e)⟩, g.phColl hn k3, k4⟩
    · exact g.cols_eval (fun c hc => ((k1 s h c hc).2.1 i hi).1) hc
    · exact g.cols_deriv fun l hl => ((k1 s h _ (col_lt hc hl)).2.1 i hi).2
    · exact g.cols_eval (fun c hc => ((k1 s h c hc).2.2.1 e).1) hc
    · exact g.cols_eval (fun c hc => ((k1 s h c hc).2.2.1 e).2) hc
    · exact g.cols_deriv fun l hl => (k1 s h _ (col_lt hc hl)).2.2.2.1 (e.imp_right fun e => e.imp_right fun e => ⟨e.1, col_ge e.2 hn⟩)
    · exact g.cols_deriv fun l hl => (k1 s h _ (col_lt hc hl)).2.2.2.2 (e.imp_right fun e => e.imp_right fun e => ⟨e.1, col_ge e.2 hn⟩)
  obtain ⟨C, C', hC, hC', h⟩ := key g F
  refine ⟨C, C', hC, hC', fun v q q' => ⟨h v q q', fun hv => ?_⟩⟩
  obtain ⟨D, D', hD, hD', k⟩ := key g.inv (g.dyn F)
  rw [g.dyn_inv hn] at hD'
  obtain rfl := Except.ok.inj (hC'.symm.trans hD)
  obtain rfl := Except.ok.inj (hC.symm.trans hD')
  have := k _ q' q hv
  rwa [g.vars_inv hn] at this
end

/-! ## Examples -/

/-- The sum and the difference of two coordinates, the first counted from 5. -/
noncomputable def sumDifference : Change 2 where
  mat j l := if j = 1 ∧ l = 1 then -1 else 1
  back j l := if j = 1 ∧ l = 1 then -1 / 2 else 1 / 2
  origin j := if j = 0 then -5 else 0
  left := by intro j hj l hl; interval_cases j <;> interval_cases l <;> norm_num [sum_range_succ]
  right := by intro j hj l hl; interval_cases j <;> interval_cases l <;> norm_num [sum_range_succ]

/-- Two masses joined by a spring, with a force on the first. -/
def twoMasses : Dyn := fun x xd u _ => [xd 2 - (x 1 - x 0) - u 0, xd 3 - (x 0 - x 1)]

/-- In the sum and the difference the two equations are about one coordinate each. -/
example (x xd u l : ℕ → ℝ) : zero (sumDifference.dyn twoMasses x xd u l) ↔ xd 2 = u 0 ∧ xd 3 = -2 * x 1 + u 0 := by
  have e : ∀ a b : ℝ, zero [a, b] ↔ a = 0 ∧ b = 0 := fun a b => by simp [zero]
  simp only [Change.dyn, twoMasses, Change.state, Change.inv, sumDifference, lin, sum_range_succ, sum_range_zero, e]
  norm_num
  constructor
  · rintro ⟨h1, h2⟩
    constructor <;> linarith
  · rintro ⟨h1, h2⟩
    constructor <;> linarith

/-- The same with three points of Gauss, in each kind of problem, with the trapezoidal rule, and with two segments. -/
example : (∃ P P', equiConstraints twoMasses "trapz_mod" 4 2 2 1 0 1 = .ok P ∧ equiConstraints (sumDifference.dyn twoMasses) "trapz_mod" 4 2 2 1 0 1 = .ok P' ∧
      ∀ v c, P v c ↔ P' (sumDifference.vars v) (sumDifference.vars c)) ∧
    (∃ C C', buConstraints twoMasses "LG" 3 2 2 0 1 = .ok C ∧ buConstraints (sumDifference.dyn twoMasses) "LG" 3 2 2 0 1 = .ok C' ∧ ∀ v, C v ↔ C' (sumDifference.vars v)) ∧
    (∃ C C', nodeConstraints twoMasses "LG" 3 2 2 0 1 = .ok C ∧ nodeConstraints (sumDifference.dyn twoMasses) "LG" 3 2 2 0 1 = .ok C' ∧ ∀ v, C v ↔ C' (sumDifference.vars v)) ∧
    ∃ C C', phConstraints twoMasses .bu "LGR" 2 2 1 [2, 2] [0, 1, 3] = .ok C ∧ phConstraints (sumDifference.dyn twoMasses) .bu "LGR" 2 2 1 [2, 2] [0, 1, 3] = .ok C' ∧
      ∀ v q q', C v q ↔ C' (sumDifference.vars v) q' :=
  ⟨C191_equispaced (by norm_num) sumDifference (.inl ⟨_, .trapz_mod⟩) (by norm_num) (by norm_num) twoMasses 1 (by norm_num),
    C191_bu (by norm_num) sumDifference (by decide) (by norm_num) (by decide) (Or.inl (by norm_num)) twoMasses (by norm_num),
    C191_node (by norm_num) sumDifference (by decide) (by decide) (by norm_num) (Or.inl le_rfl) (by decide) twoMasses (by norm_num),
    C191_segments_bu (by norm_num) sumDifference (by decide) (by norm_num) twoMasses 1 (points := [2, 2]) (by simp) (by decide) (Or.inl (by decide)) (coll := fun p => LGR p)
      (fun p _ => by simp [collPoints]) (ext := [0, 1, 3]) (by simp)
      (by intro s hs; simp only [List.length_cons, List.length_nil] at hs; interval_cases s <;> norm_num)⟩

end Chords.Units
