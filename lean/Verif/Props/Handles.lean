import Verif.Props.Coordinates
import Verif.Props.CostPos

/-! # C197: a linear change of the controls does not matter, and a rotation keeps the cost -/

namespace Chords.Units
open Finset Polynomial Chords.Points Chords.Bary Chords.BuTd Chords.Equi Chords.PhScheme Chords.Problem Chords.Spec Chords.Props Chords.TimeScale

variable {n : ℕ}

/-- The arrays with the new controls. -/
noncomputable def Change.ctrl (g : Change n) (v : Vars) : Vars := ⟨v.x, v.xd, fun i => g.state (v.u i), v.lam⟩

/-- The same system, driven with the new controls. -/
noncomputable def Change.driven (g : Change n) (F : Dyn) : Dyn := fun x xd u l => F x xd (g.inv.state u) l

theorem Change.driven_ctrl (hn : 1 ≤ n) (g : Change n) (F : Dyn) (v : Vars) (i m k : ℕ) :
    g.driven F ((g.ctrl v).x i) ((g.ctrl v).xd i) ((g.ctrl v).u m) ((g.ctrl v).lam k) = F (v.x i) (v.xd i) (v.u m) (v.lam k) := by
  show F _ _ (g.inv.state (g.state (v.u m))) _ = _
  rw [g.state_inv hn]
  rfl

theorem Change.driven_inv (hn : 1 ≤ n) (g : Change n) (F : Dyn) : g.inv.driven (g.driven F) = F := by
  funext x xd u l
  show F x xd (g.inv.state (g.inv.inv.state u)) l = _
  rw [g.inv_inv_state hn, g.state_inv hn]

theorem Change.ctrl_inv (hn : 1 ≤ n) (g : Change n) (v : Vars) : g.inv.ctrl (g.ctrl v) = v := by
  show (⟨v.x, v.xd, fun i => g.inv.state (g.state (v.u i)), v.lam⟩ : Vars) = v
  simp only [g.state_inv hn]

theorem Change.state_lt (g : Change n) (y : ℕ → ℝ) {c : ℕ} (hc : c < n) : g.state y c = ∑ k ∈ range n, g.mat c k * y k + g.origin c := by
  simp [Change.state, lin, Nat.mod_eq_of_lt hc, Nat.div_eq_of_lt hc, hc]

/-! ## One interval -/

section
variable {scheme : String} {order N n_q : ℕ} {t0 t1 : ℝ}

private theorem centre_half (g : Change n) {u un uc : ℕ → ℝ} (h : ∀ m < n, uc m = centreU scheme (u m) (un m)) : ∀ m < n, g.state uc m = centreU scheme (g.state u m) (g.state un m) := by
  intro m hm
  rw [g.state_lt _ hm, g.state_lt _ hm, g.state_lt _ hm, sum_congr rfl fun k hk => by rw [h k (mem_range.1 hk)]]
  unfold centreU
  split
  · simp only [mul_add, sum_add_distrib, mul_sum]
    rw [sum_congr rfl fun k _ => show g.mat m k * (0.6 * u k) = 0.6 * (g.mat m k * u k) by ring, sum_congr rfl fun k _ => show g.mat m k * (0.4 * un k) = 0.4 * (g.mat m k * un k) by ring]
    norm_num
    ring
  · rw [sum_congr rfl fun k _ => show g.mat m k * ((u k + un k) / 2) = (g.mat m k * u k) / 2 + (g.mat m k * un k) / 2 by ring, sum_add_distrib, ← sum_div, ← sum_div]
    ring

private theorem centre_iff (hn : 1 ≤ n) (g : Change n) (u un uc : ℕ → ℝ) : (∀ m < n, g.state uc m = centreU scheme (g.state u m) (g.state un m)) ↔ ∀ m < n, uc m = centreU scheme (u m) (un m) := by
  refine ⟨fun h => ?_, centre_half g⟩
  have := centre_half g.inv h
  simpa only [g.state_inv hn] using this

/-- C197, equispaced problems: every scheme and order, also those that raise an error. -/
theorem C197_equispaced (hn : 1 ≤ n) (g : Change n) (F : Dyn) (scheme : String) (N order n_q : ℕ) (t0 t1 : ℝ) :
    (equiConstraints (g.driven F) scheme N order n_q n t0 t1).map (fun P v c => P (g.ctrl v) (g.ctrl c)) = equiConstraints F scheme N order n_q n t0 t1 := by
  unfold equiConstraints
  cases h : restrTable scheme order with
  | error e => rfl
  | ok f =>
    refine congrArg Except.ok (funext fun v => funext fun c => propext ?_)
    simp only [g.driven_ctrl hn]
    refine and_congr Iff.rfl (and_congr Iff.rfl (imp_congr Iff.rfl (and_congr Iff.rfl (imp_congr Iff.rfl (forall_congr' fun ii => imp_congr Iff.rfl ?_)))))
    exact centre_iff hn g (v.u ii) (v.u (ii + 1)) (c.u ii)

private theorem dyn_iff (hn : 1 ≤ n) (g : Change n) (F : Dyn) (rows : List ℕ) (v : Vars) : dynConstraints (g.driven F) rows (g.ctrl v) = dynConstraints F rows v := by
  unfold dynConstraints
  simp only [g.driven_ctrl hn]

private theorem step {ε α β γ : Type} {x : Except ε α} {f : α → Except ε β} {f' : α → Except ε γ} {h : γ → β} (H : ∀ a, (f' a).map h = f a) : (x >>= f').map h = x >>= f := by
  cases x with
  | error e => rfl
  | ok a => exact H a

private theorem step_ok {ε α β γ : Type} {a : α} {f : α → Except ε β} {f' : α → Except ε γ} {h : γ → β} (H : (f' a).map h = f a) :
    ((pure a : Except ε α) >>= f').map h = (pure a : Except ε α) >>= f := H

/-- C197, bottom-up problems. -/
theorem C197_bu (hn : 1 ≤ n) (g : Change n) (F : Dyn) (scheme : String) (N order n_q : ℕ) (t0 t1 : ℝ) :
    (buConstraints (g.driven F) scheme N order n_q t0 t1).map (fun P v => P (g.ctrl v)) = buConstraints F scheme N order n_q t0 t1 := by
  unfold buConstraints
  refine step fun full => step fun s => ?_
  dsimp only
  split
  · refine step fun a => step_ok ?_
    dsimp only
    split
    · refine step fun b => step_ok (step fun mats => congrArg Except.ok (_root_.funext fun v => ?_))
      simp only [dyn_iff hn g F]
      rfl
    · refine step_ok (step fun mats => congrArg Except.ok (_root_.funext fun v => ?_))
      simp only [dyn_iff hn g F]
      rfl
  · refine step_ok ?_
    dsimp only
    split
    · refine step fun b => step_ok (step fun mats => congrArg Except.ok (_root_.funext fun v => ?_))
      simp only [dyn_iff hn g F]
      rfl
    · refine step_ok (step fun mats => congrArg Except.ok (_root_.funext fun v => ?_))
      simp only [dyn_iff hn g F]
      rfl

/-- C197, top-down problems. -/
theorem C197_td (hn : 1 ≤ n) (g : Change n) (F : Dyn) (scheme : String) (N order n_q : ℕ) (t0 t1 : ℝ) :
    (tdConstraints (g.driven F) scheme N order n_q t0 t1).map (fun P v q => P (g.ctrl v) q) = tdConstraints F scheme N order n_q t0 t1 := by
  unfold tdConstraints
  cases tdConstructionPoints N scheme order with
  | error e => rfl
  | ok full =>
  cases collIndices scheme with
  | error e => rfl
  | ok s =>
  cases matrixDNu (order + N) with
  | error e => rfl
  | ok D =>
  cases matrixL N scheme order with
  | error e => rfl
  | ok L =>
    refine congrArg Except.ok (funext fun v => funext fun q => ?_)
    simp only [dyn_iff hn g F]
    rfl

/-- C197, node based problems. -/
theorem C197_node (hn : 1 ≤ n) (g : Change n) (F : Dyn) (scheme : String) (N order n_q : ℕ) (t0 t1 : ℝ) :
    (nodeConstraints (g.driven F) scheme N order n_q t0 t1).map (fun P v => P (g.ctrl v)) = nodeConstraints F scheme N order n_q t0 t1 := by
  unfold nodeConstraints
  split
  · rfl
  refine step fun m => step fun full => step fun D => ?_
  dsimp only
  have key : ∀ v ii, g.driven F ((g.ctrl v).x (i0 scheme + ii)) ((g.ctrl v).xd (i0 scheme + ii)) ((g.ctrl v).u ii) ((g.ctrl v).lam ii) =
      F (v.x (i0 scheme + ii)) (v.xd (i0 scheme + ii)) (v.u ii) (v.lam ii) := fun v ii => g.driven_ctrl hn F v _ _ _
  by_cases h3 : scheme ∈ gauss2 ++ ["D2"] <;> simp only [h3, if_true, if_false] <;> split
  all_goals first | refine step_ok ?_ | refine step fun a => step_ok ?_
  all_goals dsimp only; split
  all_goals first | refine step_ok (congrArg Except.ok (_root_.funext fun v => ?_)) | refine step fun b => step_ok (congrArg Except.ok (_root_.funext fun v => ?_))
  all_goals
    simp only [key]
    rfl
end

/-! ## Several segments -/

section
variable {order n_q : ℕ} {points : List ℕ} {coll : ℕ → List ℝ} {ext : List ℝ} {scheme : String}

private theorem controls_half (g : Change n) {v : Vars} {T : ℕ → ℝ} (hN : ∀ p ∈ points, 1 ≤ p) (h : PhControls v n points coll T) : PhControls (g.ctrl v) n points coll T := by
  intro s hs c hc
  have h' : ∀ k, ∃ p : ℝ[X], k < n → p.degree < points.getD s 0 ∧
      (∀ m < points.getD s 0, v.u (colRow points s m) k = p.eval (tauToT (arr (coll (points.getD s 0)) m) (T s) (T (s + 1)))) ∧
      v.u (knotRow points s) k = p.eval (T s) ∧ (s + 1 = points.length → v.u (knotRow points (s + 1)) k = p.eval (T (s + 1))) := fun k => by
    by_cases hk : k < n
    · obtain ⟨p, hp⟩ := h s hs k hk
      exact ⟨p, fun _ => hp⟩
    · exact ⟨0, fun h => absurd h hk⟩
  choose p hp using h'
  have hm : points.getD s 0 ∈ points := by
    rw [List.getD_eq_getElem?_getD, List.getElem?_eq_getElem hs]
    exact List.getElem_mem _
  have ev : ∀ i t, (∀ k < n, v.u i k = (p k).eval t) → (g.ctrl v).u i c = (g.poly p c).eval t := fun i t h => by
    show g.state (v.u i) c = _
    rw [g.state_lt _ hc, sum_congr rfl fun k hk => by rw [h k (mem_range.1 hk)]]
    simp [Change.poly, eval_finsetSum]
  exact ⟨g.poly p c, g.poly_degree (hN _ hm) (fun k hk => (hp k hk).1) c, fun m hm => ev _ _ fun k hk => (hp k hk).2.1 m hm, ev _ _ fun k hk => (hp k hk).2.2.1,
    fun e => ev _ _ fun k hk => (hp k hk).2.2.2 e⟩

private theorem controls_iff (hn : 1 ≤ n) (g : Change n) {v : Vars} {T : ℕ → ℝ} (hN : ∀ p ∈ points, 1 ≤ p) : PhControls v n points coll T ↔ PhControls (g.ctrl v) n points coll T := by
  refine ⟨controls_half g hN, fun h => ?_⟩
  have := controls_half g.inv hN h
  rwa [g.ctrl_inv hn] at this

private theorem coll_iff (hn : 1 ≤ n) (g : Change n) {F : Dyn} {v : Vars} : PhCollocated F v points ↔ PhCollocated (g.driven F) (g.ctrl v) points := by
  unfold PhCollocated
  simp only [g.driven_ctrl hn]

/-- C197, bottom-up problems with several segments. -/
theorem C197_segments_bu (hn : 1 ≤ n) (g : Change n) (hs : scheme ∈ buImplemented) (ho : 1 ≤ order) (F : Dyn) (n_q : ℕ)
    (h0 : points ≠ []) (hN : ∀ p ∈ points, minPoints scheme ≤ p) (h1 : (∀ p ∈ points, 2 ≤ p) ∨ scheme ∉ gaussLike)
    (hcoll : ∀ p ∈ points, collPoints p scheme order = .ok (coll p)) (hl : ext.length = points.length + 1) (ht : ∀ s < points.length, ext.getD s 0 ≠ ext.getD (s + 1) 0) :
    ∃ C C', phConstraints F .bu scheme order n_q n points ext = .ok C ∧ phConstraints (g.driven F) .bu scheme order n_q n points ext = .ok C' ∧
      ∀ v q q', C v q ↔ C' (g.ctrl v) q' := by
  obtain ⟨C, hC, hv⟩ := C99_feasible hs ho F n_q n h0 hN h1 hcoll hl ht
  obtain ⟨C', hC', hv'⟩ := C99_feasible hs ho (g.driven F) n_q n h0 hN h1 hcoll hl ht
  refine ⟨C, C', hC, hC', fun v q q' => ?_⟩
  rw [hv, hv', ← coll_iff hn g, ← controls_iff hn g fun p hp => (Chords.Gauss.minPoints_pos scheme).trans (hN p hp)]
  rfl

/-- C197, top-down problems with several segments. -/
theorem C197_segments_td (hn : 1 ≤ n) (g : Change n) (hs : scheme ∈ buImplemented) (ho : 1 ≤ order) (F : Dyn) (n_q : ℕ)
    (h0 : points ≠ []) (hN : ∀ p ∈ points, minPoints scheme ≤ p)
    (hcoll : ∀ p ∈ points, collPoints p scheme order = .ok (coll p)) (hl : ext.length = points.length + 1) (ht : ∀ s < points.length, ext.getD s 0 ≠ ext.getD (s + 1) 0) :
    ∃ C C', phConstraints F .td scheme order n_q n points ext = .ok C ∧ phConstraints (g.driven F) .td scheme order n_q n points ext = .ok C' ∧
      ∀ v, (∃ q, C v q) ↔ ∃ q, C' (g.ctrl v) q := by
  obtain ⟨C, hC, hv⟩ := C100_feasible hs ho F n_q n h0 hN hcoll hl ht
  obtain ⟨C', hC', hv'⟩ := C100_feasible hs ho (g.driven F) n_q n h0 hN hcoll hl ht
  refine ⟨C, C', hC, hC', fun v => ?_⟩
  rw [hv, hv', ← coll_iff hn g, ← controls_iff hn g fun p hp => (Chords.Gauss.minPoints_pos scheme).trans (hN p hp)]
  rfl

/-- C197, node based problems with several segments. -/
theorem C197_segments_node (hn : 1 ≤ n) (g : Change n) (hs : scheme ∈ implemented) (ho : 1 ≤ order) (hord : order ≤ 2 ∨ scheme ∉ gaussLike ++ gaussInv) (F : Dyn) (n_q : ℕ)
    (h0 : points ≠ []) (hN : ∀ p ∈ points, minPoints scheme ≤ p) {coll2 : ℕ → List ℝ} {m : ℕ → ℕ}
    (hcoll : ∀ p ∈ points, collPoints p scheme order = .ok (coll p)) (hcoll2 : ∀ p ∈ points, collPoints p scheme = .ok (coll2 p))
    (hm : ∀ p ∈ points, nColToNNodes scheme p = .ok (m p)) (hl : ext.length = points.length + 1) (ht : ∀ s < points.length, ext.getD s 0 ≠ ext.getD (s + 1) 0) :
    ∃ C C', phConstraints F .node scheme order n_q n points ext = .ok C ∧ phConstraints (g.driven F) .node scheme order n_q n points ext = .ok C' ∧
      ∀ v q q', C v q ↔ C' (g.ctrl v) q' := by
  obtain ⟨C, hC, hv⟩ := C101_feasible hs ho hord F n_q n h0 hN hcoll hcoll2 hm hl ht
  obtain ⟨C', hC', hv'⟩ := C101_feasible hs ho hord (g.driven F) n_q n h0 hN hcoll hcoll2 hm hl ht
  refine ⟨C, C', hC, hC', fun v q q' => ?_⟩
  rw [hv, hv', ← coll_iff hn g, ← controls_iff hn g fun p hp => (Chords.Gauss.minPoints_pos scheme).trans (hN p hp)]
  rfl
end

/-! ## The cost -/

/-- The new controls are the old ones, turned or reflected. -/
def Change.Turns (g : Change n) : Prop := (∀ j < n, ∀ l < n, g.back j l = g.mat l j) ∧ ∀ j < n, g.origin j = 0

theorem Change.Turns.squares {g : Change n} (h : g.Turns) (y : ℕ → ℝ) : ∑ c ∈ range n, g.state y c ^ 2 = ∑ c ∈ range n, y c ^ 2 := by
  have e : ∀ c ∈ range n, g.state y c ^ 2 = ∑ k ∈ range n, ∑ l ∈ range n, g.back k c * g.mat c l * (y k * y l) := fun c hc => by
    rw [g.state_lt _ (mem_range.1 hc), h.2 c (mem_range.1 hc), add_zero, sq, sum_mul_sum]
    exact sum_congr rfl fun k hk => sum_congr rfl fun l _ => by rw [h.1 k (mem_range.1 hk) c (mem_range.1 hc)]; ring
  rw [sum_congr rfl e, sum_comm]
  refine sum_congr rfl fun k hk => ?_
  rw [sum_comm, sum_congr rfl fun l hl => by rw [← sum_mul, g.left k (mem_range.1 hk) l (mem_range.1 hl)]]
  simp only [ite_mul, one_mul, zero_mul, sum_ite_eq, hk, if_true]
  ring

/-- C197: turned controls cost the same in pseudospectral problems, also where the cost raises an error. -/
theorem C197_cost {g : Change n} (h : g.Turns) (scheme : String) (N n_arr order : ℕ) (t0 t1 : ℝ) (u : ℕ → ℕ → ℝ) :
    PsCost.uSqCost scheme N n_arr order t0 t1 n (fun i => g.state (u i)) = PsCost.uSqCost scheme N n_arr order t0 t1 n u ∧
    PsCost.buUSqCost scheme N t0 t1 n (fun i => g.state (u i)) = PsCost.buUSqCost scheme N t0 t1 n u := by
  have key : ∀ w : ℕ → ℝ, ∑ c ∈ range n, ∑ i ∈ range N, w i * g.state (u i) c ^ 2 = ∑ c ∈ range n, ∑ i ∈ range N, w i * u i c ^ 2 := fun w => by
    rw [sum_comm, sum_comm (s := range n)]
    exact sum_congr rfl fun i _ => by rw [← mul_sum, h.squares, mul_sum]
  constructor
  · unfold PsCost.uSqCost PsCost.quadCost PsCost.quadIntCas
    cases hw : Gauss.getWeights N scheme order "u" with
    | error e => simp [hw, bind, Except.bind]
    | ok w => simp [hw, bind, Except.bind, pure, Except.pure, key]
  · unfold PsCost.buUSqCost PsCost.quadIntCas
    cases Gauss.getWeights N scheme 2 "u" with
    | error e => simp [bind, Except.bind]
    | ok w => simp [bind, Except.bind, pure, Except.pure, key]

/-- The new controls of arrays with `n` columns. -/
noncomputable def Change.cols' (g : Change n) (u : ℕ → Fin n → ℝ) : ℕ → Fin n → ℝ := fun i j => ∑ k : Fin n, g.mat j k * u i k + g.origin j

theorem Change.Turns.squares' {g : Change n} (h : g.Turns) (u : ℕ → Fin n → ℝ) (i : ℕ) : ∑ j, g.cols' u i j ^ 2 = ∑ j, u i j ^ 2 := by
  have := h.squares fun c => if hc : c < n then u i ⟨c, hc⟩ else 0
  rw [sum_range, sum_range] at this
  simp only [Fin.is_lt, dite_true, Fin.eta] at this
  rw [← this]
  refine sum_congr rfl fun j _ => ?_
  rw [g.state_lt _ j.2, sum_range]
  simp only [Fin.is_lt, dite_true, Fin.eta]
  rfl

/-- C197: turned controls cost the same in equispaced problems. -/
theorem C197_cost_equispaced {g : Change n} (h : g.Turns) (scheme : String) (T : ℝ) (N : ℕ) (a : Costs.Controls n) :
    Costs.uSqCost scheme T N ⟨g.cols' a.u, g.cols' a.u_c, g.cols' a.u_j⟩ = Costs.uSqCost scheme T N a := by
  have key : ∀ (u : ℕ → Fin n → ℝ) s t, ∑ j, Costs.sum1 (Costs.sqArr (g.cols' u)) s t j = ∑ j, Costs.sum1 (Costs.sqArr u) s t j := fun u s t => by
    unfold Costs.sum1 Costs.sqArr
    rw [sum_comm, sum_comm (s := univ)]
    exact sum_congr rfl fun i _ => h.squares' u i
  unfold Costs.uSqCost Costs.sum2
  split
  · split <;> split <;> simp only [← sum_div, sum_add_distrib, ← mul_sum, key]
  · simp only [← sum_div, sum_add_distrib, key]

/-- C197: turned controls cost the same in problems with several segments. -/
theorem C197_cost_segments {g : Change n} (h : g.Turns) (w : Ph.Weights) (scheme : String) (points : List ℕ) (hs : List ℝ) (u : ℕ → Fin n → ℝ) :
    Ph.uSqCost w scheme points hs (g.cols' u) = Ph.uSqCost w scheme points hs u := by
  have len : ∀ (ps : List ℕ) s, ((Ph.segRows s ps).map (·.1)).flatten.length = ps.sum := by
    intro ps
    induction ps with
    | nil => intro s; simp [Ph.segRows]
    | cons p ps ih => intro s; simp only [Ph.segRows, List.map_cons, List.flatten_cons, List.length_append, ih, List.sum_cons, List.length_range']; omega
  have hr : ∀ i < points.sum, ((Ph.segRows 1 points).map (·.1)).flatten[i]? = some (((Ph.segRows 1 points).map (·.1)).flatten.getD i 0) := fun i hi => by
    rw [List.getD_eq_getElem?_getD, List.getElem?_eq_getElem (by rw [len]; exact hi)]
    rfl
  rw [Ph.C35_u_sq_cost w scheme points hs u _ hr, Ph.C35_u_sq_cost w scheme points hs (g.cols' u) _ hr]
  refine congrArg Except.ok ?_
  clear hr
  suffices ∀ (r : ℕ → ℕ) (ps : List ℕ) (ds : List ℝ) off, Ph.segmentSquares (fun p i => w p scheme 2 "u" i) (fun i => g.cols' u (r i)) off ps ds =
      Ph.segmentSquares (fun p i => w p scheme 2 "u" i) (fun i => u (r i)) off ps ds from this _ _ _ _
  intro r ps
  induction ps with
  | nil => intro ds off; rfl
  | cons p ps ih =>
    intro ds off
    cases ds with
    | nil => rfl
    | cons d ds =>
      rw [Ph.segmentSquares, Ph.segmentSquares, ih, sum_comm, sum_comm (s := univ)]
      refine congrArg₂ _ (congrArg _ (sum_congr rfl fun i _ => ?_)) rfl
      rw [← mul_sum, h.squares', mul_sum]

/-! ## Examples -/

/-- Two forces, measured along turned axes. -/
noncomputable def axes : Change 2 where
  mat j l := if j = l then 3 / 5 else if j = 0 then 4 / 5 else -4 / 5
  back j l := if j = l then 3 / 5 else if j = 0 then -4 / 5 else 4 / 5
  origin _ := 0
  left := by intro j hj l hl; interval_cases j <;> interval_cases l <;> norm_num [sum_range_succ]
  right := by intro j hj l hl; interval_cases j <;> interval_cases l <;> norm_num [sum_range_succ]

theorem axes_turns : axes.Turns :=
  ⟨fun j hj l hl => by interval_cases j <;> interval_cases l <;> norm_num [axes], fun _ _ => rfl⟩

/-- A mass in the plane that two forces push. -/
def puck : Dyn := fun _ xd u _ => [xd 2 - u 0, xd 3 - u 1]

/-- With the forces along the turned axes. -/
example (x xd u l : ℕ → ℝ) : zero (axes.driven puck x xd u l) ↔ xd 2 = 3 / 5 * u 0 - 4 / 5 * u 1 ∧ xd 3 = 4 / 5 * u 0 + 3 / 5 * u 1 := by
  have e : ∀ a b : ℝ, zero [a, b] ↔ a = 0 ∧ b = 0 := fun a b => by simp [zero]
  simp only [Change.driven, puck, Change.state, Change.inv, axes, lin, sum_range_succ, sum_range_zero, e]
  norm_num
  constructor
  · rintro ⟨h1, h2⟩
    constructor <;> linarith
  · rintro ⟨h1, h2⟩
    constructor <;> linarith

/-- The problems exist and correspond, with one interval and with two segments, and the costs are the same. -/
example : (∃ C C', phConstraints puck .bu "LGR" 2 2 2 [2, 2] [0, 1, 3] = .ok C ∧ phConstraints (axes.driven puck) .bu "LGR" 2 2 2 [2, 2] [0, 1, 3] = .ok C' ∧
      ∀ v q q', C v q ↔ C' (axes.ctrl v) q') ∧
    (buConstraints (axes.driven puck) "LG" 3 2 2 0 1).map (fun P v => P (axes.ctrl v)) = buConstraints puck "LG" 3 2 2 0 1 ∧
    ∀ u : ℕ → ℕ → ℝ, PsCost.buUSqCost "LG" 3 0 1 2 (fun i => axes.state (u i)) = PsCost.buUSqCost "LG" 3 0 1 2 u :=
  ⟨C197_segments_bu (by norm_num) axes (by decide) (by norm_num) puck 2 (points := [2, 2]) (by simp) (by decide) (Or.inl (by decide)) (coll := fun p => LGR p)
      (fun p _ => by simp [collPoints]) (ext := [0, 1, 3]) (by simp)
      (by intro s hs; simp only [List.length_cons, List.length_nil] at hs; interval_cases s <;> norm_num),
    C197_bu (by norm_num) axes puck "LG" 3 2 2 0 1, fun u => (C197_cost axes_turns "LG" 3 5 2 0 1 u).2⟩

/-- Node based and top-down problems with two segments. -/
example : (∃ C C', phConstraints puck .node "LGR" 2 2 2 [2, 2] [0, 1, 3] = .ok C ∧ phConstraints (axes.driven puck) .node "LGR" 2 2 2 [2, 2] [0, 1, 3] = .ok C' ∧
      ∀ v q q', C v q ↔ C' (axes.ctrl v) q') ∧
    ∃ C C', phConstraints puck .td "LGR" 2 2 2 [2, 2] [0, 1, 3] = .ok C ∧ phConstraints (axes.driven puck) .td "LGR" 2 2 2 [2, 2] [0, 1, 3] = .ok C' ∧
      ∀ v, (∃ q, C v q) ↔ ∃ q, C' (axes.ctrl v) q :=
  ⟨C197_segments_node (by norm_num) axes (by decide) (by norm_num) (Or.inl le_rfl) puck 2 (points := [2, 2]) (by simp) (by decide) (coll := fun p => LGR p) (coll2 := fun p => LGR p)
      (m := fun p => p + 1) (fun p _ => by simp [collPoints]) (fun p _ => by simp [collPoints]) (fun p _ => by simp [nColToNNodes, gaussLike, gaussInv, radauInv, radauLike]) (ext := [0, 1, 3]) (by simp)
      (by intro s hs; simp only [List.length_cons, List.length_nil] at hs; interval_cases s <;> norm_num),
    C197_segments_td (by norm_num) axes (by decide) (by norm_num) puck 2 (points := [2, 2]) (by simp) (by decide) (coll := fun p => LGR p)
      (fun p _ => by simp [collPoints]) (ext := [0, 1, 3]) (by simp)
      (by intro s hs; simp only [List.length_cons, List.length_nil] at hs; interval_cases s <;> norm_num)⟩

end Chords.Units
