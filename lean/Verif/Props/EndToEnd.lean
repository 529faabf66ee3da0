import Verif.Model.EndToEnd
import Verif.Props.CasFuncs
import Verif.Props.Equi
import Verif.Props.PhNode

/-! # Feasible points of problems with symbolic dynamics: C139, C140, C141 -/

namespace Chords.Props
open Finset Polynomial Names CasFuncs EndToEnd BuTd Equi PhScheme Points Spec TimeScale Bary Gauss

variable [PyChars]

/-! ### Values of the quantities of a system -/

/-- The quantities have values where coordinate `q_j` is `y j`, its velocity `w j`, control number `m` is `u m` and the
parameters are `p`. -/
structure StateAt (a : Args) (q : List Name) (y w u : ℕ → ℝ) (p : List ℝ) (σ : Quantity → ℝ) (ρ : Name → ℝ) : Prop where
  values : Values σ ρ
  pos : q.map (fun n => σ (.dyn n 0)) = rowList q.length y
  vel : q.map (fun n => σ (.dyn n 1)) = rowList q.length w
  ctrl : a.u.map ρ = rowList a.u.length u
  par : a.params.map ρ = p

omit [PyChars] in
theorem rowList_length (n : ℕ) (x : ℕ → ℝ) : (rowList n x).length = n := by simp [rowList]

omit [PyChars] in
theorem rowList_append (m n : ℕ) (x : ℕ → ℝ) : rowList (m + n) x = rowList m x ++ rowList n fun j => x (m + j) := by
  simp [rowList, List.range_add]

omit [PyChars] in
theorem rowList_eq {n : ℕ} {x y : ℕ → ℝ} : rowList n x = rowList n y ↔ ∀ j < n, x j = y j := by
  simp [rowList]

omit [PyChars] in
/-- Names without repetition can have any values. -/
theorem exists_values {l : List Name} (h : l.Nodup) {vals : List ℝ} (hl : vals.length = l.length) : ∃ ρ : Name → ℝ, l.map ρ = vals := by
  refine ⟨fun n => vals.getD (l.idxOf n) 0, List.ext_getElem (by simp [hl]) fun i h1 h2 => ?_⟩
  simp only [List.length_map] at h1
  simp [h.idxOf_getElem i h1, List.getD_eq_getElem?_getD, List.getElem?_eq_getElem h2]

/-- Any positions, velocities, controls and parameters are the values of some quantities. -/
theorem exists_state {q : List Name} (hl : ∀ n ∈ q, Plain n) (hnd : q.Nodup) {u : UVars}
    (hu : FitU q u) (o : SetOrder) {RHS : List Expr} (h : ∀ e ∈ RHS, Named e) {a : Args}
    (ha : findArgs o RHS (.list q) u false false = .ok a) (y w c : ℕ → ℝ) {p : List ℝ} (hp : p.length = a.params.length) :
    ∃ σ ρ, StateAt a q y w c p σ ρ := by
  obtain ⟨a', ha', h1, h2, h3, -, h5, -, h7, h8⟩ := args_ok (q := .list q) (by simp) hl hnd hu false false o h
  rw [ha] at ha'
  cases ha'
  rw [h7 rfl, h8 rfl, List.append_nil, List.append_nil] at h1
  obtain ⟨ρ, hρ⟩ := exists_values h1 (vals := rowList a.q.length y ++ rowList a.v.length w ++ rowList a.u.length c ++ p)
    (by simp [rowList_length, hp])
  simp only [List.map_append] at hρ
  obtain ⟨hρ, e4⟩ := List.append_inj hρ (by simp [rowList_length])
  obtain ⟨hρ, e3⟩ := List.append_inj hρ (by simp [rowList_length])
  obtain ⟨e1, e2⟩ := List.append_inj hρ (by simp [rowList_length])
  obtain ⟨σ, hσ⟩ : ∃ σ : Quantity → ℝ, σ = fun x => match rename x with | .ok s => ρ s | .error _ => 0 := ⟨_, rfl⟩
  have hv : Values σ ρ := by
    intro x s hs
    rw [hσ]
    simp only [hs]
  obtain ⟨g1, g2, -⟩ := h5 σ ρ hv
  refine ⟨σ, ρ, hv, ?_, ?_, e3, e4⟩
  · exact g1.symm.trans (by rw [e1, h2]; rfl)
  · exact g2.symm.trans (by rw [e2, h3]; rfl)

/-- The accelerations `acc` are those that the expressions give in a state. -/
def Newton (a : Args) (q : List Name) (RHS : List Expr) (p : List ℝ) (y w c acc : ℕ → ℝ) : Prop :=
  ∀ σ ρ, StateAt a q y w c p σ ρ → rowList q.length acc = RHS.map fun e => e.eval σ

theorem newton_congr {a : Args} {q : List Name} {RHS : List Expr} {p : List ℝ} {y w c acc y' w' acc' : ℕ → ℝ}
    (h1 : ∀ j < q.length, y j = y' j) (h2 : ∀ j < q.length, w j = w' j) (h3 : ∀ j < q.length, acc j = acc' j) :
    Newton a q RHS p y w c acc ↔ Newton a q RHS p y' w' c acc' := by
  unfold Newton
  rw [rowList_eq.2 h3]
  have : ∀ σ ρ, StateAt a q y w c p σ ρ ↔ StateAt a q y' w' c p σ ρ := fun σ ρ =>
    ⟨fun s => ⟨s.values, s.pos.trans (rowList_eq.2 h1), s.vel.trans (rowList_eq.2 h2), s.ctrl, s.par⟩,
      fun s => ⟨s.values, s.pos.trans (rowList_eq.2 h1).symm, s.vel.trans (rowList_eq.2 h2).symm, s.ctrl, s.par⟩⟩
  simp only [this]

/-- In any state, the stored function vanishes exactly for the velocities and accelerations that the expressions give. -/
theorem dynOf_state {q : List Name} (hl : ∀ n ∈ q, Plain n) (hnd : q.Nodup) {u : UVars}
    (hu : FitU q u) (o : SetOrder) {RHS : List Expr} (h : ∀ e ∈ RHS, Named e) (hn : RHS.length = q.length) :
    ∃ a st, findArgs o RHS (.list q) u false false = .ok a ∧ explicitSetup o RHS q u = .ok st ∧
      st.params_sym = a.params ∧ ∀ p x xd c lam σ ρ, StateAt a q x (fun j => x (q.length + j)) c p σ ρ → (zero (dynOf st.dyn_f_restr p x xd c lam) ↔
        (∀ j < q.length, xd j = x (q.length + j)) ∧ rowList q.length (fun j => xd (q.length + j)) = RHS.map fun e => e.eval σ) := by
  obtain ⟨a, fg, ha, hfg, s1, -, -, hr⟩ := C129_residuals (q := .list q) (by simp) hl hnd hu o h hn
  refine ⟨a, ⟨a.params, fg.f_x, fg.g_q, 0⟩, ha, ?_, rfl, ?_⟩
  · simp only [explicitSetup, ha, hfg, bind, Except.bind, pure, Except.pure]
  intro p x xd c lam σ ρ hs
  have := (hr σ ρ hs.values _ _ (rowList (2 * q.length) xd) (rowList q.length xd) rfl rfl (rowList_length _ _) (rowList_length _ _)).1
  simp only [qNames] at this s1
  rw [hs.pos, hs.vel, hs.ctrl, hs.par] at this
  have e : dynOf fg.f_x p x xd c lam = fg.f_x.run [rowList q.length x ++ rowList q.length (fun j => x (q.length + j)),
      rowList (2 * q.length) xd, rowList a.u.length c, [], p] := by
    simp only [dynOf, s1, List.getD_cons_zero, List.getD_cons_succ]
    rw [← rowList_append, two_mul]
    rfl
  rw [e]
  refine Iff.trans this ?_
  rw [two_mul, rowList_append]
  constructor
  · intro g
    obtain ⟨g1, g2⟩ := List.append_inj g (by simp [rowList_length])
    exact ⟨rowList_eq.1 g1, g2⟩
  · rintro ⟨g1, g2⟩
    rw [rowList_eq.2 g1, g2]

/-- The stored function vanishes exactly for the motions of the system. -/
theorem dynOf_explicit {q : List Name} (hl : ∀ n ∈ q, Plain n) (hnd : q.Nodup) {u : UVars}
    (hu : FitU q u) (o : SetOrder) {RHS : List Expr} (h : ∀ e ∈ RHS, Named e) (hn : RHS.length = q.length) :
    ∃ a st, findArgs o RHS (.list q) u false false = .ok a ∧ explicitSetup o RHS q u = .ok st ∧
      st.params_sym = a.params ∧ ∀ p, p.length = a.params.length → ∀ x xd c lam, zero (dynOf st.dyn_f_restr p x xd c lam) ↔
        (∀ j < q.length, xd j = x (q.length + j)) ∧
        Newton a q RHS p x (fun j => x (q.length + j)) c fun j => xd (q.length + j) := by
  obtain ⟨a, st, ha, hst, hps, key⟩ := dynOf_state hl hnd hu o h hn
  refine ⟨a, st, ha, hst, hps, fun p hp x xd c lam => ?_⟩
  have key := key p x xd c lam
  constructor
  · intro hz
    obtain ⟨σ, ρ, hs⟩ := exists_state hl hnd hu o h ha x (fun j => x (q.length + j)) c hp
    exact ⟨((key σ ρ hs).1 hz).1, fun σ ρ hs => ((key σ ρ hs).1 hz).2⟩
  · rintro ⟨g1, g2⟩
    obtain ⟨σ, ρ, hs⟩ := exists_state hl hnd hu o h ha x (fun j => x (q.length + j)) c hp
    exact (key σ ρ hs).2 ⟨g1, g2 σ ρ hs⟩

/-- In any state the expressions have values. -/
theorem newton_exists {q : List Name} (hl : ∀ n ∈ q, Plain n) (hnd : q.Nodup) {u : UVars}
    (hu : FitU q u) (o : SetOrder) {RHS : List Expr} (h : ∀ e ∈ RHS, Named e) (hn : RHS.length = q.length) {a : Args}
    (ha : findArgs o RHS (.list q) u false false = .ok a) {p : List ℝ} (hp : p.length = a.params.length) (y w c : ℕ → ℝ) :
    ∃ acc, Newton a q RHS p y w c acc := by
  obtain ⟨a', st, ha', -, -, key⟩ := dynOf_state hl hnd hu o h hn
  rw [ha] at ha'
  cases ha'
  obtain ⟨x, hx⟩ : ∃ x : ℕ → ℝ, x = fun j => if j < q.length then y j else w (j - q.length) := ⟨_, rfl⟩
  have e1 : ∀ j < q.length, x j = y j := fun j hj => by rw [hx]; simp [hj]
  have e2 : ∀ j, x (q.length + j) = w j := fun j => by rw [hx]; simp
  obtain ⟨σ, ρ, hs⟩ := exists_state hl hnd hu o h ha x (fun j => x (q.length + j)) c hp
  obtain ⟨acc, hacc⟩ : ∃ acc : ℕ → ℝ, acc = fun j => (RHS.map fun e => e.eval σ).getD j 0 := ⟨_, rfl⟩
  have hr : rowList q.length acc = RHS.map fun e => e.eval σ := by
    refine List.ext_getElem (by simp [rowList_length, hn]) fun i h1 h2 => ?_
    simp only [rowList, List.getElem_map, List.getElem_range, hacc, List.getD_eq_getElem?_getD, List.getElem?_eq_getElem h2, Option.getD_some]
  refine ⟨acc, ?_⟩
  obtain ⟨xd, hxd⟩ : ∃ xd : ℕ → ℝ, xd = fun j => if j < q.length then w j else acc (j - q.length) := ⟨_, rfl⟩
  have d1 : ∀ j < q.length, xd j = x (q.length + j) := fun j hj => by rw [hxd, e2]; simp [hj]
  have d2 : ∀ j, xd (q.length + j) = acc j := fun j => by rw [hxd]; simp
  have hz := (key p x xd c (fun _ => 0) σ ρ hs).2 ⟨d1, by simpa only [d2] using hr⟩
  refine (newton_congr (y := x) (w := fun j => x (q.length + j)) (acc := fun j => xd (q.length + j)) e1 (fun j _ => e2 j) fun j _ => d2 j).1 ?_
  exact fun σ ρ hs => ((key p x xd c (fun _ => 0) σ ρ hs).1 hz).2

/-! ### Equispaced schemes -/

omit [PyChars] in
theorem lev_two (v : Vars) (n i j : ℕ) : v.lev 2 n 0 i j = v.x i j ∧ v.lev 2 n 1 i j = v.x i (n + j) ∧ v.lev 2 n 2 i j = v.xd i (n + j) := by
  simp [Vars.lev]

/-- C139: a problem given by the expressions of its accelerations, discretized with an equispaced scheme of order 2, has as feasible
points exactly the samples of curves, one per interval and coordinate, with the acceleration on a line (a parabola), whose
accelerations at the start and the end (and at the inner point) of every interval are those of the expressions at the position,
velocity, controls and parameters there. -/
theorem C139_motion {q : List Name} (hl : ∀ n ∈ q, Plain n) (hnd : q.Nodup) {u : UVars}
    (hu : FitU q u) (o : SetOrder) {RHS : List Expr} (h : ∀ e ∈ RHS, Named e) (hn : RHS.length = q.length)
    {scheme : String} {s : Shape} (hs : SchemeIs (some 2) scheme s 2) (N : ℕ) (hN : 0 < N) {t_start t_end : ℝ} (hT : t_start ≠ t_end) :
    ∃ a st, findArgs o RHS (.list q) u false false = .ok a ∧ explicitSetup o RHS q u = .ok st ∧ st.params_sym = a.params ∧
      ∀ p, p.length = a.params.length → ∃ P, equiConstraints (dynOf st.dyn_f_restr p) scheme N 2 q.length a.u.length t_start t_end = .ok P ∧
      ∀ v c : Vars, P v c ↔
        (∀ i < N, ∃ z : ℕ → ℕ → ℝ → ℝ,
          (∀ j < q.length, Motion (z j) ∧ z j 0 0 = v.x i j ∧ z j 1 0 = v.x i (q.length + j) ∧ z j 2 0 = v.xd i (q.length + j) ∧
            z j 0 ((t_end - t_start) / N) = v.x (i + 1) j ∧ z j 1 ((t_end - t_start) / N) = v.x (i + 1) (q.length + j) ∧
            z j 2 ((t_end - t_start) / N) = v.xd (i + 1) (q.length + j) ∧
            (s = .line → ∃ b, ∀ τ, z j 2 τ = z j 2 0 + τ * b) ∧
            ∀ θ, s = .parab θ → (∃ b d, ∀ τ, z j 2 τ = z j 2 0 + τ * b + τ ^ 2 * d) ∧
              z j 0 (θ * ((t_end - t_start) / N)) = c.x i j ∧ z j 1 (θ * ((t_end - t_start) / N)) = c.x i (q.length + j) ∧
              z j 2 (θ * ((t_end - t_start) / N)) = c.xd i (q.length + j)) ∧
          Newton a q RHS p (fun j => z j 0 0) (fun j => z j 1 0) (v.u i) (fun j => z j 2 0) ∧
          Newton a q RHS p (fun j => z j 0 ((t_end - t_start) / N)) (fun j => z j 1 ((t_end - t_start) / N)) (v.u (i + 1))
            (fun j => z j 2 ((t_end - t_start) / N)) ∧
          ∀ θ, s = .parab θ → Newton a q RHS p (fun j => z j 0 (θ * ((t_end - t_start) / N)))
            (fun j => z j 1 (θ * ((t_end - t_start) / N))) (c.u i) (fun j => z j 2 (θ * ((t_end - t_start) / N)))) ∧
        (∀ i ≤ N, ∀ j < q.length, v.xd i j = v.x i (q.length + j)) ∧
        ∀ θ, s = .parab θ → (∀ i < N, ∀ j < q.length, c.xd i j = c.x i (q.length + j)) ∧
          (LinearControl scheme → ∀ i < N, ∀ m < a.u.length, c.u i m = (1 - θ) * v.u i m + θ * v.u (i + 1) m) := by
  obtain ⟨a, st, ha, hst, hps, hz⟩ := dynOf_explicit hl hnd hu o h hn
  refine ⟨a, st, ha, hst, hps, fun p hp => ?_⟩
  obtain ⟨P, hP, hv⟩ := C91_motion (dynOf st.dyn_f_restr p) hs N q.length a.u.length hN hT
  refine ⟨P, hP, fun v c => ?_⟩
  rw [hv]
  simp only [hz p hp]
  obtain ⟨H, hH⟩ : ∃ H : ℝ, H = (t_end - t_start) / N := ⟨_, rfl⟩
  simp only [← hH]
  constructor
  · rintro ⟨g1, g2, g3⟩
    refine ⟨fun i hi => ?_, fun i hi => (g2 i hi).1, fun θ hθ => ⟨fun i hi => ((g3 θ hθ).1 i hi).1, (g3 θ hθ).2⟩⟩
    have g1 := g1 i hi
    have : ∀ j, ∃ z : ℕ → ℝ → ℝ, j < q.length → StepMotion s 2 (fun p => v.lev 2 q.length p i j) (v.lev 2 q.length 2 i j)
        (c.lev 2 q.length 2 i j) (v.lev 2 q.length 2 (i + 1) j) H z ∧ (∀ p < 2, z p H = v.lev 2 q.length p (i + 1) j) ∧
        ∀ θ, s = .parab θ → ∀ p < 2, z p (θ * H) = c.lev 2 q.length p i j := by
      intro j
      by_cases hj : j < q.length
      · obtain ⟨z, hz⟩ := g1 j hj
        exact ⟨z, fun _ => hz⟩
      · exact ⟨fun _ _ => 0, fun h => absurd h hj⟩
    choose z hz using this
    have facts : ∀ j < q.length, Motion (z j) ∧ z j 0 0 = v.x i j ∧ z j 1 0 = v.x i (q.length + j) ∧ z j 2 0 = v.xd i (q.length + j) ∧
            z j 0 H = v.x (i + 1) j ∧ z j 1 H = v.x (i + 1) (q.length + j) ∧ z j 2 H = v.xd (i + 1) (q.length + j) ∧
            (s = .line → ∃ b, ∀ τ, z j 2 τ = z j 2 0 + τ * b) ∧
            ∀ θ, s = .parab θ → (∃ b d, ∀ τ, z j 2 τ = z j 2 0 + τ * b + τ ^ 2 * d) ∧
              z j 0 (θ * H) = c.x i j ∧ z j 1 (θ * H) = c.x i (q.length + j) ∧ z j 2 (θ * H) = c.xd i (q.length + j) := by
      intro j hj
      obtain ⟨m1, m2, m3⟩ := hz j hj
      have l2 := m2 0 (by norm_num)
      have l3 := m2 1 (by norm_num)
      rw [(lev_two _ _ _ _).1] at l2
      rw [(lev_two _ _ _ _).2.1] at l3
      cases s with
      | line =>
        have m1 : LinearMotion 2 _ _ _ _ _ := m1
        obtain ⟨k1, k2, ⟨b, k3⟩, k4⟩ := m1
        have e0 := k3 0
        rw [zero_smul, add_zero, (lev_two _ _ _ _).2.2] at e0
        have f0 := k2 0 (by norm_num)
        have f1 := k2 1 (by norm_num)
        rw [(lev_two _ _ _ _).1] at f0
        rw [(lev_two _ _ _ _).2.1] at f1
        rw [(lev_two _ _ _ _).2.2] at k4
        refine ⟨k1, f0, f1, e0, l2, l3, k4, fun _ => ⟨b, fun τ => ?_⟩, fun θ hθ => by cases hθ⟩
        rw [k3 τ, (lev_two _ _ _ _).2.2, e0, smul_eq_mul]
      | parab θ =>
        have m1 : ParabolicMotion 2 _ _ _ _ _ _ _ := m1
        obtain ⟨k1, k2, ⟨b, d, k3⟩, k4, k5⟩ := m1
        have e0 := k3 0
        rw [zero_smul, add_zero, zero_pow (by norm_num), zero_smul, add_zero, (lev_two _ _ _ _).2.2] at e0
        have f0 := k2 0 (by norm_num)
        have f1 := k2 1 (by norm_num)
        rw [(lev_two _ _ _ _).1] at f0
        rw [(lev_two _ _ _ _).2.1] at f1
        rw [(lev_two _ _ _ _).2.2] at k4 k5
        refine ⟨k1, f0, f1, e0, l2, l3, k5, (fun hθ => by cases hθ), fun θ' hθ => ?_⟩
        have m30 := m3 _ rfl 0 (by norm_num)
        have m31 := m3 _ rfl 1 (by norm_num)
        rw [(lev_two _ _ _ _).1] at m30
        rw [(lev_two _ _ _ _).2.1] at m31
        cases hθ
        refine ⟨⟨b, d, fun τ => ?_⟩, m30, m31, k4⟩
        rw [k3 τ, (lev_two _ _ _ _).2.2, e0, smul_eq_mul, smul_eq_mul]
    refine ⟨z, facts, ?_, ?_, fun θ hθ => ?_⟩
    · exact (newton_congr (fun j hj => (facts j hj).2.1) (fun j hj => (facts j hj).2.2.1) fun j hj => (facts j hj).2.2.2.1).2 (g2 i hi.le).2
    · exact (newton_congr (fun j hj => (facts j hj).2.2.2.2.1) (fun j hj => (facts j hj).2.2.2.2.2.1)
        fun j hj => (facts j hj).2.2.2.2.2.2.1).2 (g2 (i + 1) hi).2
    · exact (newton_congr (fun j hj => ((facts j hj).2.2.2.2.2.2.2.2 θ hθ).2.1) (fun j hj => ((facts j hj).2.2.2.2.2.2.2.2 θ hθ).2.2.1)
        fun j hj => ((facts j hj).2.2.2.2.2.2.2.2 θ hθ).2.2.2).2 ((g3 θ hθ).1 i hi).2
  · rintro ⟨g1, g2, g3⟩
    refine ⟨fun i hi j hj => ?_, fun i hi => ⟨g2 i hi, ?_⟩, fun θ hθ => ⟨fun i hi => ⟨(g3 θ hθ).1 i hi, ?_⟩, (g3 θ hθ).2⟩⟩
    · obtain ⟨z, facts, -⟩ := g1 i hi
      obtain ⟨k1, f0, f1, e0, l2, l3, k4, k5, k6⟩ := facts j hj
      refine ⟨z j, ?_, ?_, ?_⟩
      · have st0 : ∀ p < 2, z j p 0 = v.lev 2 q.length p i j := by
          intro p hp
          interval_cases p
          · rw [f0, (lev_two _ _ _ _).1]
          · rw [f1, (lev_two _ _ _ _).2.1]
        cases s with
        | line =>
          obtain ⟨b, hb⟩ := k5 rfl
          refine (⟨k1, st0, ⟨b, fun τ => ?_⟩, ?_⟩ : LinearMotion 2 _ _ _ _ _)
          · rw [hb, e0, (lev_two _ _ _ _).2.2, smul_eq_mul]
          · rw [k4, (lev_two _ _ _ _).2.2]
        | parab θ =>
          obtain ⟨⟨b, d, hb⟩, n0, n1, n2⟩ := k6 θ rfl
          refine (⟨k1, st0, ⟨b, d, fun τ => ?_⟩, ?_, ?_⟩ : ParabolicMotion 2 _ _ _ _ _ _ _)
          · rw [hb, e0, (lev_two _ _ _ _).2.2, smul_eq_mul, smul_eq_mul]
          · rw [n2, (lev_two _ _ _ _).2.2]
          · rw [k4, (lev_two _ _ _ _).2.2]
      · intro p hp
        interval_cases p
        · exact l2.trans (lev_two _ _ _ _).1.symm
        · exact l3.trans (lev_two _ _ _ _).2.1.symm
      · intro θ hθ p hp
        obtain ⟨-, n0, n1, n2⟩ := k6 θ hθ
        interval_cases p
        · exact n0.trans (lev_two _ _ _ _).1.symm
        · exact n1.trans (lev_two _ _ _ _).2.1.symm
    · rcases Nat.lt_or_eq_of_le hi with hi | rfl
      · obtain ⟨z, facts, n1, -⟩ := g1 i hi
        exact (newton_congr (fun j hj => (facts j hj).2.1) (fun j hj => (facts j hj).2.2.1) fun j hj => (facts j hj).2.2.2.1).1 n1
      · obtain ⟨k, rfl⟩ : ∃ k, i = k + 1 := ⟨i - 1, by omega⟩
        obtain ⟨z, facts, -, n1, -⟩ := g1 k (by omega)
        exact (newton_congr (fun j hj => (facts j hj).2.2.2.2.1) (fun j hj => (facts j hj).2.2.2.2.2.1)
          fun j hj => (facts j hj).2.2.2.2.2.2.1).1 n1
    · obtain ⟨z, facts, -, -, n1⟩ := g1 i hi
      exact (newton_congr (fun j hj => ((facts j hj).2.2.2.2.2.2.2.2 θ hθ).2.1) (fun j hj => ((facts j hj).2.2.2.2.2.2.2.2 θ hθ).2.2.1)
        fun j hj => ((facts j hj).2.2.2.2.2.2.2.2 θ hθ).2.2.2).1 (n1 θ hθ)

/-! ### Segmented pseudospectral schemes -/

/-- In every segment, at every collocation instant, the velocities are those of the derivative of the state, and the second derivatives of
the polynomials are the accelerations of the expressions at the position and velocity of the polynomials and the
controls of that instant. -/
def PolyNewton (a : Args) (q : List Name) (RHS : List Expr) (p : List ℝ) (v : Vars) (points : List ℕ) (coll : ℕ → List ℝ) (T : ℕ → ℝ)
    (Q : ℕ → ℕ → ℝ[X]) : Prop :=
  ∀ s < points.length, ∀ m < points.getD s 0, ∀ t, t = tauToT (arr (coll (points.getD s 0)) m) (T s) (T (s + 1)) →
    (∀ j < q.length, v.xd (colRow points s m) j = (derivative (Q s j)).eval t) ∧
    Newton a q RHS p (fun j => (Q s j).eval t) (fun j => (derivative (Q s j)).eval t) (v.u (colRow points s m))
      (fun j => (derivative (derivative (Q s j))).eval t)

theorem collocated_poly {a : Args} {q : List Name} {RHS : List Expr} {p : List ℝ} {F : Dyn}
    (hz : ∀ x xd c lam, zero (F x xd c lam) ↔ (∀ j < q.length, xd j = x (q.length + j)) ∧
        Newton a q RHS p x (fun j => x (q.length + j)) c fun j => xd (q.length + j))
    {v : Vars} {points : List ℕ} {coll : ℕ → List ℝ} {T : ℕ → ℝ} {Q : ℕ → ℕ → ℝ[X]}
    (hQ : ∀ s < points.length, SegPoly v 2 q.length points coll T s (Q s)) :
    PhCollocated F v points ↔ PolyNewton a q RHS p v points coll T Q := by
  unfold PhCollocated PolyNewton
  simp only [hz, forall_eq]
  refine forall_congr' fun s => forall_congr' fun hs => forall_congr' fun m => forall_congr' fun hm => ?_
  have e0 : ∀ j < q.length, v.x (colRow points s m) j = _ := fun j hj => (lev_two _ _ _ _).1.symm.trans ((hQ s hs j hj).2.2 0 (by norm_num) m hm)
  have e1 : ∀ j < q.length, v.x (colRow points s m) (q.length + j) = _ := fun j hj =>
    (lev_two _ _ _ _).2.1.symm.trans ((hQ s hs j hj).2.2 1 (by norm_num) m hm)
  have e2 : ∀ j < q.length, v.xd (colRow points s m) (q.length + j) = _ := fun j hj =>
    (lev_two _ _ _ _).2.2.symm.trans ((hQ s hs j hj).2.2 2 (by norm_num) m hm)
  refine and_congr ?_ (newton_congr e0 e1 e2)
  refine forall_congr' fun j => forall_congr' fun hj => ?_
  rw [e1 j hj]
  rfl

/-- C140, bottom-up: a problem given by the expressions of its accelerations, discretized with a segmented bottom-up scheme, has as feasible
points exactly the samples of piecewise polynomials, with one position and one velocity at each knot, whose second derivatives at every collocation
instant are the accelerations of the expressions. -/
theorem C140_bu {q : List Name} (hl : ∀ n ∈ q, Plain n) (hnd : q.Nodup) {u : UVars}
    (hu : FitU q u) (o : SetOrder) {RHS : List Expr} (h : ∀ e ∈ RHS, Named e) (hn : RHS.length = q.length)
    {scheme : String} (hs : scheme ∈ buImplemented) {points : List ℕ} (h0 : points ≠ []) (hN : ∀ p ∈ points, minPoints scheme ≤ p)
    (h1 : (∀ p ∈ points, 2 ≤ p) ∨ scheme ∉ gaussLike) {coll : ℕ → List ℝ} (hcoll : ∀ p ∈ points, collPoints p scheme 2 = .ok (coll p))
    {ext : List ℝ} (hle : ext.length = points.length + 1) (ht : ∀ s < points.length, ext.getD s 0 ≠ ext.getD (s + 1) 0) :
    ∃ a st, findArgs o RHS (.list q) u false false = .ok a ∧ explicitSetup o RHS q u = .ok st ∧ st.params_sym = a.params ∧
      ∀ p, p.length = a.params.length →
      ∃ C, phConstraints (dynOf st.dyn_f_restr p) .bu scheme 2 q.length a.u.length points ext = .ok C ∧ ∀ v c, C v c ↔
        (∃ Q : ℕ → ℕ → ℝ[X], (∀ s < points.length, SegPoly v 2 q.length points coll (fun s => ext.getD s 0) s (Q s) ∧
          (∀ j < q.length, v.xd (knotRow points s) (q.length + j) = (derivative (derivative (Q s j))).eval (ext.getD s 0)) ∧
          (s + 1 = points.length → ∀ j < q.length,
            v.xd (knotRow points (s + 1)) (q.length + j) = (derivative (derivative (Q s j))).eval (ext.getD (s + 1) 0))) ∧
          PolyNewton a q RHS p v points coll (fun s => ext.getD s 0) Q) ∧
        (∀ s ≤ points.length, KnotShift v 2 q.length points s) ∧ PhControls v a.u.length points coll (fun s => ext.getD s 0) := by
  obtain ⟨a, st, ha, hst, hps, hz⟩ := dynOf_explicit hl hnd hu o h hn
  refine ⟨a, st, ha, hst, hps, fun p hp => ?_⟩
  obtain ⟨C, hC, hv⟩ := C99_feasible hs (order := 2) (by norm_num) (dynOf st.dyn_f_restr p) q.length a.u.length h0 hN h1 hcoll hle ht
  refine ⟨C, hC, fun v c => ?_⟩
  rw [hv]
  constructor
  · rintro ⟨⟨Q, hQ⟩, g1, g2, g3⟩
    exact ⟨⟨Q, fun s hs => ⟨(hQ s hs).1, fun j hj => (lev_two _ _ _ _).2.2.symm.trans ((hQ s hs).2.1 j hj),
      fun e j hj => (lev_two _ _ _ _).2.2.symm.trans ((hQ s hs).2.2 e j hj)⟩, (collocated_poly (hz p hp) fun s hs => (hQ s hs).1).1 g2⟩, g1, g3⟩
  · rintro ⟨⟨Q, hQ, g2⟩, g1, g3⟩
    exact ⟨⟨Q, fun s hs => ⟨(hQ s hs).1, fun j hj => (lev_two _ _ _ _).2.2.trans ((hQ s hs).2.1 j hj),
      fun e j hj => (lev_two _ _ _ _).2.2.trans ((hQ s hs).2.2 e j hj)⟩⟩, g1, (collocated_poly (hz p hp) fun s hs => (hQ s hs).1).2 g2, g3⟩

/-- C140, top-down. -/
theorem C140_td {q : List Name} (hl : ∀ n ∈ q, Plain n) (hnd : q.Nodup) {u : UVars}
    (hu : FitU q u) (o : SetOrder) {RHS : List Expr} (h : ∀ e ∈ RHS, Named e) (hn : RHS.length = q.length)
    {scheme : String} (hs : scheme ∈ buImplemented) {points : List ℕ} (h0 : points ≠ []) (hN : ∀ p ∈ points, minPoints scheme ≤ p)
    {coll : ℕ → List ℝ} (hcoll : ∀ p ∈ points, collPoints p scheme 2 = .ok (coll p))
    {ext : List ℝ} (hle : ext.length = points.length + 1) (ht : ∀ s < points.length, ext.getD s 0 ≠ ext.getD (s + 1) 0) :
    ∃ a st, findArgs o RHS (.list q) u false false = .ok a ∧ explicitSetup o RHS q u = .ok st ∧ st.params_sym = a.params ∧
      ∀ p, p.length = a.params.length →
      ∃ C, phConstraints (dynOf st.dyn_f_restr p) .td scheme 2 q.length a.u.length points ext = .ok C ∧ ∀ v, (∃ c, C v c) ↔
        (∃ Q : ℕ → ℕ → ℝ[X], (∀ s < points.length, SegPoly v 2 q.length points coll (fun s => ext.getD s 0) s (Q s) ∧
          ∀ j < q.length, v.xd (knotRow points s) (q.length + j) = (derivative (derivative (Q s j))).eval (ext.getD s 0) ∧
            v.xd (knotRow points (s + 1)) (q.length + j) = (derivative (derivative (Q s j))).eval (ext.getD (s + 1) 0)) ∧
          PolyNewton a q RHS p v points coll (fun s => ext.getD s 0) Q) ∧
        (∀ s ≤ points.length, KnotShift v 2 q.length points s) ∧ PhControls v a.u.length points coll (fun s => ext.getD s 0) := by
  obtain ⟨a, st, ha, hst, hps, hz⟩ := dynOf_explicit hl hnd hu o h hn
  refine ⟨a, st, ha, hst, hps, fun p hp => ?_⟩
  obtain ⟨C, hC, hv⟩ := C100_feasible hs (order := 2) (by norm_num) (dynOf st.dyn_f_restr p) q.length a.u.length h0 hN hcoll hle ht
  refine ⟨C, hC, fun v => ?_⟩
  rw [hv]
  constructor
  · rintro ⟨⟨Q, hQ⟩, g1, g2, g3⟩
    exact ⟨⟨Q, fun s hs => ⟨(hQ s hs).1, fun j hj => ⟨(lev_two _ _ _ _).2.2.symm.trans ((hQ s hs).2 j hj).1,
      (lev_two _ _ _ _).2.2.symm.trans ((hQ s hs).2 j hj).2⟩⟩, (collocated_poly (hz p hp) fun s hs => (hQ s hs).1).1 g2⟩, g1, g3⟩
  · rintro ⟨⟨Q, hQ, g2⟩, g1, g3⟩
    exact ⟨⟨Q, fun s hs => ⟨(hQ s hs).1, fun j hj => ⟨(lev_two _ _ _ _).2.2.trans ((hQ s hs).2 j hj).1,
      (lev_two _ _ _ _).2.2.trans ((hQ s hs).2 j hj).2⟩⟩⟩, g1, (collocated_poly (hz p hp) fun s hs => (hQ s hs).1).2 g2, g3⟩

/-- C140, node based: what a feasible point says of the polynomials `P s j` of the positions and `P s (n + j)` of the velocities of a segment.
At every collocation instant the velocity is the derivative of the position and the derivative of the velocity is the
acceleration of the expressions. -/
theorem C140_node_partial {q : List Name} (hl : ∀ n ∈ q, Plain n) (hnd : q.Nodup) {u : UVars}
    (hu : FitU q u) (o : SetOrder) {RHS : List Expr} (h : ∀ e ∈ RHS, Named e) (hn : RHS.length = q.length)
    {scheme : String} (hs : scheme ∈ implemented) {points : List ℕ} (h0 : points ≠ []) (hN : ∀ p ∈ points, minPoints scheme ≤ p)
    {coll n : ℕ → _} (hcoll : ∀ p ∈ points, collPoints p scheme 2 = .ok (coll p)) 
    (hnn : ∀ p ∈ points, nColToNNodes scheme p = .ok (n p))
    {ext : List ℝ} (hle : ext.length = points.length + 1) (ht : ∀ s < points.length, ext.getD s 0 ≠ ext.getD (s + 1) 0) :
    ∃ a st, findArgs o RHS (.list q) u false false = .ok a ∧ explicitSetup o RHS q u = .ok st ∧ st.params_sym = a.params ∧
      ∀ p, p.length = a.params.length →
      ∃ C, phConstraints (dynOf st.dyn_f_restr p) .node scheme 2 q.length a.u.length points ext = .ok C ∧ ∀ v c, C v c ↔
        (∃ P : ℕ → ℕ → ℝ[X], (∀ s < points.length,
          NodeSegPoly v scheme 2 q.length points coll (fun s => ext.getD s 0) s (n (points.getD s 0)) (P s)) ∧
          ∀ s < points.length, ∀ m < points.getD s 0, ∀ t,
            t = tauToT (arr (coll (points.getD s 0)) m) (ext.getD s 0) (ext.getD (s + 1) 0) →
            (∀ j < q.length, (P s (q.length + j)).eval t = (derivative (P s j)).eval t) ∧
            Newton a q RHS p (fun j => (P s j).eval t) (fun j => (derivative (P s j)).eval t) (v.u (colRow points s m))
              (fun j => (derivative (P s (q.length + j))).eval t)) ∧
        NodeShift v scheme 2 q.length points ∧ PhControls v a.u.length points coll (fun s => ext.getD s 0) := by
  obtain ⟨a, st, ha, hst, hps, hz⟩ := dynOf_explicit hl hnd hu o h hn
  refine ⟨a, st, ha, hst, hps, fun p hp => ?_⟩
  obtain ⟨C, hC, hv⟩ := C101_feasible hs (order := 2) (by norm_num) (.inl le_rfl) (dynOf st.dyn_f_restr p) q.length a.u.length h0 hN hcoll
    hcoll hnn hle ht
  refine ⟨C, hC, fun v c => ?_⟩
  rw [hv]
  have key : ∀ P : ℕ → ℕ → ℝ[X], (∀ s < points.length,
      NodeSegPoly v scheme 2 q.length points coll (fun s => ext.getD s 0) s (n (points.getD s 0)) (P s)) →
      (PhCollocated (dynOf st.dyn_f_restr p) v points ↔ ∀ s < points.length, ∀ m < points.getD s 0, ∀ t,
            t = tauToT (arr (coll (points.getD s 0)) m) (ext.getD s 0) (ext.getD (s + 1) 0) →
            (∀ j < q.length, (P s (q.length + j)).eval t = (derivative (P s j)).eval t) ∧
            Newton a q RHS p (fun j => (P s j).eval t) (fun j => (derivative (P s j)).eval t) (v.u (colRow points s m))
              (fun j => (derivative (P s (q.length + j))).eval t)) := by
    intro P hP
    unfold PhCollocated
    simp only [hz p hp, forall_eq]
    refine forall_congr' fun s => forall_congr' fun hs => forall_congr' fun m => forall_congr' fun hm => ?_
    have e0 : ∀ j < q.length, _ ∧ _ := fun j hj => (hP s hs j (by omega)).2.1 m hm
    have e1 : ∀ j < q.length, _ ∧ _ := fun j hj => (hP s hs (q.length + j) (by omega)).2.1 m hm
    have e : (∀ j < q.length, v.xd (colRow points s m) j = v.x (colRow points s m) (q.length + j)) ↔ ∀ j < q.length,
        (P s (q.length + j)).eval (tauToT (arr (coll (points.getD s 0)) m) (ext.getD s 0) (ext.getD (s + 1) 0)) =
          (derivative (P s j)).eval (tauToT (arr (coll (points.getD s 0)) m) (ext.getD s 0) (ext.getD (s + 1) 0)) := by
      refine forall_congr' fun j => forall_congr' fun hj => ?_
      rw [(e0 j hj).2, (e1 j hj).1]
      exact eq_comm
    constructor
    · rintro ⟨g1, g2⟩
      exact ⟨e.1 g1, (newton_congr (fun j hj => (e0 j hj).1) (fun j hj => (e1 j hj).1.trans (e.1 g1 j hj)) (fun j hj => (e1 j hj).2)).1 g2⟩
    · rintro ⟨g1, g2⟩
      exact ⟨e.2 g1, (newton_congr (fun j hj => (e0 j hj).1) (fun j hj => (e1 j hj).1.trans (g1 j hj)) (fun j hj => (e1 j hj).2)).2 g2⟩
  constructor
  · rintro ⟨⟨P, hP⟩, g1, g2, g3⟩
    exact ⟨⟨P, hP, (key P hP).1 g2⟩, g1, g3⟩
  · rintro ⟨⟨P, hP, g2⟩, g1, g3⟩
    exact ⟨⟨P, hP⟩, g1, (key P hP).2 g2, g3⟩

theorem plain_q0 : ∀ n ∈ [indexed 'q' 0], Plain n := by
  intro n hn
  rw [List.mem_singleton.1 hn]
  exact plain_indexed (.inl rfl) 0

/-- C140 is false of the node based schemes: with `q'' = 1` and one LG point on [-1, 1] the point `q = 0`, `v = t` is feasible, and
polynomials of the degree of the scheme have the second derivative 0. -/
theorem C140_node_refuted (o : SetOrder) : ∃ st C v, explicitSetup o [.num 1] [indexed 'q' 0] .none = .ok st ∧ st.params_sym = [] ∧
    phConstraints (dynOf st.dyn_f_restr []) .node "LG" 2 1 0 [1] [-1, 1] = .ok C ∧ (∃ c, C v c) ∧
    ∀ P : ℕ → ℝ[X], NodeSegPoly v "LG" 2 1 [1] LG (fun s => ([-1, 1] : List ℝ).getD s 0) 0 2 P →
      ∀ t, (derivative (derivative (P 0))).eval t = 0 := by
  have hcoll : LG 1 = [0] := by
    have hr : realRoots (legendre 1) = [(0 : ℝ)] := by
      rw [realRoots_eq (m := 1) (s := fun _ => (0 : ℝ)) (by simp [legendre]) (by simp [legendre]) (fun i j _ _ => by omega)
        (fun i _ => by simp [legendre])]
      rfl
    simp [LG, hr]
  obtain ⟨a, st, ha, hst, hps, hc⟩ := C140_node_partial (q := [indexed 'q' 0]) plain_q0 (List.nodup_singleton _) (u := .none) trivial o
    (RHS := [.num 1]) (by simp [Named, Expr.atoms]) (by simp) (scheme := "LG") (by decide) (points := [1]) (by simp) (by decide)
    (coll := LG) (n := fun p => p + 1) (by simp [collPoints]) (by simp [nColToNNodes, gaussLike]) (ext := [-1, 1]) (by simp)
    (by intro s hs; obtain rfl : s = 0 := by simpa using hs
        norm_num)
  have hargs : a.u = [] ∧ a.params = [] := by
    rw [findArgs_eq o (by simp [Named, Expr.atoms])] at ha
    have e : o.sym (mapAtoms renamed (.num 1)) = [] := by
      rw [List.eq_nil_iff_forall_not_mem]
      intro n hn
      simpa [mapAtoms, Expr.atoms] using (o.sym_mem _ _).1 hn
    rw [List.map_singleton, e] at ha
    cases hf : findArguments [[]] (.list [indexed 'q' 0]) .none false false with
    | error x => rw [hf] at ha; cases ha
    | ok r =>
      rw [hf] at ha
      obtain rfl : r = a := by simpa [liftN] using ha
      constructor
      · rw [List.eq_nil_iff_forall_not_mem]
        intro n hn
        obtain ⟨s, hs, hn⟩ := C53_found hf (.inr ⟨rfl, hn⟩)
        rw [List.mem_singleton.1 hs] at hn
        cases hn
      · rw [List.eq_nil_iff_forall_not_mem]
        intro n hn
        obtain ⟨s, hs, hn⟩ := C53_found hf (n := n) (.inl (List.mem_append_left _ hn))
        rw [List.mem_singleton.1 hs] at hn
        cases hn
  rw [hargs.2] at hps
  obtain ⟨C, hC, hv⟩ := hc [] (by simp [hargs])
  rw [hargs.1] at hC hv
  refine ⟨st, C, ⟨fun i c => if c = 0 then 0 else if i = 0 then -1 else if i = 1 then 0 else 1,
    fun i c => if c = 0 then (if i = 2 then 1 else 0) else 1, fun _ _ => 0, fun _ _ => 0⟩, hst, hps, hC, ⟨fun _ _ _ => 0, ?_⟩, ?_⟩
  · rw [hv]
    refine ⟨⟨fun _ c => if c = 0 then 0 else X, fun s hs => ?_, fun s hs m hm t hte => ?_⟩, ?_, fun s hs c hc => absurd hc (Nat.not_lt_zero c)⟩
    · obtain rfl : s = 0 := by simpa using hs
      intro c hcc
      simp only [List.length_singleton, mul_one] at hcc
      have r1 : knotRow [1] 0 = 0 := by decide
      have r2 : knotRow [1] 1 = 2 := by decide
      have r3 : colRow [1] 0 0 = 1 := by decide
      refine ⟨?_, ?_, fun _ => ?_, fun _ => ?_, fun hk => ?_⟩
      · dsimp only
        split_ifs
        · rw [degree_zero]; exact WithBot.bot_lt_coe _
        · rw [degree_X]; norm_num
      · intro m hm
        obtain rfl : m = 0 := by simpa using hm
        rw [r3]
        interval_cases c <;> simp [hcoll, tauToT, arr]
      · rw [r1, r2]
        interval_cases c <;> simp
      · rw [r1]
        interval_cases c <;> simp
      · rw [r2]
        interval_cases c
        · exact absurd hk (by decide)
        · simp
    · obtain rfl : s = 0 := by simpa using hs
      obtain rfl : m = 0 := by simpa using hm
      obtain rfl : t = 0 := by rw [hte]; simp [hcoll, tauToT, arr]
      refine ⟨by simp, fun σ ρ hs => ?_⟩
      simp [rowList, Expr.eval]
    · refine ⟨fun hk => absurd hk (by decide), fun hk => absurd hk (by decide), fun _ c hcc => ?_⟩
      have r2 : knotRow [1] 1 = 2 := by decide
      simp only [List.length_singleton] at hcc ⊢
      obtain rfl : c = 0 := by omega
      simp [r2]
  · intro P hP t
    have := (hP 0 (by norm_num)).1
    rw [derivative_of_natDegree_zero, eval_zero]
    exact Nat.le_zero.1 ((natDegree_derivative_le _).trans (by
      by_cases h0 : P 0 = 0
      · simp [h0]
      · have := (natDegree_lt_iff_degree_lt h0).2 this
        omega))

/-! ### Implicit dynamics -/

/-- The quantities have values where state `x_j` is `x j`, its derivative `xd j`, control number `m` is `u m`, multiplier number `m` is `lam m` and
the parameters are `p`. -/
structure ImplicitAt (a : Args) (xs : List Name) (x xd u lam : ℕ → ℝ) (p : List ℝ) (σ : Quantity → ℝ) (ρ : Name → ℝ) : Prop where
  values : Values σ ρ
  pos : xs.map (fun n => σ (.dyn n 0)) = rowList xs.length x
  der : xs.map (fun n => σ (.dyn n 1)) = rowList xs.length xd
  ctrl : a.u.map ρ = rowList a.u.length u
  mult : a.lam.map ρ = rowList a.lam.length lam
  par : a.params.map ρ = p

/-- Any states, derivatives, controls, multipliers and parameters are the values of some quantities. -/
theorem exists_implicit {xs : List Name} (hl : ∀ n ∈ xs, Plain n) (hnd : xs.Nodup) {u : UVars}
    (hu : FitU xs u) (o : SetOrder) {D : List Expr} (h : ∀ e ∈ D, Named e) {a : Args}
    (ha : findArgs o D (.list xs) u true false = .ok a) (x xd c lam : ℕ → ℝ) {p : List ℝ} (hp : p.length = a.params.length) :
    ∃ σ ρ, ImplicitAt a xs x xd c lam p σ ρ := by
  obtain ⟨a', ha', h1, h2, h3, -, h5, -, h7, -⟩ := args_ok (q := .list xs) (by simp) hl hnd hu true false o h
  rw [ha] at ha'
  cases ha'
  rw [h7 rfl, List.append_nil] at h1
  obtain ⟨ρ, hρ⟩ := exists_values h1 (vals := rowList a.q.length x ++ rowList a.v.length xd ++ rowList a.u.length c ++ p ++ rowList a.lam.length lam)
    (by simp [rowList_length, hp])
  simp only [List.map_append] at hρ
  obtain ⟨hρ, e5⟩ := List.append_inj hρ (by simp [rowList_length, hp])
  obtain ⟨hρ, e4⟩ := List.append_inj hρ (by simp [rowList_length])
  obtain ⟨hρ, e3⟩ := List.append_inj hρ (by simp [rowList_length])
  obtain ⟨e1, e2⟩ := List.append_inj hρ (by simp [rowList_length])
  obtain ⟨σ, hσ⟩ : ∃ σ : Quantity → ℝ, σ = fun x => match rename x with | .ok s => ρ s | .error _ => 0 := ⟨_, rfl⟩
  have hv : Values σ ρ := by
    intro x s hs
    rw [hσ]
    simp only [hs]
  obtain ⟨g1, g2, -⟩ := h5 σ ρ hv
  refine ⟨σ, ρ, hv, ?_, ?_, e3, e5, e4⟩
  · exact g1.symm.trans (by rw [e1, h2]; rfl)
  · exact g2.symm.trans (by rw [e2, h3]; rfl)

/-- All expressions are zero in a state. -/
def Obeys (a : Args) (xs : List Name) (D : List Expr) (p : List ℝ) (x xd c lam : ℕ → ℝ) : Prop :=
  ∀ σ ρ, ImplicitAt a xs x xd c lam p σ ρ → ∀ e ∈ D, e.eval σ = 0

/-- The function stored for implicit dynamics vanishes exactly where its expressions do. -/
theorem dynOf_implicit {q : List Name} (hl : ∀ n ∈ q, Plain n) (hnd : q.Nodup) (o : SetOrder) {DX DQ : List Expr}
    (hX : ∀ e ∈ DX, Named e) (hQ : ∀ e ∈ DQ, Named e) :
    ∃ a st, findArgs o DX (.list (Names.range 'x' (2 * q.length))) .none true false = .ok a ∧ implicitSetup o DX DQ q = .ok st ∧
      st.n_lambdas = a.lam.length ∧ ∀ p, p.length = a.params.length → ∀ x xd c lam, zero (dynOf st.dyn_f_restr p x xd c lam) ↔
        Obeys a (Names.range 'x' (2 * q.length)) DX p x xd c lam := by
  have hlx : ∀ n ∈ Names.range 'x' (2 * q.length), Plain n := fun n hn => by
    obtain ⟨i, -, rfl⟩ := List.mem_map.1 hn
    exact plain_indexed (.inr rfl) i
  obtain ⟨a0, st, -, hst, -, hF, s3, -⟩ := C131_implicit_partial hl hnd o hX hQ
  obtain ⟨a, F, ha, hF', s1, hr⟩ := C130_x (q := .list (Names.range 'x' (2 * q.length))) (by simp) hlx (range_nodup' _ _) (u := .none) trivial o hX
  rw [hF] at hF'
  cases hF'
  simp only [xNames] at s1 hr ha
  refine ⟨a, st, ha, hst, by rw [s1] at s3; simpa using s3.symm, fun p hp x xd c lam => ?_⟩
  have key : ∀ σ ρ, ImplicitAt a (Names.range 'x' (2 * q.length)) x xd c lam p σ ρ → (zero (dynOf st.dyn_f_restr p x xd c lam) ↔
      ∀ e ∈ DX, e.eval σ = 0) := by
    intro σ ρ hs
    have := hr σ ρ hs.values
    rw [hs.pos, hs.der, hs.ctrl, hs.mult, hs.par] at this
    have e : dynOf st.dyn_f_restr p x xd c lam = DX.map fun e => e.eval σ := by
      rw [← this]
      simp only [dynOf, s1, List.getD_cons_zero, List.getD_cons_succ]
    rw [e]
    simp [zero]
  constructor
  · exact fun hz σ ρ hs => (key σ ρ hs).1 hz
  · intro g
    obtain ⟨σ, ρ, hs⟩ := exists_implicit hlx (range_nodup' _ _) (u := .none) trivial o hX ha x xd c lam hp
    exact (key σ ρ hs).2 (g σ ρ hs)

/-- C141, equispaced: a problem with implicit dynamics has as feasible points the samples of the curves of C91 at which all expressions vanish, with the
multipliers of each sample. -/
theorem C141_equi {q : List Name} (hl : ∀ n ∈ q, Plain n) (hnd : q.Nodup) (o : SetOrder) {DX DQ : List Expr}
    (hX : ∀ e ∈ DX, Named e) (hQ : ∀ e ∈ DQ, Named e)
    {scheme : String} {s : Shape} (hs : SchemeIs (some 2) scheme s 2) (N : ℕ) (hN : 0 < N) {t_start t_end : ℝ} (hT : t_start ≠ t_end) :
    ∃ a st, findArgs o DX (.list (Names.range 'x' (2 * q.length))) .none true false = .ok a ∧ implicitSetup o DX DQ q = .ok st ∧
      st.n_lambdas = a.lam.length ∧
      ∀ p, p.length = a.params.length → ∃ P, equiConstraints (dynOf st.dyn_f_restr p) scheme N 2 q.length a.u.length t_start t_end = .ok P ∧
      ∀ v c : Vars, P v c ↔
        (∀ i < N, ∀ j < q.length, Reached s 2 (fun k => v.lev 2 q.length k i j) (fun k => v.lev 2 q.length k (i + 1) j)
          (fun k => c.lev 2 q.length k i j) (v.lev 2 q.length 2 i j) (v.lev 2 q.length 2 (i + 1) j)
          (c.lev 2 q.length 2 i j) ((t_end - t_start) / N)) ∧
        (∀ i ≤ N, Obeys a (Names.range 'x' (2 * q.length)) DX p (v.x i) (v.xd i) (v.u i) (v.lam i)) ∧
        ∀ θ, s = .parab θ → (∀ i < N, Obeys a (Names.range 'x' (2 * q.length)) DX p (c.x i) (c.xd i) (c.u i) (c.lam i)) ∧
          (LinearControl scheme → ∀ i < N, ∀ m < a.u.length, c.u i m = (1 - θ) * v.u i m + θ * v.u (i + 1) m) := by
  obtain ⟨a, st, ha, hst, hps, hz⟩ := dynOf_implicit hl hnd o hX hQ
  refine ⟨a, st, ha, hst, hps, fun p hp => ?_⟩
  obtain ⟨P, hP, hv⟩ := C91_motion (dynOf st.dyn_f_restr p) hs N q.length a.u.length hN hT
  refine ⟨P, hP, fun v c => ?_⟩
  rw [hv]
  simp only [hz p hp]

/-- C141, segmented bottom-up. -/
theorem C141_bu {q : List Name} (hl : ∀ n ∈ q, Plain n) (hnd : q.Nodup) (o : SetOrder) {DX DQ : List Expr}
    (hX : ∀ e ∈ DX, Named e) (hQ : ∀ e ∈ DQ, Named e)
    {scheme : String} (hs : scheme ∈ buImplemented) {points : List ℕ} (h0 : points ≠ []) (hN : ∀ p ∈ points, minPoints scheme ≤ p)
    (h1 : (∀ p ∈ points, 2 ≤ p) ∨ scheme ∉ gaussLike) {coll : ℕ → List ℝ} (hcoll : ∀ p ∈ points, collPoints p scheme 2 = .ok (coll p))
    {ext : List ℝ} (hle : ext.length = points.length + 1) (ht : ∀ s < points.length, ext.getD s 0 ≠ ext.getD (s + 1) 0) :
    ∃ a st, findArgs o DX (.list (Names.range 'x' (2 * q.length))) .none true false = .ok a ∧ implicitSetup o DX DQ q = .ok st ∧
      st.n_lambdas = a.lam.length ∧ ∀ p, p.length = a.params.length →
      ∃ C, phConstraints (dynOf st.dyn_f_restr p) .bu scheme 2 q.length a.u.length points ext = .ok C ∧ ∀ v c, C v c ↔
        (∃ Q : ℕ → ℕ → ℝ[X], (∀ s < points.length, SegPoly v 2 q.length points coll (fun s => ext.getD s 0) s (Q s) ∧
          (∀ j < q.length, v.xd (knotRow points s) (q.length + j) = (derivative (derivative (Q s j))).eval (ext.getD s 0)) ∧
          (s + 1 = points.length → ∀ j < q.length,
            v.xd (knotRow points (s + 1)) (q.length + j) = (derivative (derivative (Q s j))).eval (ext.getD (s + 1) 0)))) ∧
        (∀ s < points.length, ∀ m < points.getD s 0, Obeys a (Names.range 'x' (2 * q.length)) DX p (v.x (colRow points s m)) (v.xd (colRow points s m))
          (v.u (colRow points s m)) (v.lam (collBefore points s + m))) ∧
        (∀ s ≤ points.length, KnotShift v 2 q.length points s) ∧ PhControls v a.u.length points coll (fun s => ext.getD s 0) := by
  obtain ⟨a, st, ha, hst, hps, hz⟩ := dynOf_implicit hl hnd o hX hQ
  refine ⟨a, st, ha, hst, hps, fun p hp => ?_⟩
  obtain ⟨C, hC, hv⟩ := C99_feasible hs (order := 2) (by norm_num) (dynOf st.dyn_f_restr p) q.length a.u.length h0 hN h1 hcoll hle ht
  refine ⟨C, hC, fun v c => ?_⟩
  rw [hv]
  simp only [PhCollocated, hz p hp, (lev_two _ _ _ _).2.2, Function.iterate_succ, Function.iterate_zero, Function.comp_apply, id]
  constructor
  · rintro ⟨g1, g2, g3, g4⟩
    exact ⟨g1, g3, g2, g4⟩
  · rintro ⟨g1, g3, g2, g4⟩
    exact ⟨g1, g2, g3, g4⟩

/-! ### Examples -/

/-- The feasible points of a pendulum over 3 intervals. -/
example : ∃ a st, findArgs textOrder [pendulum] (.list [indexed 'q' 0]) .none false false = .ok a ∧
    explicitSetup textOrder [pendulum] [indexed 'q' 0] .none = .ok st ∧ ∀ p, p.length = a.params.length → ∃ P,
      equiConstraints (dynOf st.dyn_f_restr p) "hs_mod" 3 2 1 a.u.length 0 2 = .ok P := by
  obtain ⟨a, st, ha, hst, -, h⟩ := C139_motion (q := [indexed 'q' 0]) plain_q0 (List.nodup_singleton _) (u := .none) trivial textOrder
    (RHS := [pendulum]) (by simpa using pendulum_named.1) rfl SchemeIs.hs_mod 3 (by norm_num) (t_start := 0) (t_end := 2) (by norm_num)
  exact ⟨a, st, ha, hst, fun p hp => ⟨_, (h p hp).choose_spec.1⟩⟩

/-- A pendulum in two segments. -/
example : ∃ a st, findArgs textOrder [pendulum] (.list [indexed 'q' 0]) .none false false = .ok a ∧
    explicitSetup textOrder [pendulum] [indexed 'q' 0] .none = .ok st ∧ ∀ p, p.length = a.params.length → ∃ C,
      phConstraints (dynOf st.dyn_f_restr p) .bu "LG" 2 1 a.u.length [3, 2] [0, 1, 3] = .ok C := by
  obtain ⟨a, st, ha, hst, -, h⟩ := C140_bu (q := [indexed 'q' 0]) plain_q0 (List.nodup_singleton _) (u := .none) trivial textOrder
    (RHS := [pendulum]) (by simpa using pendulum_named.1) rfl (scheme := "LG") (by decide) (points := [3, 2]) (by simp) (by decide)
    (.inl (by decide)) (coll := LG) (by simp [collPoints]) (ext := [0, 1, 3]) rfl (by
      intro s hs
      have hs : s < 2 := hs
      interval_cases s <;> norm_num)
  exact ⟨a, st, ha, hst, fun p hp => ⟨_, (h p hp).choose_spec.1⟩⟩

/-- A system in a state, with values of its quantities. -/
example : ∃ a, findArgs textOrder [pendulum] (.list [indexed 'q' 0]) .none false false = .ok a ∧ ∀ p : List ℝ, p.length = a.params.length →
    ∃ σ ρ, StateAt a [indexed 'q' 0] (fun _ => 1) (fun _ => 2) (fun _ => 3) p σ ρ := by
  obtain ⟨a, st, ha, -⟩ := dynOf_explicit (q := [indexed 'q' 0]) plain_q0 (List.nodup_singleton _) (u := .none) trivial textOrder
    (RHS := [pendulum]) (by simpa using pendulum_named.1) rfl
  exact ⟨a, ha, fun p hp => exists_state plain_q0 (List.nodup_singleton _) (u := .none) trivial textOrder (by simpa using pendulum_named.1) ha _ _ _ hp⟩

end Chords.Props
