import Verif.Props.EndToEnd
import Verif.Props.Solvable
import Mathlib.Analysis.SpecialFunctions.Trigonometric.Deriv

/-! # C158: problems given by expressions have one feasible trajectory, close to the motion -/

namespace Chords.Conv
open Set Chords.Spec Chords.Props Chords.BuTd Chords.Equi Chords.Problem Chords.Names Chords.CasFuncs Chords.EndToEnd

variable [PyChars]

/-- The expressions have the Lipschitz constant `L` in the positions and velocities of a region, for all controls. -/
def LipExprs (a : Args) (q : List Name) (RHS : List Expr) (p : List ℝ) (S : (ℕ → ℕ → ℝ) → Prop) (L : ℝ) : Prop :=
  ∀ ξ η c c' σ ρ σ' ρ' d, S ξ → S η → StateAt a q (ξ 0) (ξ 1) c p σ ρ → StateAt a q (η 0) (η 1) c' p σ' ρ' →
    (∀ j < q.length, |ξ 0 j - η 0 j| ≤ d ∧ |ξ 1 j - η 1 j| ≤ d) → (∀ m < a.u.length, c m = c' m) → ∀ e ∈ RHS, |e.eval σ - e.eval σ'| ≤ L * d

/-- A motion of the system in `N` intervals of length `h`: `Z i j k` is the derivative of order `k` of the coordinate `j` in the interval `i`, the
accelerations are those of the expressions with the controls `w`, and positions and velocities pass by the states `y` without jumps. -/
structure ExprMotion (a : Args) (q : List Name) (RHS : List Expr) (p : List ℝ) (r : ℕ) (h : ℝ) (N : ℕ) (y : ℕ → ℕ → ℕ → ℝ) (w : ℕ → ℝ → ℕ → ℝ)
    (Z : ℕ → ℕ → ℕ → ℝ → ℝ) : Prop where
  tower : ∀ i < N, ∀ j < q.length, ∀ k < 2 + r, ∀ s ∈ Icc (0 : ℝ) h, HasDerivWithinAt (Z i j k) (Z i j (k + 1) s) (Icc 0 h) s
  newton : ∀ i < N, ∀ s ∈ Icc (0 : ℝ) h, ∀ σ ρ, StateAt a q (fun j => Z i j 0 s) (fun j => Z i j 1 s) (w i s) p σ ρ →
    rowList q.length (fun j => Z i j 2 s) = RHS.map fun e => e.eval σ
  start : ∀ i < N, ∀ j < q.length, ∀ k < 2, Z i j k 0 = y i k j
  stop : ∀ i < N, ∀ j < q.length, ∀ k < 2, Z i j k h = y (i + 1) k j

section
variable {q : List Name} {u : UVars} {RHS : List Expr}

/-- The accelerations as functions of the state. -/
theorem expr_dyn (hl : ∀ n ∈ q, Plain n) (hnd : q.Nodup) (hu : FitU q u) (o : SetOrder) (h : ∀ e ∈ RHS, Named e) (hn : RHS.length = q.length) :
    ∃ a st, findArgs o RHS (.list q) u false false = .ok a ∧ explicitSetup o RHS q u = .ok st ∧ st.params_sym = a.params ∧
      ∀ p, p.length = a.params.length → ∃ A : (ℕ → ℕ → ℝ) → (ℕ → ℝ) → ℕ → ℝ, Solved (dynOf st.dyn_f_restr p) 2 q.length A ∧
        Explicit (dynOf st.dyn_f_restr p) 2 q.length A ∧ (∀ S L, LipExprs a q RHS p S L → LipA A S 2 q.length a.u.length L) ∧
        (∀ r h N y w Z, ExprMotion a q RHS p r h N y w Z → Motions A 2 q.length r h N y w Z) ∧
        ∀ ξ c acc, Newton a q RHS p (ξ 0) (ξ 1) c acc ↔ ∀ j < q.length, acc j = A ξ c j := by
  obtain ⟨a, st, ha, hst, hps, hz⟩ := dynOf_explicit hl hnd hu o h hn
  refine ⟨a, st, ha, hst, hps, fun p hp => ?_⟩
  have hA := fun (ξ : ℕ → ℕ → ℝ) c => newton_exists hl hnd hu o h hn ha hp (ξ 0) (ξ 1) c
  choose A hA using hA
  have hst := fun y w c => exists_state hl hnd hu o h ha y w c hp
  have key : ∀ ξ c acc, Newton a q RHS p (ξ 0) (ξ 1) c acc ↔ ∀ j < q.length, acc j = A ξ c j := by
    intro ξ c acc
    constructor
    · intro g
      obtain ⟨σ, ρ, hs⟩ := hst (ξ 0) (ξ 1) c
      exact rowList_eq.1 ((g σ ρ hs).trans (hA ξ c σ ρ hs).symm)
    · intro g
      exact (newton_congr (fun _ _ => rfl) (fun _ _ => rfl) g).2 (hA ξ c)
  have hsol : Solved (dynOf st.dyn_f_restr p) 2 q.length A := by
    intro x xd c lam
    rw [hz p hp]
    refine and_congr ⟨fun g k hk j hj => ?_, fun g j hj => ?_⟩ ?_
    · obtain rfl : k = 0 := by omega
      simpa using g j hj
    · simpa using g 0 (by norm_num) j hj
    · have := key (fun p j => x (q.length * p + j)) c fun j => xd (q.length + j)
      simpa using this
  refine ⟨A, hsol, fun x xd c lam hzz j hj => ?_, fun S L hL ξ η c c' d h1 h2 h3 h4 j hj => ?_, fun r h N y w Z hm =>
    ⟨hm.tower, fun i hi s hs => ?_, hm.start, hm.stop⟩, key⟩
  · have := ((hsol x xd c lam).1 hzz).2 j hj
    simpa only [mul_comm] using this
  · obtain ⟨σ, ρ, hs⟩ := hst (ξ 0) (ξ 1) c
    obtain ⟨σ', ρ', hs'⟩ := hst (η 0) (η 1) c'
    have e := congrArg (fun l => l[j]?) (hA ξ c σ ρ hs)
    have e' := congrArg (fun l => l[j]?) (hA η c' σ' ρ' hs')
    have hj' : j < RHS.length := by omega
    simp only [rowList, List.getElem?_map, List.getElem?_range hj, List.getElem?_eq_getElem hj', Option.map_some, Option.some.injEq] at e e'
    rw [e, e']
    exact hL ξ η c c' σ ρ σ' ρ' d h1 h2 hs hs' (fun j hj => ⟨h3 0 (by norm_num) j hj, h3 1 (by norm_num) j hj⟩) h4 _ (List.getElem_mem _)
  · exact (key (fun k j => Z i j k s) (w i s) fun j => Z i j 2 s).1 (hm.newton i hi s hs)

/-- C158: with short steps, a problem given by the expressions of its accelerations, discretized with a scheme of order 2, has exactly one
feasible point for every start and choice of the controls. -/
theorem C158_motion (hl : ∀ n ∈ q, Plain n) (hnd : q.Nodup) (hu : FitU q u) (o : SetOrder) (h : ∀ e ∈ RHS, Named e) (hn : RHS.length = q.length)
    {scheme : String} {s : Shape} (hs : SchemeIs (some 2) scheme s 2) {N : ℕ} (hN : 0 < N) {t_start t_end : ℝ} (hT : t_start < t_end) :
    ∃ a st, findArgs o RHS (.list q) u false false = .ok a ∧ explicitSetup o RHS q u = .ok st ∧ st.params_sym = a.params ∧
      ∀ p, p.length = a.params.length → ∀ L, 0 ≤ L → LipExprs a q RHS p (fun _ => True) L → (t_end - t_start) / N * (2 + 20 * L) ≤ 1 / 2 →
      ∃ P, equiConstraints (dynOf st.dyn_f_restr p) scheme N 2 q.length a.u.length t_start t_end = .ok P ∧ ∀ x0 c cc : ℕ → ℕ → ℝ,
        (∀ θ, s = .parab θ → LinearControl scheme → ∀ i < N, ∀ m < a.u.length, cc i m = (1 - θ) * c i m + θ * c (i + 1) m) →
        (∃ v v', P v v' ∧ Chosen 2 q.length a.u.length N x0 c cc v v') ∧
        ∀ v v' w w', P v v' → P w w' → Chosen 2 q.length a.u.length N x0 c cc v v' → Chosen 2 q.length a.u.length N x0 c cc w w' →
          (∀ i ≤ N, ∀ k ≤ 2, ∀ j < q.length, v.lev 2 q.length k i j = w.lev 2 q.length k i j) ∧
          ∀ θ, s = .parab θ → ∀ i < N, ∀ k ≤ 2, ∀ j < q.length, v'.lev 2 q.length k i j = w'.lev 2 q.length k i j := by
  obtain ⟨a, st, ha, hst, hps, hA⟩ := expr_dyn hl hnd hu o h hn
  refine ⟨a, st, ha, hst, hps, fun p hp L hL0 hL hhL => ?_⟩
  obtain ⟨A, h1, -, h2, -⟩ := hA p hp
  exact C157_motion hs two_pos hN hT h1 hL0 (h2 _ _ hL) rfl hhL

/-- C158, uniqueness, for `trapz`, `hs` and `hs_parab`. -/
theorem C158_levels (hl : ∀ n ∈ q, Plain n) (hnd : q.Nodup) (hu : FitU q u) (o : SetOrder) (h : ∀ e ∈ RHS, Named e) (hn : RHS.length = q.length)
    {scheme : String} {s : Shape} (hs : scheme = "trapz" ∧ s = .line ∨ (scheme = "hs" ∨ scheme = "hs_parab") ∧ s = .parab (1 / 2)) {N : ℕ} (hN : 0 < N)
    {t_start t_end : ℝ} (hT : t_start < t_end) :
    ∃ a st, findArgs o RHS (.list q) u false false = .ok a ∧ explicitSetup o RHS q u = .ok st ∧ st.params_sym = a.params ∧
      ∀ p, p.length = a.params.length → ∀ L, 1 ≤ L → LipExprs a q RHS p (fun _ => True) L → (t_end - t_start) / N * (2 + 20 * L) ≤ 1 / 2 →
      ∃ P, equiConstraints (dynOf st.dyn_f_restr p) scheme N 2 q.length a.u.length t_start t_end = .ok P ∧ ∀ x0 c cc : ℕ → ℕ → ℝ,
        (scheme = "hs" → ∀ i < N, ∀ m < a.u.length, cc i m = (c i m + c (i + 1) m) / 2) →
        (∃ v v', P v v' ∧ Chosen 2 q.length a.u.length N x0 c cc v v') ∧
        ∀ v v' w w', P v v' → P w w' → Chosen 2 q.length a.u.length N x0 c cc v v' → Chosen 2 q.length a.u.length N x0 c cc w w' →
          (∀ i ≤ N, ∀ k ≤ 2, ∀ j < q.length, v.lev 2 q.length k i j = w.lev 2 q.length k i j) ∧
          (s ≠ .line → ∀ i < N, ∀ k ≤ 2, ∀ j < q.length, v'.lev 2 q.length k i j = w'.lev 2 q.length k i j) := by
  obtain ⟨a, st, ha, hst, hps, hA⟩ := expr_dyn hl hnd hu o h hn
  refine ⟨a, st, ha, hst, hps, fun p hp L hL1 hL hhL => ?_⟩
  obtain ⟨A, h1, -, h2, -⟩ := hA p hp
  exact C157_levels hs two_pos hN hT h1 hL1 (h2 _ _ hL) rfl hhL

/-- C158: its feasible points, and the curves of the scheme through them, are near the motion of the expressions, with an error of order 2 for the schemes with the
acceleration on a line. -/
theorem C158_line (hl : ∀ n ∈ q, Plain n) (hnd : q.Nodup) (hu : FitU q u) (o : SetOrder) (h : ∀ e ∈ RHS, Named e) (hn : RHS.length = q.length)
    {scheme : String} (hs : SchemeIs (some 2) scheme .line 2) {N : ℕ} (hN : 0 < N) {t_start t_end H : ℝ} (hT : t_start < t_end) (hH : H = (t_end - t_start) / N) :
    ∃ a st, findArgs o RHS (.list q) u false false = .ok a ∧ explicitSetup o RHS q u = .ok st ∧ st.params_sym = a.params ∧
      ∀ p, p.length = a.params.length → ∀ S L, 0 ≤ L → LipExprs a q RHS p S L → H * (2 + 2 * L) ≤ 1 / 2 →
      ∀ y w Z K d0, ExprMotion a q RHS p 2 H N y w Z → 0 ≤ K → (∀ i < N, ∀ j < q.length, ∀ s ∈ Icc (0 : ℝ) H, |Z i j 4 s| ≤ K) → 0 ≤ d0 →
      ∃ P, equiConstraints (dynOf st.dyn_f_restr p) scheme N 2 q.length a.u.length t_start t_end = .ok P ∧
        ∀ v c : Vars, P v c → SampleControls a.u.length N H v w → InRegion S q.length N H v c Z →
        (∀ j < q.length, ∀ k < 2, |v.lev 2 q.length k 0 j - y 0 k j| ≤ d0) →
        SamplesNear 2 q.length N v y (fun i => Real.exp (4 * (2 + 2 * L) * (i * H)) * (d0 + i * H * (4 * K) * H ^ 2)) ∧
        CurvesNear .line 2 q.length N H v c Z fun i => 2 * (Real.exp (4 * (2 + 2 * L) * ((i + 1 : ℕ) * H)) * (d0 + (i + 1 : ℕ) * H * (4 * K) * H ^ 2)) + 3 * K * H ^ 3 := by
  obtain ⟨a, st, ha, hst, hps, hA⟩ := expr_dyn hl hnd hu o h hn
  refine ⟨a, st, ha, hst, hps, fun p hp S L hL0 hL hhL y w Z K d0 hM hK0 hK hd => ?_⟩
  obtain ⟨A, -, h1, h2, h3, -⟩ := hA p hp
  exact C155_line hs hN hT h1 hL0 (h2 _ _ hL) hH hhL (h3 _ _ _ _ _ _ hM) hK0 hK hd

/-- C158, of order 3 for the schemes with the acceleration on a parabola. -/
theorem C158_parab (hl : ∀ n ∈ q, Plain n) (hnd : q.Nodup) (hu : FitU q u) (o : SetOrder) (h : ∀ e ∈ RHS, Named e) (hn : RHS.length = q.length)
    {scheme : String} {θ : ℝ} (hs : SchemeIs (some 2) scheme (.parab θ) 2) {N : ℕ} (hN : 0 < N) {t_start t_end H : ℝ} (hT : t_start < t_end)
    (hH : H = (t_end - t_start) / N) :
    ∃ a st, findArgs o RHS (.list q) u false false = .ok a ∧ explicitSetup o RHS q u = .ok st ∧ st.params_sym = a.params ∧
      ∀ p, p.length = a.params.length → ∀ S L, 0 ≤ L → LipExprs a q RHS p S L → H * (2 + 20 * L) ≤ 1 / 2 →
      ∀ y w Z K d0, ExprMotion a q RHS p 3 H N y w Z → 0 ≤ K → (∀ i < N, ∀ j < q.length, ∀ s ∈ Icc (0 : ℝ) H, |Z i j 5 s| ≤ K) → 0 ≤ d0 →
      ∃ P, equiConstraints (dynOf st.dyn_f_restr p) scheme N 2 q.length a.u.length t_start t_end = .ok P ∧
        ∀ v c : Vars, P v c → SampleControls a.u.length N H v w → (∀ i < N, ∀ m < a.u.length, c.u i m = w i (θ * H) m) → InRegion S q.length N H v c Z →
        (∀ j < q.length, ∀ k < 2, |v.lev 2 q.length k 0 j - y 0 k j| ≤ d0) →
        SamplesNear 2 q.length N v y (fun i => Real.exp (4 * (2 + 20 * L) * (i * H)) * (d0 + i * H * (6 * K) * H ^ 3)) ∧
        CurvesNear (.parab θ) 2 q.length N H v c Z fun i => 2 * (Real.exp (4 * (2 + 20 * L) * ((i + 1 : ℕ) * H)) * (d0 + (i + 1 : ℕ) * H * (6 * K) * H ^ 3)) + 3 * K * H ^ 4 := by
  obtain ⟨a, st, ha, hst, hps, hA⟩ := expr_dyn hl hnd hu o h hn
  refine ⟨a, st, ha, hst, hps, fun p hp S L hL0 hL hhL y w Z K d0 hM hK0 hK hd => ?_⟩
  obtain ⟨A, -, h1, h2, h3, -⟩ := hA p hp
  exact C155_parab hs hN hT h1 hL0 (h2 _ _ hL) hH hhL (h3 _ _ _ _ _ _ hM) hK0 hK hd

/-- C158, of order 4 when the inner point is in the middle. -/
theorem C158_half (hl : ∀ n ∈ q, Plain n) (hnd : q.Nodup) (hu : FitU q u) (o : SetOrder) (h : ∀ e ∈ RHS, Named e) (hn : RHS.length = q.length)
    {scheme : String} (hs : SchemeIs (some 2) scheme (.parab (1 / 2)) 2) {N : ℕ} (hN : 0 < N) {t_start t_end H : ℝ} (hT : t_start < t_end)
    (hH : H = (t_end - t_start) / N) :
    ∃ a st, findArgs o RHS (.list q) u false false = .ok a ∧ explicitSetup o RHS q u = .ok st ∧ st.params_sym = a.params ∧
      ∀ p, p.length = a.params.length → ∀ S L, 0 ≤ L → LipExprs a q RHS p S L → H * (2 + 20 * L) ≤ 1 / 2 →
      ∀ y w Z K K' d0, ExprMotion a q RHS p 4 H N y w Z → 0 ≤ K → 0 ≤ K' →
      (∀ i < N, ∀ j < q.length, ∀ s ∈ Icc (0 : ℝ) H, |Z i j 5 s| ≤ K ∧ |Z i j 6 s| ≤ K') → 0 ≤ d0 →
      ∃ P, equiConstraints (dynOf st.dyn_f_restr p) scheme N 2 q.length a.u.length t_start t_end = .ok P ∧
        ∀ v c : Vars, P v c → SampleControls a.u.length N H v w → (∀ i < N, ∀ m < a.u.length, c.u i m = w i (1 / 2 * H) m) → InRegion S q.length N H v c Z →
        (∀ j < q.length, ∀ k < 2, |v.lev 2 q.length k 0 j - y 0 k j| ≤ d0) →
        SamplesNear 2 q.length N v y (fun i => Real.exp (4 * (2 + 20 * L) * (i * H)) * (d0 + i * H * (8 * K + 6 * L * K + K' / 24) * H ^ 4)) ∧
        CurvesNear (.parab (1 / 2)) 2 q.length N H v c Z fun i =>
          2 * (Real.exp (4 * (2 + 20 * L) * ((i + 1 : ℕ) * H)) * (d0 + (i + 1 : ℕ) * H * (8 * K + 6 * L * K + K' / 24) * H ^ 4)) + 3 * K * H ^ 4 := by
  obtain ⟨a, st, ha, hst, hps, hA⟩ := expr_dyn hl hnd hu o h hn
  refine ⟨a, st, ha, hst, hps, fun p hp S L hL0 hL hhL y w Z K K' d0 hM hK0 hK0' hK hd => ?_⟩
  obtain ⟨A, -, h1, h2, h3, -⟩ := hA p hp
  exact C155_half hs hN hT h1 hL0 (h2 _ _ hL) hH hhL (h3 _ _ _ _ _ _ hM) hK0 hK0' hK hd

/-- C158 for `trapz`, of order 2. -/
theorem C158_trapz (hl : ∀ n ∈ q, Plain n) (hnd : q.Nodup) (hu : FitU q u) (o : SetOrder) (h : ∀ e ∈ RHS, Named e) (hn : RHS.length = q.length)
    {N : ℕ} (hN : 0 < N) {t_start t_end H : ℝ} (hT : t_start < t_end) (hH : H = (t_end - t_start) / N) :
    ∃ a st, findArgs o RHS (.list q) u false false = .ok a ∧ explicitSetup o RHS q u = .ok st ∧ st.params_sym = a.params ∧
      ∀ p, p.length = a.params.length → ∀ S L, 1 ≤ L → LipExprs a q RHS p S L → H * (2 + 2 * L) ≤ 1 / 2 →
      ∀ y w Z K d0, ExprMotion a q RHS p 2 H N y w Z → 0 ≤ K → (∀ i < N, ∀ j < q.length, ∀ k < 2, ∀ s ∈ Icc (0 : ℝ) H, |Z i j (k + 3) s| ≤ K) → 0 ≤ d0 →
      ∃ P, equiConstraints (dynOf st.dyn_f_restr p) "trapz" N 2 q.length a.u.length t_start t_end = .ok P ∧
        ∀ v c : Vars, P v c → SampleControls a.u.length N H v w → InRegion S q.length N H v c Z →
        (∀ j < q.length, ∀ k < 2, |v.lev 2 q.length k 0 j - y 0 k j| ≤ d0) →
        SamplesNear 2 q.length N v y (fun i => Real.exp (4 * (2 + 2 * L) * (i * H)) * (d0 + i * H * (4 * K) * H ^ 2)) ∧
        LevelsNear .line 2 q.length N H v c Z fun i => 2 * (Real.exp (4 * (2 + 2 * L) * ((i + 1 : ℕ) * H)) * (d0 + (i + 1 : ℕ) * H * (4 * K) * H ^ 2)) + 3 * K * H ^ 3 := by
  obtain ⟨a, st, ha, hst, hps, hA⟩ := expr_dyn hl hnd hu o h hn
  refine ⟨a, st, ha, hst, hps, fun p hp S L hL1 hL hhL y w Z K d0 hM hK0 hK hd => ?_⟩
  obtain ⟨A, -, h1, h2, h3, -⟩ := hA p hp
  exact C155_trapz hN hT h1 hL1 (h2 _ _ hL) hH hhL (h3 _ _ _ _ _ _ hM) hK0 hK hd

/-- C158 for `hs` and `hs_parab`, of order 4. -/
theorem C158_hs (hl : ∀ n ∈ q, Plain n) (hnd : q.Nodup) (hu : FitU q u) (o : SetOrder) (h : ∀ e ∈ RHS, Named e) (hn : RHS.length = q.length)
    {scheme : String} (hs : scheme = "hs" ∨ scheme = "hs_parab") {N : ℕ} (hN : 0 < N) {t_start t_end H : ℝ} (hT : t_start < t_end)
    (hH : H = (t_end - t_start) / N) :
    ∃ a st, findArgs o RHS (.list q) u false false = .ok a ∧ explicitSetup o RHS q u = .ok st ∧ st.params_sym = a.params ∧
      ∀ p, p.length = a.params.length → ∀ S L, 1 ≤ L → LipExprs a q RHS p S L → H * (2 + 20 * L) ≤ 1 / 2 →
      ∀ y w Z K K' d0, ExprMotion a q RHS p 4 H N y w Z → 0 ≤ K → 0 ≤ K' →
      (∀ i < N, ∀ j < q.length, ∀ k < 2, ∀ s ∈ Icc (0 : ℝ) H, |Z i j (k + 4) s| ≤ K ∧ |Z i j (k + 5) s| ≤ K') → 0 ≤ d0 →
      ∃ P, equiConstraints (dynOf st.dyn_f_restr p) scheme N 2 q.length a.u.length t_start t_end = .ok P ∧
        ∀ v c : Vars, P v c → SampleControls a.u.length N H v w → (∀ i < N, ∀ m < a.u.length, c.u i m = w i (1 / 2 * H) m) → InRegion S q.length N H v c Z →
        (∀ j < q.length, ∀ k < 2, |v.lev 2 q.length k 0 j - y 0 k j| ≤ d0) →
        SamplesNear 2 q.length N v y (fun i => Real.exp (4 * (2 + 20 * L) * (i * H)) * (d0 + i * H * (8 * K + 6 * L * K + K' / 24) * H ^ 4)) ∧
        LevelsNear (.parab (1 / 2)) 2 q.length N H v c Z fun i =>
          2 * (Real.exp (4 * (2 + 20 * L) * ((i + 1 : ℕ) * H)) * (d0 + (i + 1 : ℕ) * H * (8 * K + 6 * L * K + K' / 24) * H ^ 4)) + 3 * K * H ^ 4 := by
  obtain ⟨a, st, ha, hst, hps, hA⟩ := expr_dyn hl hnd hu o h hn
  refine ⟨a, st, ha, hst, hps, fun p hp S L hL1 hL hhL y w Z K K' d0 hM hK0 hK0' hK hd => ?_⟩
  obtain ⟨A, -, h1, h2, h3, -⟩ := hA p hp
  exact C155_hs hs hN hT h1 hL1 (h2 _ _ hL) hH hhL (h3 _ _ _ _ _ _ hM) hK0 hK0' hK hd
end

/-! ### Examples -/

/-- The acceleration of an oscillator, `-q_0`. -/
noncomputable def oscillator : Expr := .mul (.num (-1)) (.atom (.dyn (indexed 'q' 0) 0))

theorem oscillator_named : ∀ e ∈ [oscillator], Named e := by
  intro e he
  rw [List.mem_singleton.1 he]
  intro x hx
  simp only [oscillator, Expr.atoms, List.nil_append, List.mem_singleton] at hx
  rw [hx, rename_ok]
  exact ⟨_, rfl⟩

theorem oscillator_at {a : Args} {y w c : ℕ → ℝ} {p : List ℝ} {σ : Quantity → ℝ} {ρ : Name → ℝ} (hs : StateAt a [indexed 'q' 0] y w c p σ ρ) :
    oscillator.eval σ = -y 0 := by
  have := hs.pos
  simp only [List.map_cons, List.map_nil, List.length_singleton, rowList, List.range_one, List.cons.injEq, and_true] at this
  simp [oscillator, Expr.eval, this]

theorem oscillator_lip (a : Args) (p : List ℝ) : LipExprs a [indexed 'q' 0] [oscillator] p (fun _ => True) 1 := by
  intro ξ η c c' σ ρ σ' ρ' d _ _ h1 h2 h3 _ e he
  rw [List.mem_singleton.1 he, oscillator_at h1, oscillator_at h2, one_mul]
  have := (h3 0 (by simp)).1
  rwa [← abs_neg, show -(-ξ 0 0 - -η 0 0) = ξ 0 0 - η 0 0 by ring]

theorem oscillator_motion (a : Args) (p : List ℝ) (r N : ℕ) (h : ℝ) : ExprMotion a [indexed 'q' 0] [oscillator] p r h N
    (fun i k _ => Real.cos (i * h + k * (Real.pi / 2))) (fun _ _ _ => 0) fun i _ k s => Real.cos (i * h + s + k * (Real.pi / 2)) where
  tower i _ j _ k _ s _ := by
    have := ((hasDerivAt_id s).const_add ((i : ℝ) * h)).add_const ((k : ℝ) * (Real.pi / 2))
    have := (Real.hasDerivAt_cos _).comp s this
    refine this.hasDerivWithinAt.congr_deriv ?_
    push_cast
    rw [show (i : ℝ) * h + s + (k + 1) * (Real.pi / 2) = i * h + s + k * (Real.pi / 2) + Real.pi / 2 by ring, Real.cos_add_pi_div_two]
    simp
  newton i _ s _ σ ρ hs := by
    simp only [List.map_cons, List.map_nil, List.length_singleton, rowList, List.range_one, oscillator_at hs]
    push_cast
    rw [show (i : ℝ) * h + s + 2 * (Real.pi / 2) = i * h + s + 0 * (Real.pi / 2) + Real.pi by ring, Real.cos_add_pi]
  start i _ j _ k _ := by simp
  stop i _ j _ k _ := by
    push_cast
    congr 1
    ring

/-- Over 44 intervals or more, `hs_mod` gives an oscillator one trajectory for every start. -/
example (N : ℕ) (hN : 44 ≤ N) : ∃ a st, findArgs textOrder [oscillator] (.list [indexed 'q' 0]) .none false false = .ok a ∧
    explicitSetup textOrder [oscillator] [indexed 'q' 0] .none = .ok st ∧ ∀ p, p.length = a.params.length → ∃ P,
      equiConstraints (dynOf st.dyn_f_restr p) "hs_mod" N 2 1 a.u.length 0 1 = .ok P ∧ ∀ x0 : ℕ → ℕ → ℝ,
        ∃ v c, P v c ∧ Chosen 2 1 a.u.length N x0 (fun _ _ => 0) (fun _ _ => 0) v c := by
  have hN' : (44 : ℝ) ≤ N := by exact_mod_cast hN
  obtain ⟨a, st, ha, hst, -, h⟩ := C158_motion (q := [indexed 'q' 0]) plain_q0 (List.nodup_singleton _) (u := .none) trivial textOrder oscillator_named rfl
    SchemeIs.hs_mod (N := N) (by omega) (t_start := 0) (t_end := 1) one_pos
  refine ⟨a, st, ha, hst, fun p hp => ?_⟩
  obtain ⟨P, hP, g⟩ := h p hp 1 zero_le_one (oscillator_lip a p) (by rw [sub_zero, one_div, inv_mul_le_iff₀ (by linarith)]; linarith)
  exact ⟨P, hP, fun x0 => (g x0 _ _ (by simp)).1⟩

/-- And it is close to the cosine if it starts with it. -/
example (N : ℕ) (hN : 44 ≤ N) : ∃ a st, findArgs textOrder [oscillator] (.list [indexed 'q' 0]) .none false false = .ok a ∧
    explicitSetup textOrder [oscillator] [indexed 'q' 0] .none = .ok st ∧ ∀ p, p.length = a.params.length → ∃ P,
      equiConstraints (dynOf st.dyn_f_restr p) "hs_mod" N 2 1 a.u.length 0 1 = .ok P ∧ ∀ v c, P v c →
        Chosen 2 1 a.u.length N (fun k _ => Real.cos (k * (Real.pi / 2))) (fun _ _ => 0) (fun _ _ => 0) v c →
        ∀ i ≤ N, |v.x i 0 - Real.cos (i * (1 / N))| ≤ Real.exp (4 * (2 + 20 * 1) * (i * (1 / N))) * (i * (1 / N) * (8 * 1 + 6 * 1 * 1 + 1 / 24) * (1 / N) ^ 4) := by
  have hN' : (44 : ℝ) ≤ N := by exact_mod_cast hN
  obtain ⟨a, st, ha, hst, -, h⟩ := C158_half (q := [indexed 'q' 0]) plain_q0 (List.nodup_singleton _) (u := .none) trivial textOrder oscillator_named rfl
    SchemeIs.hs_mod (N := N) (by omega) (t_start := 0) (t_end := 1) (H := 1 / N) one_pos (by simp)
  refine ⟨a, st, ha, hst, fun p hp => ?_⟩
  obtain ⟨P, hP, g⟩ := h p hp (fun _ => True) 1 zero_le_one (oscillator_lip a p) (by rw [one_div, inv_mul_le_iff₀ (by linarith)]; linarith) _ _ _ 1 1 0
    (oscillator_motion a p 4 N (1 / N)) zero_le_one zero_le_one (fun _ _ _ _ _ _ => ⟨Real.abs_cos_le_one _, Real.abs_cos_le_one _⟩) le_rfl
  refine ⟨P, hP, fun v c hv hc i hi => ?_⟩
  obtain ⟨g1, -⟩ := g v c hv (fun i hi m hm => ⟨hc.controls i hi.le m hm, hc.controls (i + 1) hi m hm⟩) (fun i hi m hm => hc.centres i hi m hm)
    ⟨fun _ _ => trivial, fun _ _ => trivial, fun _ _ _ _ => trivial⟩ (fun j hj k hk => by
      rw [show v.lev 2 [indexed 'q' 0].length k 0 j = _ from hc.start k hk j hj]
      simp)
  have := g1 i hi 0 (by simp) 0 (by norm_num)
  simp only [lev_two, Nat.cast_zero, zero_mul, add_zero, zero_add] at this
  exact this

end Chords.Conv
