import Verif.Props.ExprConv
import Verif.Props.PhNodeSolve

/-! # C175: segmented problems given by expressions have one feasible trajectory, close to the motion -/

namespace Chords.Conv
open Set Polynomial Chords.Points Chords.Spec Chords.Bary Chords.Gauss Chords.TimeScale Chords.BuTd Chords.PhScheme Chords.Props Chords.Problem Chords.Names Chords.CasFuncs
  Chords.EndToEnd

variable [PyChars]

/-- A motion of the system over segments with ends `T`: `Z s j k` is the derivative of order `k` of the coordinate `j` in the segment `s`, the
accelerations are those of the expressions with the controls `w`, and positions and velocities pass by the states `y` without jumps. -/
structure ExprSegMotion (a : Args) (q : List Name) (RHS : List Expr) (p : List ℝ) (r : ℕ) (T : ℕ → ℝ) (S : ℕ) (y : ℕ → ℕ → ℕ → ℝ) (w : ℕ → ℝ → ℕ → ℝ)
    (Z : ℕ → ℕ → ℕ → ℝ → ℝ) : Prop where
  tower : ∀ s < S, ∀ j < q.length, ∀ k < 2 + r, ∀ t ∈ Icc (T s) (T (s + 1)), HasDerivWithinAt (Z s j k) (Z s j (k + 1) t) (Icc (T s) (T (s + 1))) t
  newton : ∀ s < S, ∀ t ∈ Icc (T s) (T (s + 1)), ∀ σ ρ, StateAt a q (fun j => Z s j 0 t) (fun j => Z s j 1 t) (w s t) p σ ρ →
    rowList q.length (fun j => Z s j 2 t) = RHS.map fun e => e.eval σ
  start : ∀ s < S, ∀ j < q.length, ∀ k < 2, Z s j k (T s) = y s k j
  stop : ∀ s < S, ∀ j < q.length, ∀ k < 2, Z s j k (T (s + 1)) = y (s + 1) k j

section
variable {q : List Name} {u : UVars} {RHS : List Expr}

theorem expr_segs {a : Args} {p : List ℝ} {A : (ℕ → ℕ → ℝ) → (ℕ → ℝ) → ℕ → ℝ} (key : ∀ ξ c acc, Newton a q RHS p (ξ 0) (ξ 1) c acc ↔ ∀ j < q.length, acc j = A ξ c j)
    {r : ℕ} {T : ℕ → ℝ} {S : ℕ} {y : ℕ → ℕ → ℕ → ℝ} {w : ℕ → ℝ → ℕ → ℝ} {Z : ℕ → ℕ → ℕ → ℝ → ℝ} (hm : ExprSegMotion a q RHS p r T S y w Z) :
    SegMotions A 2 q.length r T S y w Z :=
  ⟨hm.tower, fun s hs t ht => (key (fun k j => Z s j k t) (w s t) fun j => Z s j 2 t).1 (hm.newton s hs t ht), hm.start, hm.stop⟩

/-- C175, bottom-up: with short segments, a problem given by the expressions of its accelerations has exactly one feasible point for every start and controls at the
collocation points. -/
theorem C175_bu (hl : ∀ n ∈ q, Plain n) (hnd : q.Nodup) (hu : FitU q u) (o : SetOrder) (h : ∀ e ∈ RHS, Named e) (hn : RHS.length = q.length)
    {scheme : String} (hs : scheme ∈ buImplemented) (B : ℕ) :
    ∃ a st, findArgs o RHS (.list q) u false false = .ok a ∧ explicitSetup o RHS q u = .ok st ∧ st.params_sym = a.params ∧ ∃ Λ, 0 ≤ Λ ∧
      ∀ points, Admissible scheme 0 B points → ((∀ p ∈ points, 2 ≤ p) ∨ scheme ∉ gaussLike) → ∀ ext : List ℝ, ext.length = points.length + 1 →
      ∀ p, p.length = a.params.length → ∀ L H, 0 ≤ L → LipExprs a q RHS p (fun _ => True) L → ShortSegs Λ L H (fun s => ext.getD s 0) points.length →
      ∃ C, phConstraints (dynOf st.dyn_f_restr p) .bu scheme 2 q.length a.u.length points ext = .ok C ∧ ∀ x0 c,
        (∃ v, (∀ k, C v k) ∧ Given 2 q.length a.u.length points x0 c v) ∧
        ∀ v v' k k', C v k → C v' k' → Given 2 q.length a.u.length points x0 c v → Given 2 q.length a.u.length points x0 c v' →
          SameRows 2 q.length a.u.length points v v' := by
  obtain ⟨a, st, ha, hst, hps, hA⟩ := expr_dyn hl hnd hu o h hn
  obtain ⟨Λ, hΛ, g⟩ := C172_bu hs (order := 2) (by omega) B
  refine ⟨a, st, ha, hst, hps, Λ, hΛ, fun points hp h1 ext he p hpl L H hL0 hL hm => ?_⟩
  obtain ⟨A, hF, -, hl, -⟩ := hA p hpl
  obtain ⟨coll, hcoll, -⟩ := coll_choice (bu_imp hs).1 (order := 2) (by omega) (fun p h => (hp.2 p h).1)
  exact g _ _ _ points hp h1 coll hcoll ext he A L H hF hL0 (hl _ _ hL) hm

/-- C175, top-down: at most one. -/
theorem C175_td (hl : ∀ n ∈ q, Plain n) (hnd : q.Nodup) (hu : FitU q u) (o : SetOrder) (h : ∀ e ∈ RHS, Named e) (hn : RHS.length = q.length)
    {scheme : String} (hs : scheme ∈ buImplemented) (B : ℕ) :
    ∃ a st, findArgs o RHS (.list q) u false false = .ok a ∧ explicitSetup o RHS q u = .ok st ∧ st.params_sym = a.params ∧ ∃ Λ, 0 ≤ Λ ∧
      ∀ points, Admissible scheme 0 B points → ∀ ext : List ℝ, ext.length = points.length + 1 →
      ∀ p, p.length = a.params.length → ∀ L H, 0 ≤ L → LipExprs a q RHS p (fun _ => True) L → ShortSegs Λ L H (fun s => ext.getD s 0) points.length →
      ∃ C, phConstraints (dynOf st.dyn_f_restr p) .td scheme 2 q.length a.u.length points ext = .ok C ∧ ∀ x0 c,
        (points.length = 1 → ∃ v k, C v k ∧ Given 2 q.length a.u.length points x0 c v) ∧
        ∀ v v' k k', C v k → C v' k' → Given 2 q.length a.u.length points x0 c v → Given 2 q.length a.u.length points x0 c v' →
          SameRows 2 q.length a.u.length points v v' := by
  obtain ⟨a, st, ha, hst, hps, hA⟩ := expr_dyn hl hnd hu o h hn
  obtain ⟨Λ, hΛ, g⟩ := C172_td_partial hs (order := 2) (by omega) B
  refine ⟨a, st, ha, hst, hps, Λ, hΛ, fun points hp ext he p hpl L H hL0 hL hm => ?_⟩
  obtain ⟨A, hF, -, hl, -⟩ := hA p hpl
  obtain ⟨coll, hcoll, -⟩ := coll_choice (bu_imp hs).1 (order := 2) (by omega) (fun p h => (hp.2 p h).1)
  exact g _ _ _ points hp coll hcoll ext he A L H hF hL0 (hl _ _ hL) hm

/-- C175: in both modes the feasible points, and the curves through them, are near the motion of the expressions, with an error of the order of the number of points. -/
theorem C175_near (hl : ∀ n ∈ q, Plain n) (hnd : q.Nodup) (hu : FitU q u) (o : SetOrder) (h : ∀ e ∈ RHS, Named e) (hn : RHS.length = q.length)
    {scheme : String} (hs : scheme ∈ buImplemented) (B : ℕ) {mode : Mode} (hmode : mode = .bu ∨ mode = .td) :
    ∃ a st, findArgs o RHS (.list q) u false false = .ok a ∧ explicitSetup o RHS q u = .ok st ∧ st.params_sym = a.params ∧ ∃ Λ, 0 ≤ Λ ∧
      ∀ n points, Admissible scheme n B points → (mode = .bu → (∀ p ∈ points, 2 ≤ p) ∨ scheme ∉ gaussLike) →
      ∀ coll : ℕ → List ℝ, (∀ p ∈ points, collPoints p scheme 2 = .ok (coll p)) → ∀ ext : List ℝ, ext.length = points.length + 1 →
      ∀ p, p.length = a.params.length → ∀ R L K H y w Z, 0 ≤ L → LipExprs a q RHS p R L → ShortSegs Λ L H (fun s => ext.getD s 0) points.length →
      ExprSegMotion a q RHS p n (fun s => ext.getD s 0) points.length y w Z → 0 ≤ K →
      (∀ s < points.length, ∀ j < q.length, ∀ t ∈ Icc (ext.getD s 0) (ext.getD (s + 1) 0), |Z s j (2 + n) t| ≤ K) →
      ∃ C, phConstraints (dynOf st.dyn_f_restr p) mode scheme 2 q.length a.u.length points ext = .ok C ∧
        ∀ v k d0, C v k → CollControls a.u.length points coll (fun s => ext.getD s 0) v w → SegRegion R q.length points (fun s => ext.getD s 0) v Z → 0 ≤ d0 →
        (∀ j < q.length, ∀ p < 2, |v.lev 2 q.length p 0 j - y 0 p j| ≤ d0) →
        SegNear 2 q.length points coll (fun s => ext.getD s 0) v y Z (segBound Λ L K d0 H n) := by
  obtain ⟨a, st, ha, hst, hps, hA⟩ := expr_dyn hl hnd hu o h hn
  rcases hmode with rfl | rfl
  · obtain ⟨Λ, hΛ, g⟩ := C171_bu hs (order := 2) (by omega) B
    refine ⟨a, st, ha, hst, hps, Λ, hΛ, fun n points hp h1 coll hcoll ext he p hpl R L K H y w Z hL0 hL hm hM hK0 hK => ?_⟩
    obtain ⟨A, -, hF, hl, -, key⟩ := hA p hpl
    exact g _ _ _ n points hp (h1 rfl) coll hcoll ext he A R L K H y w Z hF hL0 (hl _ _ hL) hm (expr_segs key hM) hK0 hK
  · obtain ⟨Λ, hΛ, g⟩ := C171_td hs (order := 2) (by omega) B
    refine ⟨a, st, ha, hst, hps, Λ, hΛ, fun n points hp _ coll hcoll ext he p hpl R L K H y w Z hL0 hL hm hM hK0 hK => ?_⟩
    obtain ⟨A, -, hF, hl, -, key⟩ := hA p hpl
    exact g _ _ _ n points hp coll hcoll ext he A R L K H y w Z hF hL0 (hl _ _ hL) hm (expr_segs key hM) hK0 hK

/-- C175, node based: all the schemes but `D2` have at most one feasible point for every start and controls. -/
theorem C175_node_unique (hl : ∀ n ∈ q, Plain n) (hnd : q.Nodup) (hu : FitU q u) (o : SetOrder) (h : ∀ e ∈ RHS, Named e) (hn : RHS.length = q.length)
    {scheme : String} (hs : scheme ∈ implemented) (hD2 : scheme ≠ "D2") (B : ℕ) :
    ∃ a st, findArgs o RHS (.list q) u false false = .ok a ∧ explicitSetup o RHS q u = .ok st ∧ st.params_sym = a.params ∧ ∃ Λ, 0 ≤ Λ ∧
      ∀ points, Admissible scheme 0 B points → ∀ ext : List ℝ, ext.length = points.length + 1 →
      ∀ p, p.length = a.params.length → ∀ L H, 1 ≤ L → LipExprs a q RHS p (fun _ => True) L → ShortSegs Λ L H (fun s => ext.getD s 0) points.length →
      ∃ C, phConstraints (dynOf st.dyn_f_restr p) .node scheme 2 q.length a.u.length points ext = .ok C ∧ ∀ x0 c v v' k k', C v k → C v' k' →
        Given 2 q.length a.u.length points x0 c v → Given 2 q.length a.u.length points x0 c v' → SameStates 2 q.length a.u.length points v v' := by
  obtain ⟨a, st, ha, hst, hps, hA⟩ := expr_dyn hl hnd hu o h hn
  by_cases h2 : scheme ∈ gauss2
  · obtain ⟨Λ, hΛ, g⟩ := C174_two_unique h2 (order := 2) le_rfl B
    refine ⟨a, st, ha, hst, hps, Λ, hΛ, fun points hp ext he p hpl L H hL1 hL hm => ?_⟩
    obtain ⟨A, hF, -, hl, -⟩ := hA p hpl
    exact g _ _ _ points hp ext he A L H hF (by linarith) (hl _ _ hL) hm
  · obtain ⟨Λ, hΛ, g⟩ := C174_unique hs h2 hD2 (order := 2) (by omega) (.inl le_rfl) B
    refine ⟨a, st, ha, hst, hps, Λ, hΛ, fun points hp ext he p hpl L H hL1 hL hm => ?_⟩
    obtain ⟨A, hF, -, hl, -⟩ := hA p hpl
    exact g _ _ _ points hp ext he A L H hF hL1 (hl _ _ hL) hm

/-- C175, node based: it exists with the Radau schemes, and with the Gauss schemes over one segment. -/
theorem C175_node_exists (hl : ∀ n ∈ q, Plain n) (hnd : q.Nodup) (hu : FitU q u) (o : SetOrder) (h : ∀ e ∈ RHS, Named e) (hn : RHS.length = q.length)
    {scheme : String} (hs : scheme ∈ gaussLike ++ gaussInv ++ radauLike ++ radauInv ++ gauss2) (B : ℕ) :
    ∃ a st, findArgs o RHS (.list q) u false false = .ok a ∧ explicitSetup o RHS q u = .ok st ∧ st.params_sym = a.params ∧ ∃ Λ, 0 ≤ Λ ∧
      ∀ points, Admissible scheme 0 B points → (scheme ∈ gaussLike ++ gaussInv ++ gauss2 → points.length = 1) → ∀ ext : List ℝ, ext.length = points.length + 1 →
      ∀ p, p.length = a.params.length → ∀ L H, 1 ≤ L → LipExprs a q RHS p (fun _ => True) L → ShortSegs Λ L H (fun s => ext.getD s 0) points.length →
      ∃ C, phConstraints (dynOf st.dyn_f_restr p) .node scheme 2 q.length a.u.length points ext = .ok C ∧ ∀ x0 c, ∃ v, (∀ k, C v k) ∧
        Given 2 q.length a.u.length points x0 c v := by
  obtain ⟨a, st, ha, hst, hps, hA⟩ := expr_dyn hl hnd hu o h hn
  rcases List.mem_append.1 hs with hs | h2
  · obtain ⟨Λ, hΛ, g⟩ := C174_exists hs (order := 2) (by omega) (.inl le_rfl) B
    refine ⟨a, st, ha, hst, hps, Λ, hΛ, fun points hp h1 ext he p hpl L H hL1 hL hm => ?_⟩
    obtain ⟨A, hF, -, hl, -⟩ := hA p hpl
    exact g _ _ _ points hp (fun hh => h1 (List.mem_append_left _ hh)) ext he A L H hF hL1 (hl _ _ hL) hm
  · obtain ⟨Λ, hΛ, g⟩ := C174_two_exists h2 B
    refine ⟨a, st, ha, hst, hps, Λ, hΛ, fun points hp h1 ext he p hpl L H hL1 hL hm => ?_⟩
    obtain ⟨A, hF, -, hl, -⟩ := hA p hpl
    exact g _ _ _ points hp (h1 (List.mem_append_right _ h2)) ext he A L H hF (by linarith) (hl _ _ hL) hm

/-- C175, node based: the feasible points and their curves are near the motion of the expressions. -/
theorem C175_node_near (hl : ∀ n ∈ q, Plain n) (hnd : q.Nodup) (hu : FitU q u) (o : SetOrder) (h : ∀ e ∈ RHS, Named e) (hn : RHS.length = q.length)
    {scheme : String} (hs : scheme ∈ implemented) (hD2 : scheme ≠ "D2") (B : ℕ) :
    ∃ a st, findArgs o RHS (.list q) u false false = .ok a ∧ explicitSetup o RHS q u = .ok st ∧ st.params_sym = a.params ∧ ∃ Λ, 0 ≤ Λ ∧
      ∀ n points, Admissible scheme n B points → ∀ coll : ℕ → List ℝ, (∀ p ∈ points, collPoints p scheme = .ok (coll p)) →
      ∀ nodes : ℕ → ℕ, (∀ p ∈ points, nColToNNodes scheme p = .ok (nodes p)) → ∀ ext : List ℝ, ext.length = points.length + 1 →
      ∀ p, p.length = a.params.length → ∀ R L K H y w Z, 1 ≤ L → LipExprs a q RHS p R L → ShortSegs Λ L H (fun s => ext.getD s 0) points.length →
      ExprSegMotion a q RHS p n (fun s => ext.getD s 0) points.length y w Z → 0 ≤ K →
      (∀ s < points.length, ∀ j < q.length, ∀ p < 2, ∀ t ∈ Icc (ext.getD s 0) (ext.getD (s + 1) 0), |Z s j (p + 1 + n) t| ≤ K) →
      ∃ C, phConstraints (dynOf st.dyn_f_restr p) .node scheme 2 q.length a.u.length points ext = .ok C ∧
        ∀ v k d0, C v k → CollControls a.u.length points coll (fun s => ext.getD s 0) v w → SegRegion R q.length points (fun s => ext.getD s 0) v Z → 0 ≤ d0 →
        (∀ j < q.length, ∀ p < 2, |v.lev 2 q.length p 0 j - y 0 p j| ≤ d0) →
        (∃ P : ℕ → ℕ → ℝ[X], ∀ s < points.length, NodeSegPoly v scheme 2 q.length points coll (fun s => ext.getD s 0) s (nodes (points.getD s 0)) (P s)) ∧
        NodeNear scheme 2 q.length points coll nodes (fun s => ext.getD s 0) v y Z (segBound Λ L K d0 H n) := by
  obtain ⟨a, st, ha, hst, hps, hA⟩ := expr_dyn hl hnd hu o h hn
  by_cases h2 : scheme ∈ gauss2
  · obtain ⟨Λ, hΛ, g⟩ := C173_two h2 (order := 2) le_rfl B
    refine ⟨a, st, ha, hst, hps, Λ, hΛ, fun n points hp coll hcoll nodes hnodes ext he p hpl R L K H y w Z hL1 hL hm hM hK0 hK => ?_⟩
    obtain ⟨A, hF, -, hl, -, key⟩ := hA p hpl
    refine g _ _ _ n points hp coll hcoll nodes hnodes ext he A R L K H y w Z hF (by linarith) (hl _ _ hL) hm (expr_segs key hM) hK0 fun s hs j hj t ht => ?_
    have := hK s hs j hj 1 (by norm_num) t ht
    norm_num at this
    exact this
  · obtain ⟨Λ, hΛ, g⟩ := C173_node hs h2 hD2 (order := 2) (by omega) (.inl le_rfl) B
    refine ⟨a, st, ha, hst, hps, Λ, hΛ, fun n points hp coll hcoll nodes hnodes ext he p hpl R L K H y w Z hL1 hL hm hM hK0 hK => ?_⟩
    obtain ⟨A, hF, -, hl, -, key⟩ := hA p hpl
    exact g _ _ _ n points hp coll hcoll nodes hnodes ext he A R L K H y w Z hF hL1 (hl _ _ hL) hm (expr_segs key hM) hK0 hK
end

/-! ### Examples -/

theorem oscillator_seg (a : Args) (p : List ℝ) (r S : ℕ) (T : ℕ → ℝ) : ExprSegMotion a [indexed 'q' 0] [oscillator] p r T S
    (fun s k _ => Real.cos (T s + k * (Real.pi / 2))) (fun _ _ _ => 0) fun _ _ k t => Real.cos (t + k * (Real.pi / 2)) where
  tower s _ j _ k _ t _ := by
    have := (Real.hasDerivAt_cos _).comp t ((hasDerivAt_id t).add_const ((k : ℝ) * (Real.pi / 2)))
    refine this.hasDerivWithinAt.congr_deriv ?_
    push_cast
    rw [show t + (k + 1) * (Real.pi / 2) = t + k * (Real.pi / 2) + Real.pi / 2 by ring, Real.cos_add_pi_div_two]
    simp
  newton s _ t _ σ ρ hs := by
    simp only [List.map_cons, List.map_nil, List.length_singleton, rowList, List.range_one, oscillator_at hs]
    push_cast
    rw [show t + 2 * (Real.pi / 2) = t + 0 * (Real.pi / 2) + Real.pi by ring, Real.cos_add_pi]
  start s _ j _ k _ := rfl
  stop s _ j _ k _ := rfl

/-- The segmented problem of an oscillator with 5 points of `LG` in each of `S` segments of length 1 / S: with many segments there is one trajectory that starts as
the cosine and it is near the cosine. -/
example : ∃ a st, findArgs textOrder [oscillator] (.list [indexed 'q' 0]) .none false false = .ok a ∧
    explicitSetup textOrder [oscillator] [indexed 'q' 0] .none = .ok st ∧ ∃ Λ : ℝ, 0 ≤ Λ ∧ ∀ S : ℕ, 0 < S → (2 : ℝ) ≤ S → 4 * Λ ≤ S → ∀ p, p.length = a.params.length →
    ∃ C, phConstraints (dynOf st.dyn_f_restr p) .bu "LG" 2 1 a.u.length (List.replicate S 5) ((List.range (S + 1)).map fun s : ℕ => (s : ℝ) / (S : ℝ)) = .ok C ∧
      ∀ v k, C v k → (∀ r m, v.u r m = 0) → v.lev 2 1 0 0 0 = 1 → v.lev 2 1 1 0 0 = 0 →
        ∀ s ≤ S, |v.lev 2 1 0 (knotRow (List.replicate S 5) s) 0 - Real.cos (s / S)| ≤ segBound Λ 1 1 0 (1 / S) 5 (s / S) := by
  obtain ⟨a, st, ha, hst, -, Λ, hΛ, g⟩ := C175_near (q := [indexed 'q' 0]) plain_q0 (List.nodup_singleton _) (u := .none) trivial textOrder oscillator_named rfl
    (scheme := "LG") (by decide) 5 (mode := .bu) (.inl rfl)
  refine ⟨a, st, ha, hst, Λ, hΛ, fun S hS hS2 hSΛ p hp => ?_⟩
  have hS0 : (0 : ℝ) < S := by exact_mod_cast hS
  have hext : ∀ s ≤ S, ((List.range (S + 1)).map fun s : ℕ => (s : ℝ) / (S : ℝ)).getD s 0 = s / S := by
    intro s hs
    rw [List.getD_eq_getElem?_getD, List.getElem?_map, List.getElem?_range (by omega)]
    rfl
  have hadm : Admissible "LG" 5 5 (List.replicate S 5) := by
    refine ⟨by simp; omega, fun p hp => ?_⟩
    obtain rfl := List.eq_of_mem_replicate hp
    simp [minPoints]
  obtain ⟨coll, hcoll, -⟩ := coll_choice (scheme := "LG") (by decide) (order := 2) (by omega) (points := List.replicate S 5) (fun p h => (hadm.2 p h).1)
  obtain ⟨C, hC, hCv⟩ := g 5 (List.replicate S 5) hadm (fun _ => .inl fun p hp => by rw [List.eq_of_mem_replicate hp]; norm_num) coll hcoll
    ((List.range (S + 1)).map fun s : ℕ => (s : ℝ) / (S : ℝ)) (by simp) p hp (fun _ => True) 1 1 (1 / S) _ _ _ zero_le_one (oscillator_lip a p)
    ⟨fun s hs => by
      rw [List.length_replicate] at hs
      beta_reduce
      rw [hext s (by omega), hext (s + 1) (by omega)]
      gcongr
      simp, fun s hs => by
      rw [List.length_replicate] at hs
      beta_reduce
      rw [hext s (by omega), hext (s + 1) (by omega)]
      rw [← sub_div]
      push_cast
      simp, by
      rw [div_le_div_iff₀ hS0 (by norm_num)]
      linarith, by
      rw [mul_one, show 4 * (1 / (S : ℝ)) * Λ = 4 * Λ / S by ring, div_le_one hS0]
      exact hSΛ⟩ (oscillator_seg a p 5 _ _) zero_le_one (fun _ _ _ _ _ _ => Real.abs_cos_le_one _)
  refine ⟨C, hC, fun v k hv h0 hx hxd s hs => ?_⟩
  have := (hCv v k 0 hv (fun _ _ _ _ _ _ => h0 _ _) ⟨fun _ _ _ _ => trivial, fun _ _ _ _ => trivial⟩ le_rfl (fun j hj p hp => by
    obtain rfl : j = 0 := by simpa using hj
    rcases (by omega : p = 0 ∨ p = 1) with rfl | rfl
    · rw [show v.lev 2 [indexed 'q' 0].length 0 0 0 = 1 from hx, hext 0 (by omega)]
      simp
    · rw [show v.lev 2 [indexed 'q' 0].length 1 0 0 = 0 from hxd, hext 0 (by omega)]
      simp)).knots s (by simpa using hs) 0 (by simp) 0 (by norm_num)
  simp only [hext s hs, hext 0 (Nat.zero_le _), Nat.cast_zero, zero_div, zero_mul, add_zero, sub_zero] at this
  exact this

end Chords.Conv
