import Verif.Props.OneMotion
import Verif.Props.ExprConv

/-! # C189: problems given by linear expressions have one best motion -/

namespace Chords.Blend
open Finset Chords.Points Chords.Bary Chords.BuTd Chords.Equi Chords.PhScheme Chords.Problem Chords.Spec Chords.Props Chords.Gauss Chords.Conv
  Chords.Names Chords.CasFuncs Chords.EndToEnd Mix

variable [PyChars]

/-- Expressions made of numbers and parameters, with any operations. -/
inductive Fixed (params : List Name) : Expr → Prop
  | num (c : ℝ) : Fixed params (.num c)
  | param {x : Quantity} {n : Name} : rename x = .ok n → n ∈ params → Fixed params (.atom x)
  | add {e f : Expr} : Fixed params e → Fixed params f → Fixed params (.add e f)
  | mul {e f : Expr} : Fixed params e → Fixed params f → Fixed params (.mul e f)
  | fn (g : ℝ → ℝ) {e : Expr} : Fixed params e → Fixed params (.fn g e)

/-- Expressions that are linear in the coordinates, the velocities and the controls, with coefficients made of parameters. -/
inductive Linear (q u params : List Name) : Expr → Prop
  | fixed {e : Expr} : Fixed params e → Linear q u params e
  | pos {x : Quantity} {n s : Name} : n ∈ q → rename (.dyn n 0) = .ok s → rename x = .ok s → Linear q u params (.atom x)
  | vel {x : Quantity} {n s : Name} : n ∈ q → rename (.dyn n 1) = .ok s → rename x = .ok s → Linear q u params (.atom x)
  | ctrl {x : Quantity} {n : Name} : rename x = .ok n → n ∈ u → Linear q u params (.atom x)
  | add {e f : Expr} : Linear q u params e → Linear q u params f → Linear q u params (.add e f)
  | left {e f : Expr} : Fixed params e → Linear q u params f → Linear q u params (.mul e f)
  | right {e f : Expr} : Linear q u params e → Fixed params f → Linear q u params (.mul e f)

theorem Fixed.value {params : List Name} {e : Expr} (h : Fixed params e) (p : List ℝ) :
    ∃ κ, ∀ σ ρ, Values σ ρ → params.map ρ = p → e.eval σ = κ := by
  induction h with
  | num c => exact ⟨c, fun _ _ _ _ => rfl⟩
  | @param x n hx hn =>
    refine ⟨p.getD (params.idxOf n) 0, fun σ ρ hv hp => ?_⟩
    rw [← hp, idxOf_getD ρ hn]
    exact hv x n hx
  | add _ _ ih ih' =>
    obtain ⟨κ, hκ⟩ := ih
    obtain ⟨κ', hκ'⟩ := ih'
    exact ⟨κ + κ', fun σ ρ h1 h2 => by rw [Expr.eval, hκ σ ρ h1 h2, hκ' σ ρ h1 h2]⟩
  | mul _ _ ih ih' =>
    obtain ⟨κ, hκ⟩ := ih
    obtain ⟨κ', hκ'⟩ := ih'
    exact ⟨κ * κ', fun σ ρ h1 h2 => by rw [Expr.eval, hκ σ ρ h1 h2, hκ' σ ρ h1 h2]⟩
  | fn g _ ih =>
    obtain ⟨κ, hκ⟩ := ih
    exact ⟨g κ, fun σ ρ h1 h2 => by rw [Expr.eval, hκ σ ρ h1 h2]⟩

/-- The value is a constant and multiples of the values of the coordinates, the velocities and the controls. -/
theorem Linear.value {a : Args} {q : List Name} {e : Expr} (h : Linear q a.u a.params e) (p : List ℝ) :
    ∃ (k : ℝ) (ky kw kc : ℕ → ℝ), ∀ y w c σ ρ, StateAt a q y w c p σ ρ →
      e.eval σ = k + ∑ i ∈ range q.length, (ky i * y i + kw i * w i) + ∑ m ∈ range a.u.length, kc m * c m := by
  induction h with
  | fixed h =>
    obtain ⟨κ, hκ⟩ := h.value p
    exact ⟨κ, 0, 0, 0, fun y w c σ ρ hs => by simp [hκ σ ρ hs.values hs.par]⟩
  | @pos x n s hn hs' hx =>
    obtain ⟨i, hi, rfl⟩ := List.getElem_of_mem hn
    refine ⟨0, fun j => if j = i then 1 else 0, 0, 0, fun y w c σ ρ hs => ?_⟩
    have := congrArg (fun l => l[i]?) hs.pos
    simp only [rowList, List.getElem?_map, List.getElem?_eq_getElem hi, List.getElem?_range hi, Option.map_some, Option.some.injEq] at this
    simp [Expr.eval, hs.values x _ hx, ← hs.values _ _ hs', this, hi]
  | @vel x n s hn hs' hx =>
    obtain ⟨i, hi, rfl⟩ := List.getElem_of_mem hn
    refine ⟨0, 0, fun j => if j = i then 1 else 0, 0, fun y w c σ ρ hs => ?_⟩
    have := congrArg (fun l => l[i]?) hs.vel
    simp only [rowList, List.getElem?_map, List.getElem?_eq_getElem hi, List.getElem?_range hi, Option.map_some, Option.some.injEq] at this
    simp [Expr.eval, hs.values x _ hx, ← hs.values _ _ hs', this, hi]
  | @ctrl x n hx hn =>
    obtain ⟨i, hi, rfl⟩ := List.getElem_of_mem hn
    refine ⟨0, 0, 0, fun j => if j = i then 1 else 0, fun y w c σ ρ hs => ?_⟩
    have := congrArg (fun l => l[i]?) hs.ctrl
    simp only [rowList, List.getElem?_map, List.getElem?_eq_getElem hi, List.getElem?_range hi, Option.map_some, Option.some.injEq] at this
    simp [Expr.eval, hs.values x _ hx, this, hi]
  | add _ _ ih ih' =>
    obtain ⟨k, ky, kw, kc, hk⟩ := ih
    obtain ⟨k', ky', kw', kc', hk'⟩ := ih'
    refine ⟨k + k', fun i => ky i + ky' i, fun i => kw i + kw' i, fun i => kc i + kc' i, fun y w c σ ρ hs => ?_⟩
    rw [Expr.eval, hk y w c σ ρ hs, hk' y w c σ ρ hs]
    simp only [add_mul, sum_add_distrib]
    ring
  | left h _ ih =>
    obtain ⟨κ, hκ⟩ := h.value p
    obtain ⟨k, ky, kw, kc, hk⟩ := ih
    refine ⟨κ * k, fun i => κ * ky i, fun i => κ * kw i, fun i => κ * kc i, fun y w c σ ρ hs => ?_⟩
    rw [Expr.eval, hκ σ ρ hs.values hs.par, hk y w c σ ρ hs]
    simp only [mul_add, mul_sum, mul_assoc]
  | right _ h ih =>
    obtain ⟨κ, hκ⟩ := h.value p
    obtain ⟨k, ky, kw, kc, hk⟩ := ih
    refine ⟨κ * k, fun i => κ * ky i, fun i => κ * kw i, fun i => κ * kc i, fun y w c σ ρ hs => ?_⟩
    rw [Expr.eval, hκ σ ρ hs.values hs.par, hk y w c σ ρ hs]
    simp only [mul_comm _ κ, mul_add, mul_sum, mul_assoc]

/-- Linear expressions have a Lipschitz constant. -/
theorem linear_lip {a : Args} {q : List Name} {RHS : List Expr} (h : ∀ e ∈ RHS, Linear q a.u a.params e)
    (hn : RHS.length = q.length) (p : List ℝ) : ∃ L, 1 ≤ L ∧ LipExprs a q RHS p (fun _ => True) L := by
  have one : ∀ e, Linear q a.u a.params e → ∃ L, 0 ≤ L ∧ LipExprs a q [e] p (fun _ => True) L := by
    intro e he
    obtain ⟨k, ky, kw, kc, hk⟩ := he.value p
    refine ⟨∑ i ∈ range q.length, (|ky i| + |kw i|), sum_nonneg fun i _ => by positivity, ?_⟩
    intro ξ η c c' σ ρ σ' ρ' d _ _ h1 h2 h3 h4 e' he'
    rw [List.mem_singleton.1 he', hk _ _ _ _ _ h1, hk _ _ _ _ _ h2]
    have e1 : ∑ m ∈ range a.u.length, kc m * c m = ∑ m ∈ range a.u.length, kc m * c' m := sum_congr rfl fun m hm => by rw [h4 m (mem_range.1 hm)]
    rw [e1, show ∀ A B D : ℝ, k + A + D - (k + B + D) = A - B from fun A B D => by ring, ← sum_sub_distrib, sum_mul]
    refine (abs_sum_le_sum_abs _ _).trans (sum_le_sum fun i hi => ?_)
    obtain ⟨g1, g2⟩ := h3 i (mem_range.1 hi)
    rw [show ky i * ξ 0 i + kw i * ξ 1 i - (ky i * η 0 i + kw i * η 1 i) = ky i * (ξ 0 i - η 0 i) + kw i * (ξ 1 i - η 1 i) by ring, add_mul]
    refine (abs_add_le _ _).trans (add_le_add ?_ ?_)
    · rw [abs_mul]; exact mul_le_mul_of_nonneg_left g1 (abs_nonneg _)
    · rw [abs_mul]; exact mul_le_mul_of_nonneg_left g2 (abs_nonneg _)
  have : ∀ e, ∃ L, 0 ≤ L ∧ (Linear q a.u a.params e → LipExprs a q [e] p (fun _ => True) L) := by
    intro e
    by_cases he : Linear q a.u a.params e
    · obtain ⟨L, h1, h2⟩ := one e he
      exact ⟨L, h1, fun _ => h2⟩
    · exact ⟨0, le_rfl, fun h => absurd h he⟩
  choose Lf h0 hLf using this
  refine ⟨1 + (RHS.map Lf).sum, by linarith [List.sum_nonneg (l := RHS.map Lf) (by simpa using fun e _ => h0 e)], ?_⟩
  intro ξ η c c' σ ρ σ' ρ' d s1 s2 h1 h2 h3 h4 e he
  have hd : 0 ≤ d ∨ q.length = 0 := by
    rcases Nat.eq_zero_or_pos q.length with h | h
    · exact .inr h
    · exact .inl ((abs_nonneg _).trans (h3 0 h).1)
  have hle : Lf e ≤ (RHS.map Lf).sum := List.single_le_sum (by simpa using fun e _ => h0 e) _ (List.mem_map.2 ⟨e, he, rfl⟩)
  obtain hd | hq := hd
  · refine (hLf e (h e he) ξ η c c' σ ρ σ' ρ' d s1 s2 h1 h2 h3 h4 e (List.mem_singleton.2 rfl)).trans ?_
    exact mul_le_mul_of_nonneg_right (by linarith) hd
  · rw [hq, List.length_eq_zero_iff] at hn
    rw [hn] at he
    simp at he

section
variable {q : List Name} {u : UVars} {RHS : List Expr}

/-- Linear expressions make linear dynamics. -/
theorem linear_dyn (hl : ∀ n ∈ q, Plain n) (hnd : q.Nodup) (hu : FitU q u) (o : SetOrder) (h : ∀ e ∈ RHS, Named e) (hn : RHS.length = q.length) :
    ∃ a st, findArgs o RHS (.list q) u false false = .ok a ∧ explicitSetup o RHS q u = .ok st ∧ st.params_sym = a.params ∧
      ((∀ e ∈ RHS, Linear q a.u a.params e) → ∀ p, p.length = a.params.length → LinearDyn (dynOf st.dyn_f_restr p) ∧
        ∃ A L, Solved (dynOf st.dyn_f_restr p) 2 q.length A ∧ 1 ≤ L ∧ LipA A (fun _ => True) 2 q.length a.u.length L) := by
  obtain ⟨a, st, ha, hst, hps, hA⟩ := expr_dyn hl hnd hu o h hn
  refine ⟨a, st, ha, hst, hps, fun hlin p hp => ?_⟩
  obtain ⟨A, hsol, -, hlip, -, key⟩ := hA p hp
  obtain ⟨L, hL1, hL⟩ := linear_lip hlin hn p
  refine ⟨?_, A, L, hsol, hL1, hlip _ _ hL⟩
  intro s x x' xd xd' c c' l l' h1 h2
  rw [hsol] at h1 h2 ⊢
  refine ⟨fun k hk j hj => by rw [h1.1 k hk j hj, h2.1 k hk j hj], ?_⟩
  obtain ⟨n1, hn1⟩ := h1
  obtain ⟨n2, hn2⟩ := h2
  rw [← key _ _ fun j => xd (q.length * (2 - 1) + j)] at hn1
  rw [← key _ _ fun j => xd' (q.length * (2 - 1) + j)] at hn2
  rw [← key _ _ fun j => s * xd (q.length * (2 - 1) + j) + (1 - s) * xd' (q.length * (2 - 1) + j)]
  intro σ ρ hs
  have ex := fun y w c => exists_state hl hnd hu o h ha y w c hp
  obtain ⟨σ1, ρ1, hs1⟩ := ex (fun j => x (q.length * 0 + j)) (fun j => x (q.length * 1 + j)) c
  obtain ⟨σ2, ρ2, hs2⟩ := ex (fun j => x' (q.length * 0 + j)) (fun j => x' (q.length * 1 + j)) c'
  have e1 := hn1 σ1 ρ1 hs1
  have e2 := hn2 σ2 ρ2 hs2
  refine List.ext_getElem? fun j => ?_
  have e1 := congrArg (fun l => l[j]?) e1
  have e2 := congrArg (fun l => l[j]?) e2
  by_cases hj : j < q.length
  · have hj' : j < RHS.length := by omega
    simp only [rowList, List.getElem?_map, List.getElem?_range hj, List.getElem?_eq_getElem hj', Option.map_some, Option.some.injEq] at e1 e2 ⊢
    obtain ⟨k, ky, kw, kc, hk⟩ := (hlin _ (List.getElem_mem hj')).value p
    rw [e1, e2, hk _ _ _ _ _ hs, hk _ _ _ _ _ hs1, hk _ _ _ _ _ hs2]
    have s1 : ∑ i ∈ range q.length, (ky i * (s * x (q.length * 0 + i) + (1 - s) * x' (q.length * 0 + i))
        + kw i * (s * x (q.length * 1 + i) + (1 - s) * x' (q.length * 1 + i))) =
        s * ∑ i ∈ range q.length, (ky i * x (q.length * 0 + i) + kw i * x (q.length * 1 + i)) +
        (1 - s) * ∑ i ∈ range q.length, (ky i * x' (q.length * 0 + i) + kw i * x' (q.length * 1 + i)) := by
      rw [mul_sum, mul_sum, ← sum_add_distrib]
      exact sum_congr rfl fun i _ => by ring
    have s2 : ∑ m ∈ range a.u.length, kc m * (s * c m + (1 - s) * c' m) =
        s * ∑ m ∈ range a.u.length, kc m * c m + (1 - s) * ∑ m ∈ range a.u.length, kc m * c' m := by
      rw [mul_sum, mul_sum, ← sum_add_distrib]
      exact sum_congr rfl fun i _ => by ring
    rw [s1, s2]
    ring
  · rw [List.getElem?_eq_none (by simp [rowList]; omega), List.getElem?_eq_none (by simp; omega)]

private theorem steps_fine {T L : ℝ} (hT : 0 < T) (hL : 1 ≤ L) : ∃ N₀ : ℕ, ∀ N ≥ N₀, 0 < N ∧ T / N * (2 + 20 * L) ≤ 1 / 2 := by
  obtain ⟨n, hn⟩ := exists_nat_ge (2 * T * (2 + 20 * L))
  refine ⟨n + 1, fun N hN => ⟨by omega, ?_⟩⟩
  have : (0 : ℝ) < N := by exact_mod_cast (show 0 < N by omega)
  have h2 : (n : ℝ) ≤ N := by exact_mod_cast (show n ≤ N by omega)
  rw [div_mul_eq_mul_div, div_le_iff₀ this]
  linarith

/-- C189, equispaced problems: from some number of steps on there is one best motion. -/
theorem C189_equispaced (hl : ∀ n ∈ q, Plain n) (hnd : q.Nodup) (hu : FitU q u) (o : SetOrder) (h : ∀ e ∈ RHS, Named e) (hn : RHS.length = q.length)
    {t0 t1 : ℝ} (ht : t0 < t1) :
    ∃ a st, findArgs o RHS (.list q) u false false = .ok a ∧ explicitSetup o RHS q u = .ok st ∧ st.params_sym = a.params ∧
      ((∀ e ∈ RHS, Linear q a.u a.params e) → ∀ p, p.length = a.params.length → ∃ N₀, ∀ N ≥ N₀, ∀ scheme s,
        (SchemeIs (some 2) scheme s 2 ∨ scheme = "trapz" ∧ s = .line ∨ (scheme = "hs" ∨ scheme = "hs_parab") ∧ s = .parab (1 / 2) ∨
          scheme = "hsj_parab_mod" ∧ s = .parab (2 / 5)) →
        ∃ P, equiConstraints (dynOf st.dyn_f_restr p) scheme N 2 q.length a.u.length t0 t1 = .ok P ∧ ∀ x0,
          OneBest (fun p => (P p.1.1 p.1.2 ∧ Costs.uSqConstraint scheme N (stored a.u.length p)) ∧ StartsAt 2 q.length x0 p.1.1)
            (fun p => Costs.uSqCost scheme (t1 - t0) N (stored a.u.length p)) (SameMotion 2 N q.length a.u.length s)) := by
  obtain ⟨a, st, ha, hst, hps, hA⟩ := linear_dyn hl hnd hu o h hn
  refine ⟨a, st, ha, hst, hps, fun hlin p hp => ?_⟩
  obtain ⟨hd, A, L, hsol, hL1, hL⟩ := hA hlin p hp
  obtain ⟨N₀, hN₀⟩ := steps_fine (sub_pos.2 ht) hL1
  refine ⟨N₀, fun N hN scheme s hs => ?_⟩
  obtain ⟨hN, hh⟩ := hN₀ N hN
  obtain hs | hs | hs | ⟨rfl, rfl⟩ := hs
  · exact C188_equispaced hd hs two_pos hN ht hsol (by linarith) hL hh
  · exact C188_levels hd (.inl hs) two_pos hN ht hsol hL1 hL hh
  rotate_left
  · exact C188_mod hd hN ht hsol (by linarith) hL hh
  · exact C188_levels hd (.inr hs) two_pos hN ht hsol hL1 hL hh

/-- Segments no longer than `h`, one after the other. -/
structure Fine (h : ℝ) (points : List ℕ) (ext : List ℝ) : Prop where
  length : ext.length = points.length + 1
  inc : ∀ s < points.length, ext.getD s 0 < ext.getD (s + 1) 0
  le : ∀ s < points.length, ext.getD (s + 1) 0 - ext.getD s 0 ≤ h

private theorem short_segs {Λ L : ℝ} (hΛ : 0 ≤ Λ) (hL : 1 ≤ L) : ∃ h₀ : ℝ, 0 < h₀ ∧ ∀ points ext, Fine h₀ points ext →
    ShortSegs Λ L h₀ (fun s => ext.getD s 0) points.length := by
  have hp : 0 < 2 + 4 * (Λ * L) := by positivity
  refine ⟨1 / (2 + 4 * (Λ * L)), by positivity, fun points ext hf => ⟨hf.inc, hf.le, ?_, ?_⟩⟩
  · rw [div_le_div_iff₀ hp two_pos]
    have : 0 ≤ Λ * L := by positivity
    linarith
  · rw [mul_one_div, div_mul_eq_mul_div, div_le_one hp]
    linarith

/-- C189, segmented bottom-up problems: with segments short enough, whatever their number is, there is one best motion. -/
theorem C189_bu_partial (hl : ∀ n ∈ q, Plain n) (hnd : q.Nodup) (hu : FitU q u) (o : SetOrder) (h : ∀ e ∈ RHS, Named e) (hn : RHS.length = q.length)
    {scheme : String} (hs : scheme ∈ buImplemented) {W : Ph.Weights}
    (hW : ∀ p, minPoints scheme ≤ p → ∃ w, getWeights p scheme 2 "u" = .ok w ∧ ∀ i < p, W p scheme 2 "u" i = w i) (B : ℕ) :
    ∃ a st, findArgs o RHS (.list q) u false false = .ok a ∧ explicitSetup o RHS q u = .ok st ∧ st.params_sym = a.params ∧
      ((∀ e ∈ RHS, Linear q a.u a.params e) → ∀ p, p.length = a.params.length → ∃ h₀ : ℝ, 0 < h₀ ∧ ∀ points ext, Admissible scheme 0 B points →
        CountsAll scheme points → ((∀ p ∈ points, 2 ≤ p) ∨ scheme ∉ gaussLike) → Fine h₀ points ext →
        ∃ C, phConstraints (dynOf st.dyn_f_restr p) .bu scheme 2 q.length a.u.length points ext = .ok C ∧
          ∃ J : Vars × (ℕ → ℕ → ℕ → ℝ) → ℝ, (∀ r, Ph.uSqCost W scheme points (Ph.hArr ext) (fun i (j : Fin a.u.length) => r.1.u i j) = .ok (J r)) ∧
          ∀ x0, OneBest (fun r => C r.1 r.2 ∧ StartsAt 2 q.length x0 r.1) J fun r r' => SameRows 2 q.length a.u.length points r.1 r'.1) := by
  obtain ⟨a, st, ha, hst, hps, hA⟩ := linear_dyn hl hnd hu o h hn
  refine ⟨a, st, ha, hst, hps, fun hlin p hp => ?_⟩
  obtain ⟨hd, A, L, hsol, hL1, hL⟩ := hA hlin p hp
  obtain ⟨Λ, hΛ0, hΛ⟩ := C188_bu_partial hs hW (order := 2) (by norm_num) B
  obtain ⟨h₀, h1, h2⟩ := short_segs hΛ0 hL1
  exact ⟨h₀, h1, fun points ext g1 g2 g3 g4 => hΛ _ _ _ points hd g1 g2 g3 ext g4.length A L h₀ hsol (by linarith) hL (h2 points ext g4)⟩

/-- C189, segmented top-down problems. -/
theorem C189_td_partial (hl : ∀ n ∈ q, Plain n) (hnd : q.Nodup) (hu : FitU q u) (o : SetOrder) (h : ∀ e ∈ RHS, Named e) (hn : RHS.length = q.length)
    {scheme : String} (hs : scheme ∈ buImplemented) {W : Ph.Weights}
    (hW : ∀ p, minPoints scheme ≤ p → ∃ w, getWeights p scheme 2 "u" = .ok w ∧ ∀ i < p, W p scheme 2 "u" i = w i) (B : ℕ) :
    ∃ a st, findArgs o RHS (.list q) u false false = .ok a ∧ explicitSetup o RHS q u = .ok st ∧ st.params_sym = a.params ∧
      ((∀ e ∈ RHS, Linear q a.u a.params e) → ∀ p, p.length = a.params.length → ∃ h₀ : ℝ, 0 < h₀ ∧ ∀ points ext, Admissible scheme 0 B points →
        CountsAll scheme points → Fine h₀ points ext →
        ∃ C, phConstraints (dynOf st.dyn_f_restr p) .td scheme 2 q.length a.u.length points ext = .ok C ∧
          ∃ J : Vars × (ℕ → ℕ → ℕ → ℝ) → ℝ, (∀ r, Ph.uSqCost W scheme points (Ph.hArr ext) (fun i (j : Fin a.u.length) => r.1.u i j) = .ok (J r)) ∧
          ∀ x0, OneBest (fun r => C r.1 r.2 ∧ StartsAt 2 q.length x0 r.1) J fun r r' => SameRows 2 q.length a.u.length points r.1 r'.1) := by
  obtain ⟨a, st, ha, hst, hps, hA⟩ := linear_dyn hl hnd hu o h hn
  refine ⟨a, st, ha, hst, hps, fun hlin p hp => ?_⟩
  obtain ⟨hd, A, L, hsol, hL1, hL⟩ := hA hlin p hp
  obtain ⟨Λ, hΛ0, hΛ⟩ := C188_td_partial hs hW (order := 2) (by norm_num) B
  obtain ⟨h₀, h1, h2⟩ := short_segs hΛ0 hL1
  exact ⟨h₀, h1, fun points ext g1 g2 g4 => hΛ _ _ _ points hd g1 g2 ext g4.length A L h₀ hsol (by linarith) hL (h2 points ext g4)⟩

/-- C189, segmented node based problems, the schemes with at most one node besides the collocation points. -/
theorem C189_node_partial (hl : ∀ n ∈ q, Plain n) (hnd : q.Nodup) (hu : FitU q u) (o : SetOrder) (h : ∀ e ∈ RHS, Named e) (hn : RHS.length = q.length)
    {scheme : String} (hs : scheme ∈ implemented) (h2 : scheme ∉ gauss2) (hD2 : scheme ≠ "D2") {W : Ph.Weights}
    (hW : ∀ p, minPoints scheme ≤ p → ∃ w, getWeights p scheme 2 "u" = .ok w ∧ ∀ i < p, W p scheme 2 "u" i = w i) (B : ℕ) :
    ∃ a st, findArgs o RHS (.list q) u false false = .ok a ∧ explicitSetup o RHS q u = .ok st ∧ st.params_sym = a.params ∧
      ((∀ e ∈ RHS, Linear q a.u a.params e) → ∀ p, p.length = a.params.length → ∃ h₀ : ℝ, 0 < h₀ ∧ ∀ points ext, Admissible scheme 0 B points →
        CountsAll scheme points → Fine h₀ points ext →
        ∃ C, phConstraints (dynOf st.dyn_f_restr p) .node scheme 2 q.length a.u.length points ext = .ok C ∧
          ∃ J : Vars × (ℕ → ℕ → ℕ → ℝ) → ℝ, (∀ r, Ph.uSqCost W scheme points (Ph.hArr ext) (fun i (j : Fin a.u.length) => r.1.u i j) = .ok (J r)) ∧
          ∀ x0, OneBest (fun r => C r.1 r.2 ∧ StartsAt 2 q.length x0 r.1) J fun r r' => SameStates 2 q.length a.u.length points r.1 r'.1) := by
  obtain ⟨a, st, ha, hst, hps, hA⟩ := linear_dyn hl hnd hu o h hn
  refine ⟨a, st, ha, hst, hps, fun hlin p hp => ?_⟩
  obtain ⟨hd, A, L, hsol, hL1, hL⟩ := hA hlin p hp
  obtain ⟨Λ, hΛ0, hΛ⟩ := C188_node_partial hs h2 hD2 hW (order := 2) (by norm_num) (.inl le_rfl) B
  obtain ⟨h₀, h1, h2⟩ := short_segs hΛ0 hL1
  exact ⟨h₀, h1, fun points ext g1 g2 g4 => hΛ _ _ _ points hd g1 g2 ext g4.length A L h₀ hsol hL1 hL (h2 points ext g4)⟩
end

/-- Expressions that are linear in all their symbols, with coefficients that are numbers. -/
inductive NumLinear : Expr → Prop
  | fixed {e : Expr} : Fixed [] e → NumLinear e
  | atom (x : Quantity) : NumLinear (.atom x)
  | add {e f : Expr} : NumLinear e → NumLinear f → NumLinear (.add e f)
  | left {e f : Expr} : Fixed [] e → NumLinear f → NumLinear (.mul e f)
  | right {e f : Expr} : NumLinear e → Fixed [] f → NumLinear (.mul e f)

theorem Fixed.weaken {params : List Name} {e : Expr} (h : Fixed [] e) : Fixed params e := by
  induction h with
  | num c => exact .num c
  | param _ hn => simp at hn
  | add _ _ ih ih' => exact .add ih ih'
  | mul _ _ ih ih' => exact .mul ih ih'
  | fn g _ ih => exact .fn g ih

/-- Whatever the symbols turn out to be, these expressions are linear. -/
theorem NumLinear.linear {q : List Name} {u : UVars} {RHS : List Expr} (hl : ∀ n ∈ q, Plain n) (hnd : q.Nodup) (hu : FitU q u) (o : SetOrder)
    (h : ∀ e ∈ RHS, Named e) {a : Args} (ha : findArgs o RHS (.list q) u false false = .ok a) {e : Expr} (he : e ∈ RHS) (hL : NumLinear e) :
    Linear q a.u a.params e := by
  obtain ⟨a', ha', -, -, -, g1, -, -, g2, g3⟩ := args_ok (q := .list q) (by simp) hl hnd hu false false o h
  obtain rfl := Except.ok.inj (ha.symm.trans ha')
  obtain ⟨r, hr, -, k1, k2, -, k3⟩ := C53_names_partial (sets := RHS.map fun e => o.sym (mapAtoms renamed e)) hl hnd hu false false
  obtain rfl : a = r := by
    rw [findArgs_eq o h, hr] at ha
    exact (Except.ok.inj ha).symm
  have known : ∀ x ∈ e.atoms, Linear q a.u a.params (.atom x) := by
    intro x hx
    obtain ⟨n, hn, hxn⟩ := g1 e he (renamed x) (by rw [atoms_mapAtoms]; exact List.mem_map.2 ⟨x, hx, rfl⟩)
    obtain ⟨s, hs⟩ := h e he x hx
    obtain rfl : s = n := by
      rw [renamed, hs] at hxn
      simpa using hxn
    rw [g2 rfl, g3 rfl, List.append_nil, List.append_nil] at hn
    simp only [List.mem_append] at hn
    obtain ((hn | hn) | hn) | hn := hn
    · obtain ⟨i, hi, rfl⟩ := List.getElem_of_mem hn
      have hi' : i < q.length := by omega
      have := (k3 i _ (List.getElem?_eq_getElem hi')).1
      rw [List.getD_eq_getElem _ _ hi] at this
      exact .pos (List.getElem_mem hi') this hs
    · obtain ⟨i, hi, rfl⟩ := List.getElem_of_mem hn
      have hi' : i < q.length := by omega
      have := (k3 i _ (List.getElem?_eq_getElem hi')).2.1
      rw [List.getD_eq_getElem _ _ hi] at this
      exact .vel (List.getElem_mem hi') this hs
    · exact .ctrl hs hn
    · exact .fixed (.param hs hn)
  clear g1 he
  induction hL with
  | fixed h => exact .fixed h.weaken
  | atom x => exact known x (by simp [Expr.atoms])
  | add _ _ ih ih' => exact .add (ih fun x hx => known x (by simp [Expr.atoms, hx])) (ih' fun x hx => known x (by simp [Expr.atoms, hx]))
  | left h _ ih => exact .left h.weaken (ih fun x hx => known x (by simp [Expr.atoms, hx]))
  | right _ h ih => exact .right (ih fun x hx => known x (by simp [Expr.atoms, hx])) h.weaken

/-- `-q_0 + u_0`. -/
noncomputable def pushed : Expr := .add oscillator (.atom (.sym (indexed 'u' 0)))

theorem pushed_linear : NumLinear pushed := .add (.left (.num _) (.atom _)) (.atom _)

theorem pushed_named : ∀ e ∈ [pushed], Named e := by
  intro e he
  rw [List.mem_singleton.1 he]
  intro x hx
  simp only [pushed, Expr.atoms, List.mem_append, List.mem_singleton] at hx
  obtain hx | hx := hx
  · exact oscillator_named oscillator (List.mem_singleton.2 rfl) x hx
  · rw [hx, rename_ok]
    exact ⟨_, rfl⟩

/-- An oscillator with a control, with "hs_mod" and enough steps: if there is some motion from the given start to rest at the origin, there is a best
one. -/
example : ∃ a st, findArgs textOrder [pushed] (.list [indexed 'q' 0]) .none false false = .ok a ∧
    explicitSetup textOrder [pushed] [indexed 'q' 0] .none = .ok st ∧ ∀ p, p.length = a.params.length → ∃ N₀, ∀ N ≥ N₀, ∃ P,
      equiConstraints (dynOf st.dyn_f_restr p) "hs_mod" N 2 1 a.u.length 0 1 = .ok P ∧ ∀ x0,
        (∃ r : (Vars × Vars) × (ℕ → ℕ → ℝ), (P r.1.1 r.1.2 ∧ StartsAt 2 1 x0 r.1.1) ∧ r.1.1.x N 0 = 0 ∧ r.1.1.x N 1 = 0) →
        ∃ r : (Vars × Vars) × (ℕ → ℕ → ℝ), (P r.1.1 r.1.2 ∧ StartsAt 2 1 x0 r.1.1) ∧ (r.1.1.x N 0 = 0 ∧ r.1.1.x N 1 = 0) ∧
          ∀ z : (Vars × Vars) × (ℕ → ℕ → ℝ), P z.1.1 z.1.2 → StartsAt 2 1 x0 z.1.1 → z.1.1.x N 0 = 0 ∧ z.1.1.x N 1 = 0 →
            Costs.uSqCost "hs_mod" (1 - 0) N (stored a.u.length r) ≤ Costs.uSqCost "hs_mod" (1 - 0) N (stored a.u.length z) := by
  obtain ⟨a, st, ha, hst, -, h⟩ := C189_equispaced (q := [indexed 'q' 0]) plain_q0 (List.nodup_singleton _) (u := .none) trivial textOrder pushed_named rfl
    (t0 := 0) (t1 := 1) one_pos
  refine ⟨a, st, ha, hst, fun p hp => ?_⟩
  obtain ⟨N₀, hN₀⟩ := h (fun e he => NumLinear.linear plain_q0 (List.nodup_singleton _) (u := .none) trivial textOrder pushed_named ha he
    (by rw [List.mem_singleton.1 he]; exact pushed_linear)) p hp
  refine ⟨N₀, fun N hN => ?_⟩
  obtain ⟨P, hP, g⟩ := hN₀ N hN "hs_mod" _ (.inl .hs_mod)
  refine ⟨P, hP, fun x0 hx => ?_⟩
  obtain ⟨r, ⟨r1, r2, r3⟩, -⟩ := g x0 (fun r => r.1.1.x N 0 = 0 ∧ r.1.1.x N 1 = 0) (fun s v w hv hw => by
    constructor
    · change s * v.1.1.x N 0 + (1 - s) * w.1.1.x N 0 = 0
      rw [hv.1, hw.1]; ring
    · change s * v.1.1.x N 1 + (1 - s) * w.1.1.x N 1 = 0
      rw [hv.2, hw.2]; ring) (by obtain ⟨r, r1, r2⟩ := hx; exact ⟨r, ⟨⟨r1.1, by simp [Costs.uSqConstraint]⟩, r1.2⟩, r2⟩)
  exact ⟨r, ⟨r1.1.1, r1.2⟩, r2, fun z z1 z2 z3 => r3 z ⟨⟨z1, by simp [Costs.uSqConstraint]⟩, z2⟩ z3⟩

end Chords.Blend
