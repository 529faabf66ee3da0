import Verif.Model.Guess
import Verif.Lemmas.Exc
import Mathlib.Tactic.Module
import Mathlib.Tactic.FieldSimp
import Mathlib.Tactic.Ring
import Mathlib.Tactic.Linarith
import Mathlib.Tactic.NormNum

/-! # C63, C89, C90, C177: initial guesses -/

namespace Chords.Props
open Chords.Interp (npInterp interpAt)
open Chords.Guess Chords.Problem

private theorem npInterp_line {W : Type} [AddCommGroup W] [Module ℝ W] (q v : W) (t0 a : ℝ) (rest : List ℝ)
    (inc : (a :: rest).Pairwise (· < ·)) (x : ℝ) (h1 : a ≤ x) (h2 : ∃ b ∈ a :: rest, x ≤ b) :
    npInterp (a, q + (a - t0) • v) (rest.map fun t => (t, q + (t - t0) • v)) x = q + (x - t0) • v := by
  induction rest generalizing a with
  | nil =>
    obtain ⟨b, hb, hx⟩ := h2
    have : b = a := by simpa using hb
    subst this
    rw [le_antisymm hx h1]
    rfl
  | cons b rest ih =>
    obtain ⟨i1, i2⟩ := List.pairwise_cons.1 inc
    have hab : a < b := i1 b (by simp)
    simp only [List.map_cons, npInterp, not_lt.2 h1, if_false]
    split_ifs with hx
    · have hne : b - a ≠ 0 := by linarith
      have e : (q + (b - t0) • v) - (q + (a - t0) • v) = (b - a) • v := by module
      rw [e, smul_smul, div_mul_cancel₀ _ hne]
      module
    · refine ih b i2 (not_lt.1 hx) ?_
      obtain ⟨c, hc, hxc⟩ := h2
      rcases List.mem_cons.1 hc with rfl | hc
      · exact ⟨b, by simp, by linarith⟩
      · exact ⟨c, hc, hxc⟩

private theorem interp2d_line {d : ℕ} (q v : Row d) (t0 : ℝ) (ts old : List ℝ) (inc : old.Pairwise (· < ·))
    (hin : ∀ x ∈ ts, (∃ a ∈ old, a ≤ x) ∧ (∃ b ∈ old, x ≤ b)) (ho : old ≠ []) :
    interp2d ts old (old.map fun t => q + (t - t0) • v) = .ok (ts.map fun t => q + (t - t0) • v) := by
  obtain ⟨a, rest, rfl⟩ := List.exists_cons_of_ne_nil ho
  unfold interp2d
  rw [if_pos (by simp)]
  have e : ts.mapM (interpAt (a :: rest) ((a :: rest).map fun t => q + (t - t0) • v)) =
      .ok (ts.map fun t => q + (t - t0) • v) := by
    refine Exc.mapM_eq fun x hx => ?_
    obtain ⟨⟨c, hc, hc'⟩, hx⟩ := hin x hx
    have hac : a ≤ x := by
      rcases List.mem_cons.1 hc with rfl | hc
      · exact hc'
      · exact le_trans ((List.pairwise_cons.1 inc).1 c hc).le hc'
    rw [← npInterp_line q v t0 a rest inc x hac hx]
    simp only [interpAt, List.map_cons, List.zip_cons_cons]
    congr 2
    clear * -
    induction rest with
    | nil => rfl
    | cons b rest ih => simp only [List.map_cons, List.zip_cons_cons, ih]
  rw [e]

private theorem getD_eq {A : Type} [Zero A] {l : List A} {i : ℕ} (h : i < l.length) : l.getD i 0 = l[i] := by
  rw [List.getD_eq_getElem?_getD, List.getElem?_eq_getElem h]
  rfl

private theorem grad_coeffs {A B C : ℝ} (t0 : ℝ) (h1 : A < B) (h2 : B < C) :
    -(C - B) / ((B - A) * (B - A + (C - B))) + (C - B - (B - A)) / ((C - B) * (B - A)) +
        (B - A) / ((C - B) * (B - A + (C - B))) = 0 ∧
    -(C - B) / ((B - A) * (B - A + (C - B))) * (A - t0) + (C - B - (B - A)) / ((C - B) * (B - A)) * (B - t0) +
        (B - A) / ((C - B) * (B - A + (C - B))) * (C - t0) = 1 := by
  obtain ⟨x, rfl⟩ : ∃ x, B = A + x := ⟨B - A, by ring⟩
  obtain ⟨y, rfl⟩ : ∃ y, C = A + x + y := ⟨C - (A + x), by ring⟩
  have hx : x ≠ 0 := by linarith
  have hy : y ≠ 0 := by linarith
  have hxy : x + y ≠ 0 := by linarith
  have e1 : A + x + y - (A + x) = y := by ring
  have e2 : A + x - A = x := by ring
  rw [e1, e2]
  constructor <;> field_simp <;> ring

private theorem grad_row {d : ℕ} (q v : Row d) (t0 : ℝ) {A B C : ℝ} (h1 : A < B) (h2 : B < C) :
    (-(C - B) / ((B - A) * (B - A + (C - B)))) • (q + (A - t0) • v) + ((C - B - (B - A)) / ((C - B) * (B - A))) •
      (q + (B - t0) • v) + ((B - A) / ((C - B) * (B - A + (C - B)))) • (q + (C - t0) • v) = v := by
  obtain ⟨e1, e2⟩ := grad_coeffs t0 h1 h2
  generalize -(C - B) / ((B - A) * (B - A + (C - B))) = a at *
  generalize (C - B - (B - A)) / ((C - B) * (B - A)) = b at *
  generalize (B - A) / ((C - B) * (B - A + (C - B))) = c at *
  have : a • (q + (A - t0) • v) + b • (q + (B - t0) • v) + c • (q + (C - t0) • v) =
      (a + b + c) • q + (a * (A - t0) + b * (B - t0) + c * (C - t0)) • v := by module
  rw [this, e1, e2]
  module

private theorem gradient_line {d : ℕ} (q v : Row d) (t0 : ℝ) (t : List ℝ) (inc : t.Pairwise (· < ·)) (hl : 2 ≤ t.length) :
    gradient (t.map fun t => q + (t - t0) • v) t = .ok (t.map fun _ => v) := by
  unfold gradient
  rw [if_pos (by simp [hl])]
  simp only [List.length_map]
  congr 1
  have hT : ∀ i j, i < j → j < t.length → t.getD i 0 < t.getD j 0 := by
    intro i j hij hj
    rw [getD_eq (hij.trans hj), getD_eq hj]
    exact List.pairwise_iff_getElem.1 inc i j (hij.trans hj) hj hij
  have hY : ∀ i, i < t.length → (t.map fun t => q + (t - t0) • v).getD i 0 = q + (t.getD i 0 - t0) • v := by
    intro i hi
    rw [getD_eq (l := t.map _) (by simpa using hi), getD_eq hi, List.getElem_map]
  refine List.ext_getElem (by simp) fun i hi _ => ?_
  simp only [List.length_map, List.length_range] at hi
  simp only [List.getElem_map, List.getElem_range]
  have two : ∀ i j, i < j → j < t.length → (1 / (t.getD j 0 - t.getD i 0)) •
      ((t.map fun t => q + (t - t0) • v).getD j 0 - (t.map fun t => q + (t - t0) • v).getD i 0) = v := by
    intro i j hij hj
    rw [hY i (hij.trans hj), hY j hj]
    have := hT i j hij hj
    have hne : t.getD j 0 - t.getD i 0 ≠ 0 := by linarith
    have e : (q + (t.getD j 0 - t0) • v) - (q + (t.getD i 0 - t0) • v) = (t.getD j 0 - t.getD i 0) • v := by module
    rw [e, smul_smul, one_div_mul_cancel hne, one_smul]
  split_ifs with h1 h2
  · exact two 0 1 (by omega) (by omega)
  · exact two _ _ (by omega) (by omega)
  · rw [hY i hi, hY (i - 1) (by omega), hY (i + 1) (by omega)]
    have g1 := hT (i - 1) i (by omega) (by omega)
    have g2 := hT i (i + 1) (by omega) (by omega)
    exact grad_row q v t0 g1 g2

/-- The guess for derivative number `k` of a straight line. -/
noncomputable def lineDer {d : ℕ} (q v : Row d) (t0 : ℝ) : ℕ → ℝ → Row d
  | 0 => fun t => q + (t - t0) • v
  | 1 => fun _ => v
  | _ + 2 => fun _ => 0

private theorem const_line {d : ℕ} (v : Row d) (t0 : ℝ) : (fun _ : ℝ => v) = fun t => v + (t - t0) • (0 : Row d) := by
  funext t
  rw [smul_zero, add_zero]

private theorem gradients_line {d : ℕ} (t0 : ℝ) (t : List ℝ) (inc : t.Pairwise (· < ·)) (hl : 2 ≤ t.length) (n : ℕ)
    (q v : Row d) : gradients (t.map fun t => q + (t - t0) • v) t n =
      .ok ((List.range (n + 1)).map fun k => t.map (lineDer q v t0 k)) := by
  induction n generalizing q v with
  | zero => simp [gradients, lineDer]
  | succ n ih =>
    rw [gradients, gradient_line q v t0 t inc hl]
    show (do let r ← gradients (t.map fun _ => v) t n; return (t.map fun t => q + (t - t0) • v) :: r) = _
    rw [const_line v t0, ih v 0]
    show Except.ok _ = _
    congr 1
    rw [List.range_succ_eq_map (n := n + 1), List.map_cons, List.map_map]
    congr 1
    refine List.map_congr_left fun k _ => ?_
    congr 1
    funext t
    rcases k with _ | _ | k <;> simp [lineDer]

private theorem mids_line {d : ℕ} (q v : Row d) (t0 : ℝ) (ts : List ℝ) :
    mids (ts.map fun t => q + (t - t0) • v) = List.zipWith (fun a b => q + ((a + b) / 2 - t0) • v) ts ts.tail := by
  unfold mids
  rw [← List.map_tail, List.zipWith_map]
  congr 1
  funext a b
  module

private theorem two_points {d : ℕ} {a b : ℝ} (hab : a < b) (q_s q_e : Row d) (ts : List ℝ) (ht : ∀ t ∈ ts, a ≤ t ∧ t ≤ b) :
    interp2d ts [a, b] [q_s, q_e] = .ok (ts.map fun t => q_s + (t - a) • ((1 / (b - a)) • (q_e - q_s))) := by
  have hne : b - a ≠ 0 := by linarith
  have := interp2d_line q_s ((1 / (b - a)) • (q_e - q_s)) a ts [a, b] (by simpa using hab)
    (fun x hx => ⟨⟨a, by simp, (ht x hx).1⟩, ⟨b, by simp, (ht x hx).2⟩⟩) (by simp)
  rw [← this]
  congr 1
  simp only [List.map_cons, List.map_nil]
  have e : q_s + (b - a) • ((1 / (b - a)) • (q_e - q_s)) = q_e := by
    rw [smul_smul, mul_one_div_cancel hne]; module
  rw [e]
  simp

/-- C63: the linear guess is, at the times of every array of the problem, the straight line from `q_s` at the start to `q_e` at
the end; the guess of the velocity is its slope and that of the acceleration zero. For Hermite-Simpson schemes the same holds
at the middle of the intervals. -/
theorem C63_line_partial {d : ℕ} (p : Prob) (hm : p.mode ∈ modes) (hT : p.t_start < p.t_end)
    (ht : ∀ t ∈ p.t, p.t_start ≤ t ∧ t ≤ p.t_end) (hc : ∀ t ∈ p.t_constr, p.t_start ≤ t ∧ t ≤ p.t_end) (q_s q_e : Row d) :
    ∃ (v : Row d) (s : Sets d), linGuess p (.row q_s) (.row q_e) = .ok s ∧ q_s + (p.t_end - p.t_start) • v = q_e ∧
      s.get "q" = some (.rows (p.t.map fun t => q_s + (t - p.t_start) • v)) ∧
      s.get "v" = some (.rows (p.t.map fun _ => v)) ∧
      (p.mode = "top-down pseudospectral" →
        s.get "q_constr" = some (.rows (p.t_constr.map fun t => q_s + (t - p.t_start) • v))) ∧
      (p.mode = "equispaced" → 1 < p.order → s.get "a" = some .zero ∧
        (hasHs p.scheme = true →
          s.get "q_c" = some (.rows (List.zipWith (fun a b => q_s + ((a + b) / 2 - p.t_start) • v) p.t p.t.tail)) ∧
          s.get "v_c" = some (.rows (p.t.tail.map fun _ => v)) ∧ s.get "a_c" = some .zero)) := by
  have hne : p.t_end - p.t_start ≠ 0 := by linarith
  refine ⟨(1 / (p.t_end - p.t_start)) • (q_e - q_s), ?s, ?e, ?c, ?r⟩
  case c => rw [smul_smul, mul_one_div_cancel hne]; module
  case e =>
    unfold linGuess
    rw [if_pos hm]
    simp only [two_points hT q_s q_e p.t ht, two_points hT q_s q_e p.t_constr hc]
    rfl
  have hv : (p.t.map fun _ => (1 / (p.t_end - p.t_start)) • (q_e - q_s)) =
      List.replicate p.t.length ((1 / (p.t_end - p.t_start)) • (q_e - q_s)) := by
    rw [List.map_const']
  have hv' : (p.t.tail.map fun _ => (1 / (p.t_end - p.t_start)) • (q_e - q_s)) =
      (List.replicate p.t.length ((1 / (p.t_end - p.t_start)) • (q_e - q_s))).tail := by
    rw [List.map_const', List.tail_replicate, List.length_tail]
  rw [hv, hv']
  refine ⟨?_, ?_, ?_, ?_⟩
  · split_ifs <;> simp [Sets.get]
  · split_ifs <;> simp [Sets.get]
  · intro h
    rw [if_pos h, if_neg (by rw [h]; simp)]
    simp [Sets.get]
  · intro h1 h2
    rw [if_neg (by rw [h1]; decide), if_pos ⟨h2, h1⟩]
    refine ⟨?_, ?_⟩
    · split_ifs <;> simp [Sets.get]
    · intro h3
      rw [if_pos h3, ← mids_line]
      simp [Sets.get]

/-- C63 fails for the schemes with "j" in their name: the central point of an interval is at four tenths of it, and the guess
is the value of the line at the middle. -/
theorem C63_centre_refuted (scheme : String) (hh : hasHs scheme = true) (hj : 'j' ∈ scheme.toList) :
    ∃ s : Sets 1, linGuess ⟨"equispaced", scheme, 2, 0, 1, [0, 1], [0, 1], []⟩ (.row fun _ => 0) (.row fun _ => 1) = .ok s ∧
      tCentre scheme 0 1 = 0.4 ∧ s.get "q_c" = some (.rows [fun _ => 0.5]) := by
  refine ⟨?s, ?e, by rw [tCentre, if_pos hj]; norm_num, ?r⟩
  case e =>
    unfold linGuess
    rw [if_pos (show "equispaced" ∈ modes by decide)]
    simp only [two_points (show (0:ℝ) < 1 by norm_num) (fun _ : Fin 1 => (0:ℝ)) (fun _ => 1) [0, 1] (by simp),
      two_points (show (0:ℝ) < 1 by norm_num) (fun _ : Fin 1 => (0:ℝ)) (fun _ => 1) [] (by simp)]
    rfl
  simp only [hh]
  simp [Sets.get, mids]
  funext i
  norm_num

/-- The hypotheses hold of "hsj". -/
example : hasHs "hsj" = true ∧ 'j' ∈ "hsj".toList := by decide

/-- C63 fails for numbers, which the documentation allows for problems of one coordinate. -/
theorem C63_number_refuted (p : Prob) (hm : p.mode ∈ modes) (a b : ℝ) :
    linGuess p (.num a : Ini 1) (.num b) = .error .index := by
  unfold linGuess
  rw [if_pos hm]

/-- C63 for problems in segments of equal size: there is no linear guess. -/
theorem C63_ph_refuted {d : ℕ} (p : Prob) (hp : p.mode = "ph equispaced") (a b : Ini d) :
    linGuess p a b = .error .notImplemented := by
  unfold linGuess
  rw [if_neg (by rw [hp]; decide)]

/-- The hypotheses hold of a problem of two intervals. -/
example : ∃ (v : Row 2) (s : Sets 2), linGuess ⟨"equispaced", "hs", 2, 1, 3, [1, 2, 3], [1, 2, 3], []⟩ (.row ![1, 5])
    (.row ![2, 1]) = .ok s ∧ ![1, 5] + ((3:ℝ) - 1) • v = ![2, 1] := by
  obtain ⟨v, s, h1, h2, -⟩ := C63_line_partial ⟨"equispaced", "hs", 2, 1, 3, [1, 2, 3], [1, 2, 3], []⟩ (by decide)
    (by norm_num) (by norm_num) (by simp) ![1, 5] ![2, 1]
  exact ⟨v, s, h1, h2⟩

/-- C89: waypoints on a straight line give that line as guess at the times of every array, its slope as guess of the
velocity, and zero for the higher derivatives, for every spacing of the waypoints and of the arrays. -/
theorem C89_line {d : ℕ} (p : Prob) (hm : p.mode ∈ modes) (t_points : List ℝ) (inc : t_points.Pairwise (· < ·))
    (hl : 2 ≤ t_points.length) (ht : ∀ t ∈ p.t ++ p.t_constr, (∃ a ∈ t_points, a ≤ t) ∧ (∃ b ∈ t_points, t ≤ b))
    (q v : Row d) (t0 : ℝ) :
    ∃ s : Sets d, waypointsGuess p (t_points.map fun t => q + (t - t0) • v) (some t_points) = .ok s ∧
      s.get "x" = some (.levels ((List.range p.order).map fun k => p.t.map (lineDer q v t0 k))) ∧
      s.get "x_d" = some (.levels ((List.range p.order).map fun k => p.t.map (lineDer q v t0 (k + 1)))) ∧
      (p.mode = "top-down pseudospectral" → s.get "q_constr" = some (.rows (p.t_constr.map (lineDer q v t0 0)))) ∧
      (p.mode = "equispaced" → hasHs p.scheme = true →
        s.get "x_c" = some (.levels ((List.range p.order).map fun k =>
          List.zipWith (fun a b => lineDer q v t0 k ((a + b) / 2)) p.t p.t.tail)) ∧
        s.get "x_d_c" = some (.levels ((List.range p.order).map fun k =>
          List.zipWith (fun a b => lineDer q v t0 (k + 1) ((a + b) / 2)) p.t p.t.tail))) := by
  have ho : t_points ≠ [] := by rintro rfl; simp at hl
  have affine : ∀ k, ∃ q' v' : Row d, lineDer q v t0 k = fun t => q' + (t - t0) • v' := by
    intro k
    rcases k with _ | _ | k
    · exact ⟨q, v, rfl⟩
    · exact ⟨v, 0, const_line v t0⟩
    · exact ⟨0, 0, const_line 0 t0⟩
  have e1 : ((List.range (p.order + 1)).map fun k => t_points.map (lineDer q v t0 k)).mapM (interp2d p.t t_points) =
      .ok ((List.range (p.order + 1)).map fun k => p.t.map (lineDer q v t0 k)) := by
    rw [List.mapM_map]
    refine Exc.mapM_eq fun k _ => ?_
    obtain ⟨q', v', e⟩ := affine k
    show interp2d p.t t_points (t_points.map (lineDer q v t0 k)) = _
    rw [e]
    exact interp2d_line q' v' t0 p.t t_points inc (fun x hx => ht x (List.mem_append_left _ hx)) ho
  have e2 := interp2d_line q v t0 p.t_constr t_points inc (fun x hx => ht x (List.mem_append_right _ hx)) ho
  refine ⟨?s, ?e, ?r⟩
  case e =>
    unfold waypointsGuess
    rw [if_pos hm]
    simp only [Option.getD_some, gradients_line t0 t_points inc hl]
    show (do let guess ← List.mapM (interp2d p.t t_points) _; _) = _
    rw [e1]
    show (do let constr ← interp2d p.t_constr t_points _; _) = _
    rw [e2]
    rfl
  have h1 : ((List.range (p.order + 1)).map fun k => p.t.map (lineDer q v t0 k)).dropLast =
      (List.range p.order).map fun k => p.t.map (lineDer q v t0 k) := by
    rw [List.range_succ, List.map_append]
    simp
  have h2 : ((List.range (p.order + 1)).map fun k => p.t.map (lineDer q v t0 k)).tail =
      (List.range p.order).map fun k => p.t.map (lineDer q v t0 (k + 1)) := by
    rw [List.range_succ_eq_map]
    simp [Function.comp_def]
  rw [h1, h2]
  refine ⟨?_, ?_, ?_, ?_⟩
  · split_ifs <;> simp [Sets.get]
  · split_ifs <;> simp [Sets.get]
  · intro h
    rw [if_pos h, if_neg (by rw [h]; simp)]
    simp [Sets.get, lineDer]
  · intro h1 h2
    rw [if_neg (by rw [h1]; decide), if_pos ⟨h1, h2⟩]
    have e : ∀ k, mids (p.t.map (lineDer q v t0 k)) =
        List.zipWith (fun a b => lineDer q v t0 k ((a + b) / 2)) p.t p.t.tail := by
      intro k
      obtain ⟨q', v', e⟩ := affine k
      rw [e]
      exact mids_line q' v' t0 p.t
    refine ⟨?_, ?_⟩ <;> simp [Sets.get, Function.comp_def, e]

/-- C89, without times: `n + 2` equally spaced waypoints from `q0` to `q1` give the straight motion from `q0` at the start to `q1` at the end. -/
theorem C89_default {d : ℕ} (p : Prob) (hm : p.mode ∈ modes) (h0 : p.t_start < p.t_end) (ht : ∀ t ∈ p.t ++ p.t_constr, p.t_start ≤ t ∧ t ≤ p.t_end) (n : ℕ)
    (q0 q1 : Row d) :
    ∃ v : Row d, q0 + (p.t_end - p.t_start) • v = q1 ∧ ∃ s : Sets d,
      waypointsGuess p ((List.range (n + 2)).map fun (i : ℕ) => q0 + ((i : ℝ) / (n + 1)) • (q1 - q0)) none = .ok s ∧
      s.get "x" = some (.levels ((List.range p.order).map fun k => p.t.map (lineDer q0 v p.t_start k))) ∧
      s.get "x_d" = some (.levels ((List.range p.order).map fun k => p.t.map (lineDer q0 v p.t_start (k + 1)))) ∧
      (p.mode = "top-down pseudospectral" → s.get "q_constr" = some (.rows (p.t_constr.map (lineDer q0 v p.t_start 0)))) := by
  have h1 : p.t_end - p.t_start ≠ 0 := sub_ne_zero.2 h0.ne'
  have hn : (0 : ℝ) < (n : ℝ) + 1 := by positivity
  have hi : linspace p.t_start p.t_end (n + 2) = (List.range (n + 2)).map fun (i : ℕ) => p.t_start + i * ((p.t_end - p.t_start) / (n + 1)) := by
    simp only [linspace, show n + 2 - 1 = n + 1 by omega, Nat.cast_add, Nat.cast_one]
  refine ⟨(p.t_end - p.t_start)⁻¹ • (q1 - q0), by rw [smul_smul, mul_inv_cancel₀ h1, one_smul, add_sub_cancel], ?_⟩
  obtain ⟨s, s1, s2, s3, s4, -⟩ := C89_line p hm (linspace p.t_start p.t_end (n + 2)) (by
      rw [hi, List.pairwise_map]
      refine List.pairwise_lt_range.imp fun h => ?_
      have : 0 < (p.t_end - p.t_start) / ((n : ℝ) + 1) := div_pos (sub_pos.2 h0) hn
      have := mul_lt_mul_of_pos_right (Nat.cast_lt (α := ℝ).2 h) this
      linarith) (by rw [hi]; simp) (fun t h => ⟨⟨p.t_start, by rw [hi]; exact List.mem_map.2 ⟨0, by simp, by simp⟩, (ht t h).1⟩,
      ⟨p.t_end, by rw [hi]; exact List.mem_map.2 ⟨n + 1, by simp, by push_cast; field_simp; ring⟩, (ht t h).2⟩⟩) q0
    ((p.t_end - p.t_start)⁻¹ • (q1 - q0)) p.t_start
  refine ⟨s, ?_, s2, s3, s4⟩
  rw [← s1]
  have e : ((linspace p.t_start p.t_end (n + 2)).map fun t => q0 + (t - p.t_start) • (p.t_end - p.t_start)⁻¹ • (q1 - q0)) =
      (List.range (n + 2)).map fun (i : ℕ) => q0 + ((i : ℝ) / (n + 1)) • (q1 - q0) := by
    rw [hi, List.map_map]
    refine List.map_congr_left fun i _ => ?_
    simp only [Function.comp_apply, smul_smul]
    congr 2
    field_simp
    ring
  rw [e]
  unfold waypointsGuess
  simp only [Option.getD_none, Option.getD_some, List.length_map, List.length_range]

/-- The hypotheses hold of a problem with three waypoints. -/
example : ∃ (v : Row 1) (s : Sets 1), (fun _ => 1) + ((2 : ℝ) - 0) • v = (fun _ => 5) ∧
    waypointsGuess ⟨"top-down pseudospectral", "LG", 2, 0, 2, [0, 0.7, 2], [0.7], [0, 1, 2]⟩
      ((List.range 3).map fun (i : ℕ) => (fun _ => 1) + ((i : ℝ) / ((1 : ℕ) + 1)) • ((fun _ => 5) - fun _ => 1)) none = .ok s := by
  obtain ⟨v, h1, s, h2, -⟩ := C89_default ⟨"top-down pseudospectral", "LG", 2, 0, 2, [0, 0.7, 2], [0.7], [0, 1, 2]⟩ (by decide) (by norm_num) (by norm_num) 1
    (fun _ : Fin 1 => 1) (fun _ => 5)
  exact ⟨v, s, h1, h2⟩

/-- C89: the waypoints need at least two points. -/
theorem C89_short {d : ℕ} (p : Prob) (hm : p.mode ∈ modes) (ho : 0 < p.order) (q_points : List (Row d)) (hq : q_points.length < 2)
    (t_points : Option (List ℝ)) : waypointsGuess p q_points t_points = .error .value := by
  unfold waypointsGuess
  rw [if_pos hm]
  obtain ⟨n, hn⟩ : ∃ n, p.order = n + 1 := ⟨p.order - 1, by omega⟩
  rw [hn]
  simp only [gradients, gradient]
  rw [if_neg (by omega)]
  rfl

/-- The hypotheses hold of a top-down problem and three waypoints. -/
example : ∃ s : Sets 1, waypointsGuess ⟨"top-down pseudospectral", "LG", 2, 0, 2, [0, 0.7, 2], [0.7], [0, 1, 2]⟩
    ([0, 0.5, 2].map fun t : ℝ => (fun _ => 1) + (t - 0) • fun _ => 3) (some [0, 0.5, 2]) = .ok s ∧
    s.get "x_d" = some (.levels [[fun _ => 3, fun _ => 3, fun _ => 3], [0, 0, 0]]) := by
  obtain ⟨s, h1, -, h2, -⟩ := C89_line ⟨"top-down pseudospectral", "LG", 2, 0, 2, [0, 0.7, 2], [0.7], [0, 1, 2]⟩ (by decide)
    [0, 0.5, 2] (by norm_num) (by simp) (by norm_num) (fun _ : Fin 1 => 1) (fun _ => 3) 0
  exact ⟨s, h1, h2⟩

/-- C90: the custom guess of `q` and `v` is what the user gives, and the guess at the middle of the intervals is the mean of
the values around it. -/
theorem C90_custom_partial {d : ℕ} (p : Prob) (hm : p.mode = "equispaced") (ho : 1 < p.order) (q v a : List (Row d)) :
    ∃ s : Sets d, customGuess p q v a = .ok s ∧ s.get "q" = some (.rows q) ∧ s.get "v" = some (.rows v) ∧
      (hasHs p.scheme = true → ∀ i : ℕ, ∀ q0 q1 v0 v1 a0 a1, q[i]? = some q0 → q[i + 1]? = some q1 → v[i]? = some v0 →
        v[i + 1]? = some v1 → a[i]? = some a0 → a[i + 1]? = some a1 → ∃ qc vc ac, s.get "q_c" = some (.rows qc) ∧
          s.get "v_c" = some (.rows vc) ∧ s.get "a_c" = some (.rows ac) ∧ qc[i]? = some ((1 / 2 : ℝ) • (q0 + q1)) ∧
          vc[i]? = some ((1 / 2 : ℝ) • (v0 + v1)) ∧ ac[i]? = some ((1 / 2 : ℝ) • (a0 + a1))) := by
  have hmid : ∀ (l : List (Row d)) (i : ℕ) x y, l[i]? = some x → l[i + 1]? = some y →
      (mids l)[i]? = some ((1 / 2 : ℝ) • (x + y)) := by
    intro l i x y hx hy
    unfold mids
    rw [List.getElem?_zipWith, hx, List.getElem?_tail, hy]
  refine ⟨?s, ?e, ?r⟩
  case e =>
    unfold customGuess customEq customConstr setA
    rw [if_pos hm, if_pos ho, if_neg (c := p.mode = "top-down pseudospectral") (by rw [hm]; decide)]
    rfl
  refine ⟨?_, ?_, ?_⟩
  · split_ifs <;> simp [Sets.get]
  · split_ifs <;> simp [Sets.get]
  · intro h i q0 q1 v0 v1 a0 a1 g1 g2 g3 g4 g5 g6
    rw [if_pos h]
    exact ⟨mids q, mids v, mids a, by simp [Sets.get], by simp [Sets.get], by simp [Sets.get], hmid _ _ _ _ g1 g2,
      hmid _ _ _ _ g3 g4, hmid _ _ _ _ g5 g6⟩

/-- The hypotheses hold of a problem of one interval. -/
example : ∃ s : Sets 1, customGuess ⟨"equispaced", "hs", 2, 0, 1, [0, 1], [0, 1], []⟩ [fun _ => 1, fun _ => 2]
    [fun _ => 3, fun _ => 4] [fun _ => 5, fun _ => 6] = .ok s ∧ s.get "v" = some (.rows [fun _ => 3, fun _ => 4]) := by
  obtain ⟨s, h1, -, h2, -⟩ := C90_custom_partial (d := 1) ⟨"equispaced", "hs", 2, 0, 1, [0, 1], [0, 1], []⟩ rfl (by decide)
    [fun _ => 1, fun _ => 2] [fun _ => 3, fun _ => 4] [fun _ => 5, fun _ => 6]
  exact ⟨s, h1, h2⟩

/-- C90 fails for the acceleration: whatever the user gives, the guess at the points of an equispaced problem is zero. -/
theorem C90_acceleration_refuted {d : ℕ} (p : Prob) (hm : p.mode = "equispaced") (ho : 1 < p.order) (q v a : List (Row d)) :
    ∃ s : Sets d, customGuess p q v a = .ok s ∧ s.get "a" = some .zero := by
  refine ⟨?s, ?e, ?r⟩
  case e =>
    unfold customGuess customEq customConstr setA
    rw [if_pos hm, if_pos ho, if_neg (c := p.mode = "top-down pseudospectral") (by rw [hm]; decide)]
    rfl
  split_ifs <;> simp [Sets.get]

/-- C90 fails for problems of order one: on an equispaced problem neither the zero nor the custom guess can be set. -/
theorem C90_order_one_refuted {d : ℕ} (p : Prob) (hm : p.mode = "equispaced") (ho : p.order = 1) (q v a : List (Row d)) :
    zeroGuess (d := d) p = .error .casadi ∧ customGuess p q v a = .error .casadi := by
  constructor
  · unfold zeroGuess setA
    rw [if_pos hm, if_neg (by omega)]
    rfl
  · unfold customGuess customEq customConstr setA
    rw [if_pos hm, if_neg (by omega)]
    rfl

/-- C90, zero guess: it can be set in all other cases. -/
theorem C90_zero {d : ℕ} (p : Prob) (h : p.mode ≠ "equispaced" ∨ 1 < p.order) :
    ∃ s : Sets d, zeroGuess p = .ok s ∧ s.get "q" = some .zero ∧ s.get "v" = some .zero ∧
      (p.mode = "equispaced" → s.get "a" = some .zero) := by
  by_cases hm : p.mode = "equispaced"
  · have ho : 1 < p.order := h.resolve_left (not_not.2 hm)
    refine ⟨[("q", .zero), ("v", .zero), ("a", .zero)], ?_, ?_⟩
    · unfold zeroGuess setA
      rw [if_pos hm, if_pos ho]
      rfl
    · simp [Sets.get]
  · refine ⟨[("q", .zero), ("v", .zero)], ?_, ?_⟩
    · unfold zeroGuess
      rw [if_neg hm]
      rfl
    · simp [Sets.get, hm]

private theorem take_ph : ∀ m ∈ modes, (m.toList.take 3 = "ph ".toList ↔ m ∈ ["ph bottom-up pseudospectral",
    "ph top-down pseudospectral", "ph pseudospectral"]) := by
  decide

/-- C177: control waypoints on a straight line give that line as guess of the controls: at all times of the motion, knots and
ends included, in segmented problems, and at the times at which there are controls in the others. For Hermite-Simpson schemes
the line at the middle of the intervals is the guess of the central controls. Without control waypoints no guess of the
controls is set. The guess of the states is the same with and without them. -/
theorem C177_line_partial {d m : ℕ} (p : Prob) (hm : p.mode ∈ modes) (t_points : List ℝ) (inc : t_points.Pairwise (· < ·))
    (hl : t_points ≠ []) (ht : ∀ t ∈ p.t ++ p.t_col, (∃ a ∈ t_points, a ≤ t) ∧ (∃ b ∈ t_points, t ≤ b))
    (u w : Row m) (t0 : ℝ) (q_points : List (Row d)) (x : Sets d) (hx : waypointsGuess p q_points (some t_points) = .ok x) :
    waypoints (m := m) p q_points (some t_points) none = .ok (x, []) ∧
    ∃ s : Sets m, waypoints p q_points (some t_points) (some (t_points.map fun t => u + (t - t0) • w)) = .ok (x, s) ∧
      (p.mode ∈ ["ph bottom-up pseudospectral", "ph top-down pseudospectral", "ph pseudospectral"] →
        s.get "u_like_x" = some (.rows (p.t.map fun t => u + (t - t0) • w))) ∧
      (p.mode ∈ ["equispaced", "bottom-up pseudospectral", "top-down pseudospectral", "pseudospectral"] →
        s.get "u" = some (.rows (p.t_col.map fun t => u + (t - t0) • w))) ∧
      (p.mode = "equispaced" → hasHs p.scheme = true →
        s.get "u_c" = some (.rows (List.zipWith (fun a b => u + ((a + b) / 2 - t0) • w) p.t_col p.t_col.tail))) := by
  constructor
  · unfold waypoints
    rw [hx]
    rfl
  have e1 := interp2d_line u w t0 p.t t_points inc (fun x hx => ht x (List.mem_append_left _ hx)) hl
  have e2 := interp2d_line u w t0 p.t_col t_points inc (fun x hx => ht x (List.mem_append_right _ hx)) hl
  by_cases hp : p.mode.toList.take 3 = "ph ".toList
  · have hp' := (take_ph _ hm).1 hp
    refine ⟨[("u_like_x", .rows (p.t.map fun t => u + (t - t0) • w))], ?_, ?_, ?_, ?_⟩
    · unfold waypoints waypointsControl
      rw [hx]
      simp only [hp, if_true, Option.getD_some, e1]
      rfl
    · simp [Sets.get]
    · intro h
      simp only [List.mem_cons, List.not_mem_nil, or_false] at h hp'
      rcases h with h | h | h | h <;> rw [h] at hp' <;> exact absurd hp' (by decide)
    · intro h
      rw [h] at hp'
      exact absurd hp' (by decide)
  · have hp' := fun h => hp ((take_ph _ hm).2 h)
    refine ⟨[("u", .rows (p.t_col.map fun t => u + (t - t0) • w))] ++ (if p.mode = "equispaced" ∧ hasHs p.scheme then
      [("u_c", .rows (mids (p.t_col.map fun t => u + (t - t0) • w)))] else []), ?_, ?_, ?_, ?_⟩
    · unfold waypoints waypointsControl
      rw [hx]
      simp only [hp, if_false, Option.getD_some, e2]
      rfl
    · exact fun h => absurd h hp'
    · intro _
      split_ifs <;> simp [Sets.get]
    · intro h1 h2
      rw [if_pos ⟨h1, h2⟩, mids_line]
      simp [Sets.get]

/-- C177 fails for the schemes with "j" in their name: the central control is at four tenths of the interval, and its guess is
the value of the line at the middle. -/
theorem C177_centre_refuted (scheme : String) (hh : hasHs scheme = true) (hj : 'j' ∈ scheme.toList) :
    ∃ (x s : Sets 1), waypoints ⟨"equispaced", scheme, 2, 0, 1, [0, 1], [0, 1], []⟩ [fun _ => 0, fun _ => 1] (some [0, 1])
        (some [fun _ => 0, fun _ => 1]) = .ok (x, s) ∧
      tCentre scheme 0 1 = 0.4 ∧ s.get "u_c" = some (.rows [fun _ => 0.5]) := by
  have two : ([0, 1].map fun t : ℝ => (0 : Row 1) + (t - 0) • fun _ => 1) = [fun _ => 0, fun _ => 1] := by
    simp only [List.map_cons, List.map_nil]
    congr 1
    · funext i; simp
    congr 1
    funext i; simp
  obtain ⟨x, hx, -⟩ := C89_line ⟨"equispaced", scheme, 2, 0, 1, [0, 1], [0, 1], []⟩ (show "equispaced" ∈ modes by decide) [0, 1] (by norm_num) (by simp)
    (by norm_num) (0 : Row 1) (fun _ => 1) 0
  obtain ⟨-, s, h1, -, -, h2⟩ := C177_line_partial ⟨"equispaced", scheme, 2, 0, 1, [0, 1], [0, 1], []⟩ (show "equispaced" ∈ modes by decide) [0, 1]
    (by norm_num) (by simp) (by norm_num) (0 : Row 1) (fun _ => 1) 0 _ x hx
  rw [two] at h1
  refine ⟨x, s, h1, by rw [tCentre, if_pos hj]; norm_num, ?_⟩
  rw [h2 rfl hh]
  simp only [List.tail_cons, List.zipWith_cons_cons, List.zipWith_nil_right]
  congr 3
  funext i
  simp
  norm_num

/-- The hypotheses hold of "hsj". -/
example : hasHs "hsj" = true ∧ 'j' ∈ "hsj".toList := by decide

/-- The hypotheses hold of a segmented problem and three waypoints. -/
example : ∃ (x : Sets 1) (s : Sets 2), waypoints ⟨"ph pseudospectral", "LG", 2, 0, 2, [0, 0.7, 2], [0.7], []⟩
    ([0, 0.5, 2].map fun t : ℝ => (fun _ => 1) + (t - 0) • fun _ => 3) (some [0, 0.5, 2])
    (some ([0, 0.5, 2].map fun t : ℝ => ![1, 2] + (t - 0) • ![3, 4])) = .ok (x, s) ∧
    s.get "u_like_x" = some (.rows ([0, 0.7, 2].map fun t : ℝ => ![1, 2] + (t - 0) • ![3, 4])) := by
  obtain ⟨x, hx, -⟩ := C89_line ⟨"ph pseudospectral", "LG", 2, 0, 2, [0, 0.7, 2], [0.7], []⟩ (by decide)
    [0, 0.5, 2] (by norm_num) (by simp) (by norm_num) (fun _ : Fin 1 => 1) (fun _ => 3) 0
  obtain ⟨-, s, h1, h2, -⟩ := C177_line_partial ⟨"ph pseudospectral", "LG", 2, 0, 2, [0, 0.7, 2], [0.7], []⟩ (by decide)
    [0, 0.5, 2] (by norm_num) (by simp) (by norm_num) ![1, 2] ![3, 4] 0 _ x hx
  exact ⟨x, s, h1, h2 (by decide)⟩

/-- C177: there have to be as many control waypoints as times, also when the times are those of the states. -/
theorem C177_length {d m : ℕ} (p : Prob) (q_points : List (Row d)) (t_points : Option (List ℝ)) (x : Sets d)
    (hx : waypointsGuess p q_points t_points = .ok x) (u_points : List (Row m))
    (hne : u_points.length ≠ (t_points.getD (linspace p.t_start p.t_end q_points.length)).length) :
    waypoints p q_points t_points (some u_points) = .error .value := by
  unfold waypoints waypointsControl
  rw [hx]
  have e : ∀ ts, interp2d ts (t_points.getD (linspace p.t_start p.t_end q_points.length)) u_points = .error .value :=
    fun ts => if_neg (Ne.symm hne)
  simp only [e]
  split_ifs <;> rfl

/-- The hypotheses hold of two waypoints of the state and three of the control. -/
example : waypoints ⟨"equispaced", "trapz", 2, 0, 1, [0, 1], [0, 1], []⟩ ([0, 1].map fun t : ℝ => (fun _ : Fin 1 => 1) +
    (t - 0) • fun _ => 3) (some [0, 1]) (some [fun _ : Fin 1 => 0, fun _ => 0, fun _ => 0]) = .error .value := by
  obtain ⟨x, hx, -⟩ := C89_line ⟨"equispaced", "trapz", 2, 0, 1, [0, 1], [0, 1], []⟩ (by decide)
    [0, 1] (by norm_num) (by simp) (by norm_num) (fun _ : Fin 1 => 1) (fun _ => 3) 0
  exact C177_length _ _ _ x hx _ (by simp)

/-- C177: the custom guess of the controls is what the user gives, and that of the central controls is the mean of the values
around. -/
theorem C177_custom {d m : ℕ} (p : Prob) (q v a : List (Row d)) (u : List (Row m)) (x : Sets d)
    (hx : customGuess p q v a = .ok x) :
    ∃ s : Sets m, custom p q v a u = .ok (x, s) ∧ s.get "u" = some (.rows u) ∧
      (p.mode = "equispaced" → hasHs p.scheme = true → ∃ uc, s.get "u_c" = some (.rows uc) ∧ uc.length = u.length - 1 ∧
        ∀ (i : ℕ) u0 u1, u[i]? = some u0 → u[i + 1]? = some u1 → uc[i]? = some ((1 / 2 : ℝ) • (u0 + u1))) := by
  refine ⟨customControl p u, ?_, ?_, ?_⟩
  · unfold custom
    rw [hx]
    rfl
  · unfold customControl
    split_ifs <;> simp [Sets.get]
  · intro h1 h2
    refine ⟨mids u, ?_, ?_, ?_⟩
    · unfold customControl
      rw [if_pos ⟨h1, h2⟩]
      simp [Sets.get]
    · simp [mids]
    · intro i u0 u1 g1 g2
      unfold mids
      rw [List.getElem?_zipWith, g1, List.getElem?_tail, g2]

/-- The hypotheses hold of a problem of one interval. -/
example : ∃ (x : Sets 1) (s : Sets 1), custom ⟨"equispaced", "hs", 2, 0, 1, [0, 1], [0, 1], []⟩ [fun _ => 1, fun _ => 2]
    [fun _ => 3, fun _ => 4] [fun _ => 5, fun _ => 6] [fun _ => 7, fun _ => 8] = .ok (x, s) ∧
    s.get "u" = some (.rows [fun _ => 7, fun _ => 8]) := by
  obtain ⟨x, hx, -⟩ := C90_custom_partial (d := 1) ⟨"equispaced", "hs", 2, 0, 1, [0, 1], [0, 1], []⟩ rfl (by decide)
    [fun _ => 1, fun _ => 2] [fun _ => 3, fun _ => 4] [fun _ => 5, fun _ => 6]
  obtain ⟨s, h1, h2, -⟩ := C177_custom _ _ _ _ [fun _ => 7, fun _ => 8] x hx
  exact ⟨x, s, h1, h2⟩

/-- C177 fails for the custom guess of segmented problems: the controls at the knots and at the ends, which the array
"u" does not hold, get no guess. -/
theorem C177_knots_refuted {m : ℕ} (p : Prob) (u : List (Row m)) : (customControl p u).get "u_like_x" = none := by
  unfold customControl
  split_ifs <;> simp [Sets.get]

/-- C177 fails for the nodes of segmented top-down problems: no guess sets them. -/
theorem C177_nodes_refuted {d : ℕ} (p : Prob) (hm : p.mode = "ph top-down pseudospectral") :
    (∀ q_s q_e s, linGuess p q_s q_e = .ok s → s.get (d := d) "q_constr" = none) ∧
    (∀ q t s, waypointsGuess p q t = .ok s → s.get (d := d) "q_constr" = none) ∧
    (∀ q v a s, customGuess p q v a = .ok s → s.get (d := d) "q_constr" = none) := by
  have h1 : p.mode ≠ "top-down pseudospectral" := by rw [hm]; decide
  have h2 : p.mode ≠ "equispaced" := by rw [hm]; decide
  refine ⟨?_, ?_, ?_⟩
  · intro q_s q_e s h
    unfold linGuess at h
    simp only [h1, h2, if_false, and_false] at h
    rw [if_pos (by rw [hm]; decide)] at h
    rcases q_s with _ | q_s <;> rcases q_e with _ | q_e <;> try contradiction
    simp only at h
    obtain ⟨g, -, h⟩ := Exc.bind_ok h
    obtain ⟨c, -, h⟩ := Exc.bind_ok h
    cases h
    simp [Sets.get]
  · intro q t s h
    unfold waypointsGuess at h
    simp only [h1, h2, if_false, false_and] at h
    rw [if_pos (by rw [hm]; decide)] at h
    obtain ⟨_, -, h⟩ := Exc.bind_ok h
    obtain ⟨g, -, h⟩ := Exc.bind_ok h
    obtain ⟨c, -, h⟩ := Exc.bind_ok h
    cases h
    simp [Sets.get]
  · intro q v a s h
    unfold customGuess customEq customConstr at h
    simp only [h1, h2, if_false] at h
    cases h
    simp [Sets.get]

end Chords.Props
