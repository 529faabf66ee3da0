import Verif.Lemmas.Interp
import Verif.Props.Piecewise

/-! # C16: interpolation of the controls -/

namespace Chords.Interp.Props
open Chords Chords.Spec Chords.Interp

variable {W : Type} [AddCommGroup W] [Module ℝ W]

/-- `numpy.interp` between two neighbouring points of an increasing series. -/
theorem npInterp_between (n : ℕ) (p : ℝ × W) (rest : List (ℝ × W)) (inc : (p :: rest).Pairwise fun a b => a.1 < b.1)
    {a b : ℝ × W} (ha : (p :: rest)[n]? = some a) (hb : (p :: rest)[n + 1]? = some b) {x : ℝ} (h1 : a.1 ≤ x)
    (h2 : x < b.1) : npInterp p rest x = a.2 + ((x - a.1) / (b.1 - a.1)) • (b.2 - a.2) := by
  induction n generalizing p rest with
  | zero =>
    cases rest with
    | nil => simp at hb
    | cons q rest =>
      simp at ha hb
      subst ha; subst hb
      simp [npInterp, not_lt.2 h1, h2]
  | succ n ih =>
    cases rest with
    | nil => simp at hb
    | cons q rest =>
      rw [List.pairwise_cons] at inc
      have hq : q.1 ≤ x := by
        rw [List.getElem?_cons_succ] at ha
        cases n with
        | zero => simp at ha; subst ha; exact h1
        | succ n =>
          have ha' : a ∈ rest := by
            rw [List.getElem?_cons_succ] at ha; exact List.mem_of_getElem? ha
          exact le_trans ((List.pairwise_cons.1 inc.2).1 a ha').le h1
      have hp : p.1 ≤ x := le_trans (inc.1 q (by simp)).le hq
      simp only [npInterp, not_lt.2 hp, not_lt.2 hq, if_false]
      exact ih q rest inc.2 (by simpa using ha) (by simpa using hb)

/-- `numpy.interp` after the last point. -/
theorem npInterp_after (p : ℝ × W) (rest : List (ℝ × W)) (inc : (p :: rest).Pairwise fun a b => a.1 < b.1)
    {a : ℝ × W} (ha : (p :: rest).getLast? = some a) {x : ℝ} (h1 : a.1 ≤ x) : npInterp p rest x = a.2 := by
  induction rest generalizing p with
  | nil => simp at ha; subst ha; rfl
  | cons q rest ih =>
    rw [List.pairwise_cons] at inc
    rw [List.getLast?_cons_cons] at ha
    have hmem : a ∈ q :: rest := List.mem_of_mem_getLast? ha
    have hq : q.1 ≤ x := by
      rcases List.mem_cons.1 hmem with rfl | hm
      · exact h1
      · exact le_trans ((List.pairwise_cons.1 inc.2).1 a hm).le h1
    have hp : p.1 ≤ x := le_trans (inc.1 q (by simp)).le hq
    simp only [npInterp, not_lt.2 hp, not_lt.2 hq, if_false]
    exact ih q inc.2 ha

theorem points_get {h : ℝ} {U : List W} {n : ℕ} {u : W} (hu : U[n]? = some u) :
    ((times h U.length).zip U)[n]? = some ((n : ℝ) * h, u) := by
  have hn : n < U.length := (List.getElem?_eq_some_iff.1 hu).1
  rw [List.getElem?_zip_eq_some]
  refine ⟨?_, hu⟩
  simp [times, hn]

theorem points_inc {h : ℝ} (hh : 0 < h) (U : List W) :
    ((times h U.length).zip U).Pairwise fun a b => a.1 < b.1 := by
  rw [List.pairwise_iff_getElem]
  intro i j hi hj hij
  simp only [List.getElem_zip, times, List.getElem_map, List.getElem_range]
  exact mul_lt_mul_of_pos_right (by exact_mod_cast hij) hh

theorem interpAt_cons {h : ℝ} {U : List W} (hU : U ≠ []) (t : ℝ) : ∃ p rest,
    (times h U.length).zip U = p :: rest ∧ interpAt (times h U.length) U t = .ok (npInterp p rest t) := by
  cases hz : (times h U.length).zip U with
  | nil =>
    have : ((times h U.length).zip U).length = 0 := by rw [hz]; rfl
    simp [times] at this
    exact absurd this hU
  | cons p rest => exact ⟨p, rest, rfl, by simp [interpAt, hz]⟩

/-- C16, linear controls (`interpolate_u` with `u_scheme = "lin"`): at a sample time the sample, in between the point that
divides the segment of the two neighbouring samples in the ratio of the times. -/
theorem C16_lin {h : ℝ} (hh : 0 < h) {U : List W} {n : ℕ} {u un : W} (hu : U[n]? = some u) (hun : U[n + 1]? = some un)
    {θ : ℝ} (h0 : 0 ≤ θ) (h1 : θ < 1) :
    interpAt (times h U.length) U ((n + θ) * h) = .ok ((1 - θ) • u + θ • un) := by
  obtain ⟨p, rest, e, e2⟩ := interpAt_cons (h := h) (U := U) (by rintro rfl; simp at hu) ((n + θ) * h)
  rw [e2]
  have inc := points_inc hh U
  have ha := points_get (h := h) hu
  have hb := points_get (h := h) hun
  rw [e] at inc ha hb
  rw [npInterp_between n p rest inc ha hb (by nlinarith) (by push_cast; nlinarith)]
  congr 1
  have hq : ((↑n + θ) * h - ↑n * h) / ((((n + 1 : ℕ) : ℝ)) * h - ↑n * h) = θ := by
    push_cast; field_simp; ring
  simp only [hq]
  module

/-- C16, linear controls at and after the last sample: the last sample. -/
theorem C16_lin_end {h : ℝ} (hh : 0 < h) {U : List W} {n : ℕ} (hn : U.length = n + 1) {u : W} (hu : U[n]? = some u)
    {t : ℝ} (ht : n * h ≤ t) : interpAt (times h U.length) U t = .ok u := by
  obtain ⟨p, rest, e, e2⟩ := interpAt_cons (h := h) (U := U) (by rintro rfl; simp at hu) t
  rw [e2]
  have inc := points_inc hh U
  have ha := points_get (h := h) hu
  have hlast : ((times h U.length).zip U).getLast? = some ((n : ℝ) * h, u) := by
    rw [List.getLast?_eq_getElem?]
    have : ((times h U.length).zip U).length - 1 = n := by simp [times, hn]
    rw [this, ha]
  rw [e] at inc hlast
  rw [npInterp_after p rest inc hlast ht]

/-- C16, linear controls before the first sample: the first sample. -/
theorem C16_lin_before {h : ℝ} {U : List W} {u : W} (hu : U[0]? = some u) {t : ℝ} (ht : t < 0) :
    interpAt (times h U.length) U t = .ok u := by
  obtain ⟨p, rest, e, e2⟩ := interpAt_cons (h := h) (U := U) (by rintro rfl; simp at hu) t
  have ha := points_get (h := h) hu
  rw [e] at ha
  simp at ha
  rw [e2, ha]
  cases rest with
  | nil => rfl
  | cons q rest => simp [npInterp, ht]

/-- Every time of the trajectory is one of these cases: the linear interpolation of a one-dimensional control never leaves
the interval of two neighbouring samples. -/
theorem C16_lin_bounds {h : ℝ} (hh : 0 < h) {U : List ℝ} (hU : U ≠ []) (t : ℝ) (h0 : 0 ≤ t)
    (h1 : t ≤ ((U.length : ℝ) - 1) * h) :
    ∃ (n : ℕ) (y : ℝ), interpAt (times h U.length) U t = .ok y ∧ ∃ u ∈ U[n]?, ∃ un ∈ U[min (n + 1) (U.length - 1)]?,
      (n : ℝ) * h ≤ t ∧ t < ((n : ℝ) + 1) * h ∧ min u un ≤ y ∧ y ≤ max u un := by
  have hlen : 0 < U.length := List.length_pos_iff.2 hU
  have hf : 0 ≤ t / h := by positivity
  have f1 : (⌊t / h⌋₊ : ℝ) * h ≤ t := by rw [← le_div_iff₀ hh]; exact Nat.floor_le hf
  have f2 : t < (⌊t / h⌋₊ + 1) * h := by rw [← div_lt_iff₀ hh]; exact Nat.lt_floor_add_one _
  obtain ⟨n, hn⟩ : ∃ n, n = ⌊t / h⌋₊ := ⟨_, rfl⟩
  rw [← hn] at f1 f2
  have hnlen : n < U.length := by
    by_contra hc
    have hc' : (U.length : ℝ) ≤ n := by exact_mod_cast not_lt.1 hc
    nlinarith
  by_cases hc : n + 1 < U.length
  · have e1 : U[n]? = some U[n] := List.getElem?_eq_getElem hnlen
    have e2 : U[n + 1]? = some U[n + 1] := List.getElem?_eq_getElem hc
    obtain ⟨θ, hθ⟩ : ∃ θ, θ = t / h - n := ⟨_, rfl⟩
    have ht : ((n : ℝ) + θ) * h = t := by rw [hθ]; field_simp; ring
    have hθ0 : 0 ≤ θ := by nlinarith
    have hθ1 : θ < 1 := by nlinarith
    have := C16_lin hh e1 e2 hθ0 hθ1
    rw [ht] at this
    refine ⟨n, _, this, U[n], by rw [e1]; rfl, U[n + 1], ?_, f1, f2, ?_, ?_⟩
    · rw [show min (n + 1) (U.length - 1) = n + 1 by omega, e2]; rfl
    · simp only [smul_eq_mul]
      have a := min_le_left U[n] U[n + 1]
      have b := min_le_right U[n] U[n + 1]
      nlinarith
    · simp only [smul_eq_mul]
      have a := le_max_left U[n] U[n + 1]
      have b := le_max_right U[n] U[n + 1]
      nlinarith
  · have hl : U.length = n + 1 := by omega
    have e1 : U[n]? = some U[n] := List.getElem?_eq_getElem hnlen
    refine ⟨n, _, C16_lin_end hh hl e1 f1, U[n], by rw [e1]; rfl, U[n], ?_, f1, f2, ?_, ?_⟩
    · rw [show min (n + 1) (U.length - 1) = n by omega, e1]; rfl
    · simp
    · simp

example : interpAt (times 2 [1, 5, (3 : ℝ)].length) [1, 5, (3 : ℝ)] ((((1 : ℕ) : ℝ) + 1 / 2) * 2) =
    .ok ((1 - 1 / 2 : ℝ) • (5 : ℝ) + (1 / 2 : ℝ) • (3 : ℝ)) :=
  C16_lin (by norm_num) rfl rfl (by norm_num) (by norm_num)

variable {d : ℕ} (lib : Lib d W) (flat : Bool) (X X_dot : List (Arr d)) (F : Option (Arr d → W → Arr d)) (scheme : String)

/-- C16, every non-linear control scheme: within `1e-8` steps of a sample, the sample. -/
theorem C16_newpoint_sample {U : List W} {n : ℕ} {u : W} (hu : U[n]? = some u) {h t : ℝ} (hh : 0 < h)
    (ht : |t - n * h| < h * 1e-8) (u_scheme : String) (sp : Params d W) :
    newpointU lib flat X X_dot F scheme U h t u_scheme sp = .ok u := by
  have hlen : n < U.length := (List.getElem?_eq_some_iff.1 hu).1
  rw [abs_lt] at ht
  by_cases hc : (n : ℝ) * h ≤ t
  · have hf : ⌊t / h⌋ = (n : ℤ) := floor_of_mem hh (by push_cast; linarith) (by push_cast; nlinarith)
    have a1 : |t - h * (((n : ℤ)) : ℝ)| < h * 1e-8 := by
      rw [abs_lt]; push_cast; constructor <;> nlinarith
    simp only [newpointU, hf, a1, if_true, pyGet_nat hu]
    rw [if_neg (by omega)]
  · have hf : ⌊t / h⌋ = (n : ℤ) - 1 := floor_of_mem hh (by push_cast; nlinarith) (by push_cast; nlinarith)
    have a1 : ¬ |t - h * (((n : ℤ) - 1 : ℤ) : ℝ)| < h * 1e-8 := by
      rw [not_lt]; push_cast; refine le_trans ?_ (le_abs_self _); nlinarith
    have a2 : |t - h * (((n : ℤ) - 1 : ℤ) : ℝ) - h| < h * 1e-8 := by
      rw [abs_lt]; push_cast; constructor <;> nlinarith
    simp only [newpointU, hf, a1, a2, if_true, if_false, sub_add_cancel, pyGet_nat hu]
    rw [if_neg (by omega)]

omit [AddCommGroup W] [Module ℝ W] in
theorem newpointU_inside {U : List W} {n : ℕ} {u un : W} (hu : U[n]? = some u) (hun : U[n + 1]? = some un) {h t : ℝ}
    (hh : 0 < h) (h1 : (n + 1e-8) * h ≤ t) (h2 : t ≤ (n + 1 - 1e-8) * h) :
    ⌊t / h⌋ = (n : ℤ) ∧ ¬ ((n : ℤ) + 1 > U.length) ∧ ¬ |t - h * (((n : ℤ)) : ℝ)| < h * 1e-8 ∧
      ¬ |t - h * (((n : ℤ)) : ℝ) - h| < h * 1e-8 ∧ pyGet U (n : ℤ) = .ok u ∧ pyGet U ((n : ℤ) + 1) = .ok un := by
  have hlen : n + 1 < U.length := (List.getElem?_eq_some_iff.1 hun).1
  have hx := pyGet_nat hun
  push_cast at hx
  refine ⟨floor_of_mem hh (by push_cast; nlinarith) (by push_cast; nlinarith), by omega, ?_, ?_, pyGet_nat hu, hx⟩
  · rw [not_lt]; push_cast; refine le_trans ?_ (le_abs_self _); nlinarith
  · rw [not_lt]; push_cast; refine le_trans ?_ (neg_le_abs _); nlinarith

/-- C16, parabolic controls: if the samples and the middle value of a step lie on a parabola (every three values lie on
one), the interpolation is that parabola. The middle value is the one at `h / 2` for `parab`. -/
theorem C16_newpoint_parab {U U_c : List W} {n : ℕ} (A B C : W) {h t : ℝ} (hh : 0 < h)
    (hu : U[n]? = some A) (hun : U[n + 1]? = some (A + h • B + h ^ 2 • C))
    (huc : U_c[n]? = some (A + (h / 2) • B + (h / 2) ^ 2 • C)) (h1 : (n + 1e-8) * h ≤ t) (h2 : t ≤ (n + 1 - 1e-8) * h)
    {sp : Params d W} (hsp : sp.u_c = some (some U_c)) :
    newpointU lib flat X X_dot F scheme U h t "parab" sp = .ok (A + (t - n * h) • B + (t - n * h) ^ 2 • C) := by
  obtain ⟨hf, a0, a1, a2, e1, e2⟩ := newpointU_inside hu hun hh h1 h2
  simp only [newpointU, hf, a0, a1, a2, if_false, e1, e2, bind, Except.bind, pure, Except.pure, hsp, key, pyGet_nat huc,
    show ("parab" : String) ≠ "lin" by decide, if_true]
  congr 1
  have := hh.ne'
  simp only [interpParab]
  push_cast
  match_scalars <;> field_simp <;> ring

/-- C16, parabolic controls of `hsj`: the middle value is the one at `2 h / 5`. -/
theorem C16_newpoint_parab_j {U U_c : List W} {n : ℕ} (A B C : W) {h t : ℝ} (hh : 0 < h)
    (hu : U[n]? = some A) (hun : U[n + 1]? = some (A + h • B + h ^ 2 • C))
    (huc : U_c[n]? = some (A + (2 * h / 5) • B + (2 * h / 5) ^ 2 • C)) (h1 : (n + 1e-8) * h ≤ t)
    (h2 : t ≤ (n + 1 - 1e-8) * h) {sp : Params d W} (hsp : sp.u_c = some (some U_c)) :
    newpointU lib flat X X_dot F scheme U h t "parab_j" sp = .ok (A + (t - n * h) • B + (t - n * h) ^ 2 • C) := by
  obtain ⟨hf, a0, a1, a2, e1, e2⟩ := newpointU_inside hu hun hh h1 h2
  simp only [newpointU, hf, a0, a1, a2, if_false, e1, e2, bind, Except.bind, pure, Except.pure, hsp, key, pyGet_nat huc,
    show ("parab_j" : String) ≠ "lin" by decide, show ("parab_j" : String) ≠ "parab" by decide, if_true]
  congr 1
  have := hh.ne'
  simp only [interpParabJ]
  push_cast
  match_scalars <;> field_simp <;> ring

/-- Every three values lie on one parabola, so the two theorems above cover all controls. -/
theorem C16_parabola_exists {h θ : ℝ} (hh : 0 < h) (h0 : θ ≠ 0) (h1 : θ ≠ 1) (u uc un : W) :
    ∃ B C : W, uc = u + (θ * h) • B + (θ * h) ^ 2 • C ∧ un = u + h • B + h ^ 2 • C := by
  have h1' : 1 - θ ≠ 0 := by intro e; apply h1; linarith
  have := hh.ne'
  refine ⟨(1 / (h * (θ * (1 - θ)))) • (uc - u) - (θ / (h * (1 - θ))) • (un - u),
    (1 / (h ^ 2 * (1 - θ))) • (un - u) - (1 / (h ^ 2 * (θ * (1 - θ)))) • (uc - u), ?_, ?_⟩ <;>
  match_scalars <;> field_simp <;> ring

end Chords.Interp.Props
