import Verif.Model.TimeScale
import Mathlib.Tactic.FieldSimp
import Mathlib.Tactic.Ring
import Mathlib.Tactic.Linarith
import Mathlib.Order.Interval.Set.Image

/-! # C20: time scaling -/

namespace Chords.TimeScale

/-- C20, mutually inverse. -/
theorem C20_inverse (t0 tf : ℝ) (h : tf ≠ t0) :
    Function.LeftInverse (fun t => tToTau t t0 tf) (fun τ => tauToT τ t0 tf) ∧
    Function.RightInverse (fun t => tToTau t t0 tf) (fun τ => tauToT τ t0 tf) := by
  have h' : tf - t0 ≠ 0 := sub_ne_zero.mpr h
  constructor
  · intro τ; simp only [tToTau, tauToT]; field_simp; ring
  · intro t; simp only [tToTau, tauToT]; field_simp; ring

/-- C20, end points. -/
theorem C20_ends (t0 tf : ℝ) : tauToT (-1) t0 tf = t0 ∧ tauToT 1 t0 tf = tf ∧
    (tf ≠ t0 → tToTau t0 t0 tf = -1 ∧ tToTau tf t0 tf = 1) := by
  refine ⟨by simp [tauToT], by simp [tauToT]; ring, fun h => ?_⟩
  have h' : tf - t0 ≠ 0 := sub_ne_zero.mpr h
  exact ⟨by simp [tToTau], by simp only [tToTau]; field_simp; ring⟩

/-- C20, order and range: for `t0 < tf` both maps are strictly increasing, and `[-1, 1]` is sent onto
`[t0, tf]`. -/
theorem C20_order (t0 tf : ℝ) (h : t0 < tf) :
    StrictMono (fun τ => tauToT τ t0 tf) ∧ StrictMono (fun t => tToTau t t0 tf) ∧
    (fun τ => tauToT τ t0 tf) '' Set.Icc (-1) 1 = Set.Icc t0 tf := by
  have h' : 0 < tf - t0 := sub_pos.mpr h
  have m1 : StrictMono (fun τ => tauToT τ t0 tf) := by
    intro a b hab
    simp only [tauToT]
    have := mul_lt_mul_of_pos_left hab h'
    linarith
  have m2 : StrictMono (fun t => tToTau t t0 tf) := by
    intro a b hab
    simp only [tToTau]
    have : 2 * (a - t0) / (tf - t0) < 2 * (b - t0) / (tf - t0) :=
      div_lt_div_of_pos_right (by linarith) h'
    linarith
  refine ⟨m1, m2, ?_⟩
  ext t
  constructor
  · rintro ⟨τ, ⟨h1, h2⟩, rfl⟩
    have e := C20_ends t0 tf
    have l := m1.monotone h1
    have r := m1.monotone h2
    simp only [e.1, e.2.1] at l r
    exact ⟨l, r⟩
  · rintro ⟨h1, h2⟩
    have e := (C20_ends t0 tf).2.2 h.ne'
    have l := m2.monotone h1
    have r := m2.monotone h2
    simp only [e.1, e.2] at l r
    exact ⟨tToTau t t0 tf, ⟨l, r⟩, (C20_inverse t0 tf h.ne').2 t⟩

/-- C20, functions: the converted function takes at the image of `τ` the value of `f` at `τ`. -/
theorem C20_function {A : Type*} (f : ℝ → A) (t0 tf τ : ℝ) (h : tf ≠ t0) :
    tauToTFun f t0 tf (tauToT τ t0 tf) = f τ := by
  have h' : tf - t0 ≠ 0 := sub_ne_zero.mpr h
  simp only [tauToTFun, tauToT]
  congr 1
  field_simp
  ring

example : tauToT 0 2 6 = 4 ∧ tToTau 4 2 6 = 0 ∧ (6 : ℝ) ≠ 2 := by
  norm_num [tauToT, tToTau]

end Chords.TimeScale
