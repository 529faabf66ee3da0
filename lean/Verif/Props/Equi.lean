import Verif.Model.Equi
import Verif.Props.Piecewise
import Verif.Spec.Pieces

/-! # C91: constraints of equispaced problems -/

namespace Chords.Props
open Chords.BuTd Chords.Equi Chords.Problem Chords.Spec

private theorem seq2_zero (r : ℝ × ℝ) : (∀ p < 2, seq2 r p = 0) ↔ r = 0 := by
  constructor
  · intro h
    have h0 := h 0 (by decide)
    have h1 := h 1 (by decide)
    simp [seq2] at h0 h1
    ext <;> simpa
  · rintro rfl p hp
    interval_cases p <;> simp [seq2]

private theorem seq2_self (x : ℕ → ℝ) (p : ℕ) (hp : p < 2) : seq2 (x 0, x 1) p = x p := by
  interval_cases p <;> simp [seq2]

private theorem line_congr {M : ℕ} {x y : ℕ → ℝ} (hxy : ∀ p < M, x p = y p) {a an h : ℝ} {c : ℕ → ℝ → ℝ}
    (hc : LinearMotion M x a an h c) : LinearMotion M y a an h c :=
  ⟨hc.motion, fun p hp => (hc.start p hp).trans (hxy p hp), hc.top_line, hc.top_end⟩

private theorem parab_congr {M : ℕ} {x y : ℕ → ℝ} (hxy : ∀ p < M, x p = y p) {a ac an m h : ℝ} {c : ℕ → ℝ → ℝ}
    (hc : ParabolicMotion M x a ac an m h c) : ParabolicMotion M y a ac an m h c :=
  ⟨hc.motion, fun p hp => (hc.start p hp).trans (hxy p hp), hc.top_parabola, hc.top_mid, hc.top_end⟩

/-- One step, for the schemes that agree with the order of the problem. -/
private theorem step_line (M : ℕ) (x xn : ℕ → ℝ) (a an h : ℝ) (hh : h ≠ 0) :
    (∀ p < M, trapzMRestr M x xn a an h p = 0) ↔ ∃ c, LinearMotion M x a an h c ∧ ∀ p < M, c p h = xn p := by
  constructor
  · intro hr
    obtain ⟨c, hc⟩ := C06_motion_exists M x a an h hh
    exact ⟨c, hc, (C06_trapz_n M x xn a an h hh c hc).1.1 hr⟩
  · rintro ⟨c, hc, he⟩
    exact (C06_trapz_n M x xn a an h hh c hc).1.2 he

private theorem step_parab (M : ℕ) (x xn xc : ℕ → ℝ) (a an ac h : ℝ) (hh : h ≠ 0) :
    ((∀ p < M, hsMRestr M x xn a an h ac p = 0) ∧ ∀ p < M, xc p = hsMHalfX M x xn a an h p) ↔
      ∃ c, ParabolicMotion M x a ac an (h / 2) h c ∧ (∀ p < M, c p h = xn p) ∧ ∀ p < M, c p (h / 2) = xc p := by
  constructor
  · rintro ⟨hr, hx⟩
    obtain ⟨c, hc⟩ := C07_motion_exists M x a an ac h hh
    obtain ⟨h1, -, h3⟩ := C07_hsn M x xn a an ac h hh c hc
    exact ⟨c, hc, h1.1 hr, fun p hp => ((hx p hp).trans (h3 hr p hp)).symm⟩
  · rintro ⟨c, hc, he, hm⟩
    obtain ⟨h1, -, h3⟩ := C07_hsn M x xn a an ac h hh c hc
    exact ⟨h1.2 he, fun p hp => (hm p hp).symm.trans (h3 (h1.2 he) p hp).symm⟩

private theorem step_hsj (x xn xc : ℕ → ℝ) (a an ac h : ℝ) (hh : h ≠ 0) :
    ((∀ p < 2, seq2 (hsjAccelRestr (x 0, x 1) (xn 0, xn 1) a an h ac) p = 0) ∧
      ∀ p < 2, xc p = seq2 (hsjHalfX (x 0, x 1) (xn 0, xn 1) a an h) p) ↔
      ∃ c, ParabolicMotion 2 x a ac an (2 / 5 * h) h c ∧ (∀ p < 2, c p h = xn p) ∧ ∀ p < 2, c p (2 / 5 * h) = xc p := by
  have hx : ∀ p < 2, seq2 (x 0, x 1) p = x p := seq2_self x
  have he : 2 * h / 5 = 2 / 5 * h := by ring
  have h2 : ∀ (f : ℕ → ℝ) (g : ℝ × ℝ), (∀ p < 2, f p = seq2 g p) ↔ (f 0, f 1) = g := by
    intro f g
    constructor
    · intro hf
      ext
      · simpa [seq2] using hf 0 (by decide)
      · simpa [seq2] using hf 1 (by decide)
    · rintro rfl p hp
      exact (seq2_self f p hp).symm
  have hc0 := hsjCurve_parabolic (x 0, x 1) a an ac h hh
  have hend := hsjCurve_end (x 0, x 1) a an ac h hh
  rw [seq2_zero, h2]
  have hr : hsjAccelRestr (x 0, x 1) (xn 0, xn 1) a an h ac = 0 ↔
      (hsjCurve (x 0, x 1) a an ac h 0 h, hsjCurve (x 0, x 1) a an ac h 1 h) = (xn 0, xn 1) := by
    rw [hend]
    simp only [hsjAccelRestr, sub_eq_zero]
    exact eq_comm
  have hpair : ∀ (f g : ℕ → ℝ), (f 0, f 1) = (g 0, g 1) ↔ ∀ p < 2, f p = g p := by
    intro f g
    rw [← h2]
    exact forall₂_congr fun p hp => by rw [seq2_self g p hp]
  rw [he] at hc0
  constructor
  · rintro ⟨g1, g2⟩
    refine ⟨_, parab_congr hx hc0, (hpair (fun p => hsjCurve (x 0, x 1) a an ac h p h) xn).1 (hr.1 g1), ?_⟩
    have := (hsjCurve_mid (x 0, x 1) (xn 0, xn 1) a an ac h hh (hr.1 g1)).2
    rw [he, ← g2] at this
    exact (hpair (fun p => hsjCurve (x 0, x 1) a an ac h p (2 / 5 * h)) xc).1 this.symm
  · rintro ⟨c, hc, hce, hcm⟩
    have key := parabolicMotion_unique (mul_ne_zero (by norm_num) hh) hh (by intro e; apply hh; linarith) hc0
      (parab_congr (fun p hp => (hx p hp).symm) hc)
    have e1 : (hsjCurve (x 0, x 1) a an ac h 0 h, hsjCurve (x 0, x 1) a an ac h 1 h) = (xn 0, xn 1) := by
      rw [key, key]
      exact (hpair (fun p => c p h) xn).2 hce
    refine ⟨hr.2 e1, ?_⟩
    have := (hsjCurve_mid (x 0, x 1) (xn 0, xn 1) a an ac h hh e1).2
    rw [he, key, key] at this
    rw [this]
    exact ((hpair (fun p => c p (2 / 5 * h)) xc).2 hcm).symm

/-- Some motion of order `M` with the highest derivative of the given shape goes over a step from `x` to `xn`, and by `xc` at
the third point of the parabola. -/
def Reached (s : Shape) (M : ℕ) (x xn xc : ℕ → ℝ) (a an ac h : ℝ) : Prop :=
  ∃ c, StepMotion s M x a ac an h c ∧ (∀ p < M, c p h = xn p) ∧ ∀ θ, s = .parab θ → ∀ p < M, c p (θ * h) = xc p

private theorem reached_line (M : ℕ) (x xn xc : ℕ → ℝ) (a an ac h : ℝ) (hh : h ≠ 0) :
    (∀ p < M, trapzMRestr M x xn a an h p = 0) ↔ Reached .line M x xn xc a an ac h := by
  rw [step_line M x xn a an h hh]
  simp [Reached, StepMotion]

private theorem reached_half (M : ℕ) (x xn xc : ℕ → ℝ) (a an ac h : ℝ) (hh : h ≠ 0) :
    ((∀ p < M, hsMRestr M x xn a an h ac p = 0) ∧ ∀ p < M, xc p = hsMHalfX M x xn a an h p) ↔
      Reached (.parab (1 / 2)) M x xn xc a an ac h := by
  rw [step_parab M x xn xc a an ac h hh]
  have he : h / 2 = 1 / 2 * h := by ring
  simp only [Reached, StepMotion, Shape.parab.injEq, forall_eq', he]

private theorem reached_hsj (x xn xc : ℕ → ℝ) (a an ac h : ℝ) (hh : h ≠ 0) :
    ((∀ p < 2, seq2 (hsjAccelRestr (x 0, x 1) (xn 0, xn 1) a an h ac) p = 0) ∧
      ∀ p < 2, xc p = seq2 (hsjHalfX (x 0, x 1) (xn 0, xn 1) a an h) p) ↔
      Reached (.parab (2 / 5)) 2 x xn xc a an ac h := by
  rw [step_hsj x xn xc a an ac h hh]
  simp only [Reached, StepMotion, Shape.parab.injEq, forall_eq']

private theorem trapz_mod_eq (x xn : ℕ → ℝ) (a an h : ℝ) : ∀ p < 2,
    seq2 (trapzModAccelRestr (x 0, x 1) (xn 0, xn 1) a an h) p = trapzMRestr 2 x xn a an h p := by
  intro p hp
  interval_cases p <;> simp [seq2, trapzModAccelRestr, trapzMRestr, Finset.sum_range_succ, Nat.factorial] <;> ring

private theorem hs_mod_eq (x xn : ℕ → ℝ) (a an ac h : ℝ) : ∀ p < 2,
    seq2 (hsModAccelRestr (x 0, x 1) (xn 0, xn 1) a an h ac) p = hsMRestr 2 x xn a an h ac p := by
  intro p hp
  interval_cases p <;> simp [seq2, hsModAccelRestr, hsMRestr, Finset.sum_range_succ, Nat.factorial] <;> ring

private theorem hs_mod_half_eq (x xn : ℕ → ℝ) (a an h : ℝ) : ∀ p < 2,
    seq2 (hsModHalfX (x 0, x 1) (xn 0, xn 1) a an h) p = hsMHalfX 2 x xn a an h p := by
  intro p hp
  interval_cases p <;> simp [seq2, hsModHalfX, hsMHalfX, Finset.sum_range_succ, Nat.factorial] <;> ring

/-- Level `p` of the schemes of first order is a step of order one towards level `p + 1`. -/
private theorem trapz_level (M : ℕ) (x xn : ℕ → ℝ) (a an h : ℝ) (p : ℕ) : trapzAccelRestr M x xn a an h p =
    trapzMRestr 1 (fun _ => x p) (fun _ => xn p) (shiftIn M x a p) (shiftIn M xn an p) h 0 := by
  simp [trapzAccelRestr, trapzMRestr, Nat.factorial]
  ring

private theorem hs_level (M : ℕ) (x xn : ℕ → ℝ) (a an ac h : ℝ) (p : ℕ) : hsAccelRestr M x xn a an h ac p =
    hsMRestr 1 (fun _ => x p) (fun _ => xn p) (shiftIn M x a p) (shiftIn M xn an p) h
      (shiftIn M (hsHalfX M x xn a an h) ac p) 0 := by
  simp [hsAccelRestr, hsMRestr, Nat.factorial]
  ring

private theorem hs_half_level (M : ℕ) (x xn : ℕ → ℝ) (a an h : ℝ) (p : ℕ) : hsHalfX M x xn a an h p =
    hsMHalfX 1 (fun _ => x p) (fun _ => xn p) (shiftIn M x a p) (shiftIn M xn an p) h 0 := by
  simp [hsHalfX, hsMHalfX, Nat.factorial]
  ring

/-- The control in between of a scheme without its own control at the centre. -/
def LinearControl (scheme : String) : Prop := scheme ∈ ["hs", "hs_mod", "hsn", "hsj"]

private theorem restr_step {scheme : String} {s : Shape} {M : ℕ} (hs : SchemeIs (some M) scheme s M) :
    ∃ f, restrTable scheme M = .ok f ∧ (contains scheme "hs" = true ↔ ∃ θ, s = .parab θ) ∧
      ∀ (x xn xc : ℕ → ℝ) (a an ac h : ℝ), h ≠ 0 →
        (((∀ p < M, f x xn a an h ac p = 0) ∧
          (contains scheme "hs" = true → ∀ p < M, xc p = halfX scheme M x xn a an h p)) ↔
        Reached s M x xn xc a an ac h) := by
  have e1 : contains "trapz" "hs" = false := by decide
  have e2 : contains "trapz_mod" "hs" = false := by decide
  have e3 : contains "trapz_n" "hs" = false := by decide
  have half : ∀ (x xn : ℕ → ℝ) (a an ac h : ℝ), (∀ p < 1, hsAccelRestr 1 x xn a an h ac p = hsMRestr 1 x xn a an h ac p) ∧
      ∀ p < 1, hsHalfX 1 x xn a an h p = hsMHalfX 1 x xn a an h p := by
    intro x xn a an ac h
    constructor
    · intro p hp
      interval_cases p
      simp [hsAccelRestr, hsMRestr, shiftIn, Nat.factorial]
      ring
    · intro p hp
      interval_cases p
      simp [hsHalfX, hsMHalfX, shiftIn, Nat.factorial]
      ring
  have par : ∀ θ : ℝ, ∃ θ', Shape.parab θ = .parab θ' := fun θ => ⟨θ, rfl⟩
  cases hs with
  | trapz =>
    refine ⟨_, rfl, by simp [e1], fun x xn xc a an ac h hh => ?_⟩
    rw [← reached_line 1 x xn xc a an ac h hh]
    have e : ∀ p < 1, trapzAccelRestr 1 x xn a an h p = trapzMRestr 1 x xn a an h p := by
      intro p hp
      interval_cases p
      simp [trapzAccelRestr, trapzMRestr, shiftIn, Nat.factorial]
      ring
    simp only [e1, Bool.false_eq_true, false_imp_iff, and_true]
    exact forall₂_congr fun p hp => by rw [e p hp]
  | trapz_mod =>
    refine ⟨_, rfl, by simp [e2], fun x xn xc a an ac h hh => ?_⟩
    rw [← reached_line 2 x xn xc a an ac h hh]
    simp only [e2, Bool.false_eq_true, false_imp_iff, and_true]
    exact forall₂_congr fun p hp => by rw [trapz_mod_eq x xn a an h p hp]
  | trapz_n M' hM =>
    refine ⟨_, rfl, by simp [e3], fun x xn xc a an ac h hh => ?_⟩
    rw [← reached_line M x xn xc a an ac h hh]
    simp only [e3, Bool.false_eq_true, false_imp_iff, and_true]
  | hs =>
    refine ⟨_, rfl, by simp only [par, iff_true]; decide, fun x xn xc a an ac h hh => ?_⟩
    rw [← reached_half 1 x xn xc a an ac h hh]
    refine and_congr (forall₂_congr fun p hp => by rw [(half x xn a an ac h).1 p hp]) ?_
    rw [show contains "hs" "hs" = true by decide]
    simp only [forall_const]
    refine forall₂_congr fun p hp => ?_
    rw [← (half x xn a an ac h).2 p hp]
    rfl
  | hs_parab =>
    refine ⟨_, rfl, by simp only [par, iff_true]; decide, fun x xn xc a an ac h hh => ?_⟩
    rw [← reached_half 1 x xn xc a an ac h hh]
    refine and_congr (forall₂_congr fun p hp => by rw [(half x xn a an ac h).1 p hp]) ?_
    rw [show contains "hs_parab" "hs" = true by decide]
    simp only [forall_const]
    refine forall₂_congr fun p hp => ?_
    rw [← (half x xn a an ac h).2 p hp]
    rfl
  | hs_mod =>
    refine ⟨_, rfl, by simp only [par, iff_true]; decide, fun x xn xc a an ac h hh => ?_⟩
    rw [← reached_half 2 x xn xc a an ac h hh]
    refine and_congr (forall₂_congr fun p hp => by rw [hs_mod_eq x xn a an ac h p hp]) ?_
    rw [show contains "hs_mod" "hs" = true by decide]
    simp only [forall_const]
    refine forall₂_congr fun p hp => ?_
    rw [← hs_mod_half_eq x xn a an h p hp]
    rfl
  | hs_mod_parab =>
    refine ⟨_, rfl, by simp only [par, iff_true]; decide, fun x xn xc a an ac h hh => ?_⟩
    rw [← reached_half 2 x xn xc a an ac h hh]
    refine and_congr (forall₂_congr fun p hp => by rw [hs_mod_eq x xn a an ac h p hp]) ?_
    rw [show contains "hs_mod_parab" "hs" = true by decide]
    simp only [forall_const]
    refine forall₂_congr fun p hp => ?_
    rw [← hs_mod_half_eq x xn a an h p hp]
    rfl
  | hsn M' hM =>
    refine ⟨_, rfl, by simp only [par, iff_true]; decide, fun x xn xc a an ac h hh => ?_⟩
    rw [← reached_half M x xn xc a an ac h hh]
    rw [show contains "hsn" "hs" = true by decide]
    simp only [forall_const]
    rfl
  | hsn_parab M' hM =>
    refine ⟨_, rfl, by simp only [par, iff_true]; decide, fun x xn xc a an ac h hh => ?_⟩
    rw [← reached_half M x xn xc a an ac h hh]
    rw [show contains "hsn_parab" "hs" = true by decide]
    simp only [forall_const]
    rfl
  | hsj =>
    refine ⟨_, rfl, by simp only [par, iff_true]; decide, fun x xn xc a an ac h hh => ?_⟩
    rw [← reached_hsj x xn xc a an ac h hh]
    rw [show contains "hsj" "hs" = true by decide]
    simp only [forall_const]
    rfl
  | hsj_parab =>
    refine ⟨_, rfl, by simp only [par, iff_true]; decide, fun x xn xc a an ac h hh => ?_⟩
    rw [← reached_hsj x xn xc a an ac h hh]
    rw [show contains "hsj_parab" "hs" = true by decide]
    simp only [forall_const]
    rfl

private theorem control {scheme : String} {θ : ℝ} {M : ℕ} (hs : SchemeIs (some M) scheme (.parab θ) M) :
    (contains scheme "parab" = false ↔ LinearControl scheme) ∧
      (LinearControl scheme → ∀ u un : ℝ, centreU scheme u un = (1 - θ) * u + θ * un) := by
  have hj : ∀ u un : ℝ, centreU "hsj" u un = (1 - 2 / 5) * u + 2 / 5 * un := by
    intro u un
    rw [centreU, if_pos (by decide)]
    norm_num
  have hn : ∀ s ∈ ["hs", "hs_mod", "hsn"], ∀ u un : ℝ, centreU s u un = (1 - 1 / 2) * u + 1 / 2 * un := by
    intro s hs u un
    rw [centreU, if_neg ((by decide : ∀ s ∈ ["hs", "hs_mod", "hsn"], ¬ contains s "j" = true) s hs)]
    ring
  unfold LinearControl
  cases hs with
  | hs => exact ⟨by decide, fun _ => hn _ (by decide)⟩
  | hs_parab => exact ⟨by decide, fun h => absurd h (by decide)⟩
  | hs_mod => exact ⟨by decide, fun _ => hn _ (by decide)⟩
  | hs_mod_parab => exact ⟨by decide, fun h => absurd h (by decide)⟩
  | hsn M' hM => exact ⟨by decide, fun _ => hn _ (by decide)⟩
  | hsn_parab M' hM => exact ⟨by decide, fun h => absurd h (by decide)⟩
  | hsj => exact ⟨by decide, fun _ => hj⟩
  | hsj_parab => exact ⟨by decide, fun h => absurd h (by decide)⟩

/-- C91: for a scheme of the order of the problem, an assignment of the variables meets the constraints exactly when, over every
interval and for every coordinate, some motion with the highest derivative on the line (the parabola) through its samples
goes from the state at the start of the interval to the state at its end (by the state at the centre); the dynamics hold
at all samples (and centres), and without a control of their own the centres have the control in between. -/
theorem C91_motion (F : Dyn) {scheme : String} {s : Shape} {order : ℕ} (hs : SchemeIs (some order) scheme s order)
    (N n_q n_u : ℕ) (hN : 0 < N) {t_start t_end : ℝ} (hT : t_start ≠ t_end) :
    ∃ P, equiConstraints F scheme N order n_q n_u t_start t_end = .ok P ∧ ∀ v c : Vars, P v c ↔
      (∀ i < N, ∀ j < n_q, Reached s order (fun p => v.lev order n_q p i j) (fun p => v.lev order n_q p (i + 1) j)
        (fun p => c.lev order n_q p i j) (v.lev order n_q order i j) (v.lev order n_q order (i + 1) j)
        (c.lev order n_q order i j) ((t_end - t_start) / N)) ∧
      (∀ i ≤ N, zero (F (v.x i) (v.xd i) (v.u i) (v.lam i))) ∧
      ∀ θ, s = .parab θ → (∀ i < N, zero (F (c.x i) (c.xd i) (c.u i) (c.lam i))) ∧
        (LinearControl scheme → ∀ i < N, ∀ m < n_u, c.u i m = (1 - θ) * v.u i m + θ * v.u (i + 1) m) := by
  obtain ⟨f, hf, hhs, hr⟩ := restr_step hs
  have hh : (t_end - t_start) / N ≠ 0 :=
    div_ne_zero (sub_ne_zero.2 (Ne.symm hT)) (Nat.cast_ne_zero.2 hN.ne')
  refine ⟨_, by simp only [equiConstraints, hf]; rfl, fun v c => ?_⟩
  simp only [Nat.lt_succ_iff]
  constructor
  · rintro ⟨h1, h2, h3⟩
    refine ⟨fun i hi j hj => (hr _ _ _ _ _ _ _ hh).1 ⟨h1 i hi j hj, fun hc => ((h3 hc).1 i hi).1 j hj⟩, h2, fun θ hθ => ?_⟩
    subst hθ
    obtain ⟨g1, g2⟩ := h3 (hhs.2 ⟨θ, rfl⟩)
    refine ⟨fun i hi => (g1 i hi).2, fun hl i hi m hm => ?_⟩
    rw [← (control hs).2 hl]
    exact g2 ((control hs).1.2 hl) i hi m hm
  · rintro ⟨h1, h2, h3⟩
    refine ⟨fun i hi j hj => ((hr _ _ _ _ _ _ _ hh).2 (h1 i hi j hj)).1, h2, fun hc => ?_⟩
    obtain ⟨θ, rfl⟩ := hhs.1 hc
    obtain ⟨g1, g2⟩ := h3 θ rfl
    refine ⟨fun i hi => ⟨fun j hj => ((hr _ _ _ _ _ _ _ hh).2 (h1 i hi j hj)).2 hc, g1 i hi⟩, fun hl i hi m hm => ?_⟩
    rw [(control hs).2 ((control hs).1.1 hl)]
    exact g2 ((control hs).1.1 hl) i hi m hm

private theorem shiftIn_lev (v : Vars) (order n_q i j p : ℕ) (hp : p < order) :
    shiftIn order (fun p => v.lev order n_q p i j) (v.lev order n_q order i j) p = v.lev order n_q (p + 1) i j := by
  unfold shiftIn
  split
  · rfl
  · rw [show p + 1 = order by omega]

private theorem shiftIn_congr {M : ℕ} {y z : ℕ → ℝ} (h : ∀ p < M, y p = z p) (a : ℝ) (p : ℕ) (hp : p < M) :
    shiftIn M y a p = shiftIn M z a p := by
  unfold shiftIn
  split
  · exact h _ (by assumption)
  · rfl

/-- C91: the schemes of first order used for problems of any order treat every derivative below the highest as a variable of its
own, whose rate is the line (the parabola) through the samples of the next one. -/
theorem C91_levels (F : Dyn) {scheme : String} {s : Shape}
    (hs : scheme = "trapz" ∧ s = .line ∨ (scheme = "hs" ∨ scheme = "hs_parab") ∧ s = .parab (1 / 2))
    (N order n_q n_u : ℕ) (hN : 0 < N) {t_start t_end : ℝ} (hT : t_start ≠ t_end) :
    ∃ P, equiConstraints F scheme N order n_q n_u t_start t_end = .ok P ∧ ∀ v c : Vars, P v c ↔
      (∀ i < N, ∀ j < n_q, ∀ p < order, Reached s 1 (fun _ => v.lev order n_q p i j)
        (fun _ => v.lev order n_q p (i + 1) j) (fun _ => c.lev order n_q p i j) (v.lev order n_q (p + 1) i j)
        (v.lev order n_q (p + 1) (i + 1) j) (c.lev order n_q (p + 1) i j) ((t_end - t_start) / N)) ∧
      (∀ i ≤ N, zero (F (v.x i) (v.xd i) (v.u i) (v.lam i))) ∧
      (s ≠ .line → (∀ i < N, zero (F (c.x i) (c.xd i) (c.u i) (c.lam i))) ∧
        (scheme = "hs" → ∀ i < N, ∀ m < n_u, c.u i m = (v.u i m + v.u (i + 1) m) / 2)) := by
  have hh : (t_end - t_start) / N ≠ 0 :=
    div_ne_zero (sub_ne_zero.2 (Ne.symm hT)) (Nat.cast_ne_zero.2 hN.ne')
  obtain ⟨rfl, rfl⟩ | ⟨hsc, rfl⟩ := hs
  · refine ⟨_, rfl, fun v c => ?_⟩
    have e1 : contains "trapz" "hs" = false := by decide
    simp only [Nat.lt_succ_iff, e1, Bool.false_eq_true, false_imp_iff, ne_eq, not_true_eq_false, and_true]
    refine and_congr_left' (forall₂_congr fun i hi => forall₂_congr fun j hj => forall₂_congr fun p hp => ?_)
    rw [← reached_line 1 _ _ _ _ _ _ _ hh, trapz_level, shiftIn_lev v order n_q i j p hp,
      shiftIn_lev v order n_q (i + 1) j p hp]
    simp
  · have key : ∀ v c : Vars, ∀ i j : ℕ,
        ((∀ p < order, hsAccelRestr order (fun p => v.lev order n_q p i j) (fun p => v.lev order n_q p (i + 1) j)
            (v.lev order n_q order i j) (v.lev order n_q order (i + 1) j) ((t_end - t_start) / N)
            (c.lev order n_q order i j) p = 0) ∧
          ∀ p < order, c.lev order n_q p i j = hsHalfX order (fun p => v.lev order n_q p i j)
            (fun p => v.lev order n_q p (i + 1) j) (v.lev order n_q order i j) (v.lev order n_q order (i + 1) j)
            ((t_end - t_start) / N) p) ↔
        ∀ p < order, Reached (.parab (1 / 2)) 1 (fun _ => v.lev order n_q p i j)
          (fun _ => v.lev order n_q p (i + 1) j) (fun _ => c.lev order n_q p i j) (v.lev order n_q (p + 1) i j)
          (v.lev order n_q (p + 1) (i + 1) j) (c.lev order n_q (p + 1) i j) ((t_end - t_start) / N) := by
      intro v c i j
      have hr : ∀ p < order, (Reached (.parab (1 / 2)) 1 (fun _ => v.lev order n_q p i j)
          (fun _ => v.lev order n_q p (i + 1) j) (fun _ => c.lev order n_q p i j) (v.lev order n_q (p + 1) i j)
          (v.lev order n_q (p + 1) (i + 1) j) (c.lev order n_q (p + 1) i j) ((t_end - t_start) / N) ↔
          hsMRestr 1 (fun _ => v.lev order n_q p i j) (fun _ => v.lev order n_q p (i + 1) j)
            (v.lev order n_q (p + 1) i j) (v.lev order n_q (p + 1) (i + 1) j) ((t_end - t_start) / N)
            (c.lev order n_q (p + 1) i j) 0 = 0 ∧
          c.lev order n_q p i j = hsHalfX order (fun p => v.lev order n_q p i j)
            (fun p => v.lev order n_q p (i + 1) j) (v.lev order n_q order i j) (v.lev order n_q order (i + 1) j)
            ((t_end - t_start) / N) p) := by
        intro p hp
        rw [← reached_half 1 _ _ _ _ _ _ _ hh, hs_half_level, shiftIn_lev v order n_q i j p hp,
          shiftIn_lev v order n_q (i + 1) j p hp]
        simp
      have hl : (∀ p < order, c.lev order n_q p i j = hsHalfX order (fun p => v.lev order n_q p i j)
            (fun p => v.lev order n_q p (i + 1) j) (v.lev order n_q order i j) (v.lev order n_q order (i + 1) j)
            ((t_end - t_start) / N) p) → ∀ p < order,
          hsAccelRestr order (fun p => v.lev order n_q p i j) (fun p => v.lev order n_q p (i + 1) j)
            (v.lev order n_q order i j) (v.lev order n_q order (i + 1) j) ((t_end - t_start) / N)
            (c.lev order n_q order i j) p =
          hsMRestr 1 (fun _ => v.lev order n_q p i j) (fun _ => v.lev order n_q p (i + 1) j)
            (v.lev order n_q (p + 1) i j) (v.lev order n_q (p + 1) (i + 1) j) ((t_end - t_start) / N)
            (c.lev order n_q (p + 1) i j) 0 := by
        intro h p hp
        rw [hs_level, shiftIn_lev v order n_q i j p hp, shiftIn_lev v order n_q (i + 1) j p hp,
          ← shiftIn_congr h _ p hp, shiftIn_lev c order n_q i j p hp]
      constructor
      · rintro ⟨h1, h2⟩ p hp
        exact (hr p hp).2 ⟨(hl h2 p hp) ▸ h1 p hp, h2 p hp⟩
      · intro h
        have h2 := fun p hp => ((hr p hp).1 (h p hp)).2
        exact ⟨fun p hp => (hl h2 p hp).trans ((hr p hp).1 (h p hp)).1, h2⟩
    have hf : restrTable scheme order = .ok fun x xn a an dt ac => hsAccelRestr order x xn a an dt ac := by
      obtain rfl | rfl := hsc <;> rfl
    have hx : ∀ (x xn : ℕ → ℝ) (a an dt : ℝ), halfX scheme order x xn a an dt = hsHalfX order x xn a an dt := by
      intro x xn a an dt
      obtain rfl | rfl := hsc <;> rfl
    have hc : contains scheme "hs" = true := by obtain rfl | rfl := hsc <;> decide
    have hp : contains scheme "parab" = false ↔ scheme = "hs" := by
      obtain rfl | rfl := hsc <;> decide
    have hu : scheme = "hs" → ∀ u un : ℝ, centreU scheme u un = (u + un) / 2 := by
      rintro rfl u un
      rfl
    refine ⟨_, by simp only [equiConstraints, hf]; rfl, fun v c => ?_⟩
    simp only [Nat.lt_succ_iff, hc, forall_const, hx, ne_eq, reduceCtorEq, not_false_eq_true, hp]
    constructor
    · rintro ⟨h1, h2, h3, h4⟩
      refine ⟨fun i hi j hj => (key v c i j).1 ⟨h1 i hi j hj, (h3 i hi).1 j hj⟩, h2, fun i hi => (h3 i hi).2,
        fun he i hi m hm => ?_⟩
      rw [h4 he i hi m hm, hu he]
    · rintro ⟨h1, h2, h3, h4⟩
      refine ⟨fun i hi j hj => ((key v c i j).2 (h1 i hi j hj)).1, h2,
        fun i hi => ⟨fun j hj => ((key v c i j).2 (h1 i hi j hj)).2, h3 i hi⟩, fun he i hi m hm => ?_⟩
      rw [h4 he i hi m hm, hu he]

/-- C91: "hsj_parab_mod" gives the problem of "hsj_parab". -/
theorem C91_hsj_parab_mod (F : Dyn) (N order n_q n_u : ℕ) (t_start t_end : ℝ) :
    equiConstraints F "hsj_parab_mod" N order n_q n_u t_start t_end =
      equiConstraints F "hsj_parab" N order n_q n_u t_start t_end := rfl

/-- C91, negation for "euler": the scheme is accepted by the constructor but its constraints cannot be set. -/
theorem C91_euler_refuted (F : Dyn) (N order n_q n_u : ℕ) (t_start t_end : ℝ) :
    "euler" ∈ equispaced ∧ equiConstraints F "euler" N order n_q n_u t_start t_end = .error .key :=
  ⟨by decide, rfl⟩

/-- The free particle with constant control, `q = t² / 2`, meets the constraints of "hsj" with two intervals. -/
example : ∃ P, equiConstraints (fun _ xd u _ => [xd 1 - u 0]) "hsj" 2 2 1 1 0 4 = .ok P ∧
    P { x := fun i j => if j = 0 then (2 * i) ^ 2 / 2 else 2 * i, xd := fun i j => if j = 0 then 2 * i else 1,
        u := fun _ _ => 1, lam := fun _ _ => 0 }
      { x := fun i j => if j = 0 then (2 * i + 4 / 5) ^ 2 / 2 else 2 * i + 4 / 5,
        xd := fun i j => if j = 0 then 2 * i + 4 / 5 else 1, u := fun _ _ => 1, lam := fun _ _ => 0 } := by
  obtain ⟨P, h, hP⟩ := C91_motion (fun _ xd u _ => [xd 1 - u 0]) .hsj 2 1 1 (by norm_num) (t_start := 0) (t_end := 4)
    (by norm_num)
  refine ⟨P, h, (hP _ _).2 ⟨fun i _ j hj => ?_, fun i _ => by simp [zero], fun θ hθ => ⟨fun i _ => by simp [zero], ?_⟩⟩⟩
  · obtain rfl : j = 0 := by omega
    refine ⟨fun k t => if k = 0 then (2 * i + t) ^ 2 / 2 else if k = 1 then 2 * i + t else if k = 2 then 1 else 0,
      ⟨?_, ?_, ⟨0, 0, ?_⟩, ?_, ?_⟩, ?_, ?_⟩
    · intro k t
      match k with
      | 0 =>
        have := ((((hasDerivAt_id t).const_add (2 * (i : ℝ))).pow 2).div_const 2)
        simp only [id] at this
        refine this.congr_deriv ?_ |>.congr_of_eventuallyEq ?_
        · simp
        · filter_upwards with y
          simp
      | 1 => simpa using (hasDerivAt_id t).const_add (2 * (i : ℝ))
      | 2 => simpa using hasDerivAt_const t (1 : ℝ)
      | k + 3 => simpa using hasDerivAt_const t (0 : ℝ)
    · intro p hp
      interval_cases p <;> simp [Vars.lev]
    · intro t
      simp [Vars.lev]
    · simp [Vars.lev]
    · simp [Vars.lev]
    · intro p hp
      interval_cases p <;> simp [Vars.lev] <;> ring
    · intro θ hθ p hp
      cases hθ
      interval_cases p <;> simp [Vars.lev] <;> ring
  · intro _ i _ m _
    simp

end Chords.Props
