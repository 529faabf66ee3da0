import Verif.Lemmas.Hsj

/-!
# Property theorems C01-C10, C16 (piecewise schemes)
-/

set_option linter.unusedSectionVars false
set_option linter.unusedSimpArgs false

namespace Chords.Props
open Spec Finset
variable {V U : Type*} [NormedAddCommGroup V] [NormedSpace ℝ V] [AddCommGroup U] [Module ℝ U]

/-! ### C06: trapezoidal scheme of every order -/

/-- C06.  For every order `M`: take *any* motion that starts in the first sample and whose `M`-th
derivative goes linearly from `a` to `an`.  Then (1) the `trapz_n` residual vanishes iff the motion
ends in the next sample, and (2) the curve returned by the interpolation (component `p`,
derivative `k`) is the `(p+k)`-th derivative of that motion, at every instant. -/
theorem C06_trapz_n (M : ℕ) (x xn : ℕ → V) (a an : V) (h : ℝ) (hh : h ≠ 0)
    (c : ℕ → ℝ → V) (hc : LinearMotion M x a an h c) :
    ((∀ p, p < M → trapzMRestr M x xn a an h p = 0) ↔ ∀ p, p < M → c p h = xn p) ∧
    ∀ k p τ, tzInterp M k x a an τ h p = c (p + k) τ := by
  have key := linearMotion_unique hh (tzInterp_linearMotion M x a an h hh) hc
  have k2 : ∀ k p τ, tzInterp M k x a an τ h p = c (p + k) τ := by
    intro k p τ; rw [tzInterp_shift]; exact key (p + k) τ
  refine ⟨?_, k2⟩
  have e : ∀ p, p < M → (trapzMRestr M x xn a an h p = 0 ↔ c p h = xn p) := by
    intro p hp
    rw [show c p h = _ from (k2 0 p h).symm, tzInterp_end M x a an h hh p hp]
    simp only [trapzMRestr, sub_eq_zero]
    exact eq_comm
  exact forall₂_congr e

/-- Such a motion exists for every data: C06 is not vacuous. -/
theorem C06_motion_exists (M : ℕ) (x : ℕ → V) (a an : V) (h : ℝ) (hh : h ≠ 0) :
    ∃ c, LinearMotion M x a an h c := ⟨_, tzInterp_linearMotion M x a an h hh⟩

/-- Non-vacuity: order 3, a cubic position `t³/6` has constant third derivative 1. -/
example : ∃ c : ℕ → ℝ → ℝ, LinearMotion 3 (fun _ => 0) 1 1 2 c :=
  C06_motion_exists 3 _ 1 1 2 (by norm_num)

example : ∀ p, p < 3 → trapzMRestr (V := ℝ) 3 (fun _ => 0)
    (fun p => if p = 0 then 8 / 6 else if p = 1 then 2 else 2) 1 1 2 p = 0 := by
  intro p hp
  interval_cases p <;> norm_num [trapzMRestr, sum_range_succ, Nat.factorial]

/-! ### C07: Hermite-Simpson scheme of every order -/

/-- C07.  For every order `M`: take any motion that starts in the first sample and whose `M`-th
derivative is the parabola through `a`, `ac`, `an` at `0`, `h/2`, `h`.  Then the `hsn` residual
vanishes iff the motion ends in the next sample; the interpolation returns that motion and all its
derivatives; and when the residual vanishes the midpoint state is the motion at `h/2`. -/
theorem C07_hsn (M : ℕ) (x xn : ℕ → V) (a an ac : V) (h : ℝ) (hh : h ≠ 0)
    (c : ℕ → ℝ → V) (hc : ParabolicMotion M x a ac an (h / 2) h c) :
    ((∀ p, p < M → hsMRestr M x xn a an h ac p = 0) ↔ ∀ p, p < M → c p h = xn p) ∧
    (∀ k p τ, hsInterp M k x a an τ h ac p = c (p + k) τ) ∧
    ((∀ p, p < M → hsMRestr M x xn a an h ac p = 0) →
      ∀ p, p < M → hsMHalfX M x xn a an h p = c p (h / 2)) := by
  have key := parabolicMotion_unique (by positivity) hh (by
    intro e; apply hh; linarith) (hsInterp_parabolicMotion M x a an ac h hh) hc
  have k2 : ∀ k p τ, hsInterp M k x a an τ h ac p = c (p + k) τ := by
    intro k p τ; rw [hsInterp_shift]; exact key (p + k) τ
  have e : ∀ p, p < M → (hsMRestr M x xn a an h ac p = 0 ↔ c p h = xn p) := by
    intro p hp
    rw [show c p h = _ from (k2 0 p h).symm, hsInterp_end M x a an ac h hh p hp]
    simp only [hsMRestr, sub_eq_zero]
    exact eq_comm
  refine ⟨forall₂_congr e, k2, ?_⟩
  intro hr p hp
  have hv : xn (M - 1) = x (M - 1) + (h / 6) • (a + (4 : ℝ) • ac + an) := by
    have h1 := hr (M - 1) (by omega)
    simp only [hsMRestr, sub_eq_zero] at h1
    have e1 : M - (M - 1) = 1 := by omega
    rw [h1, e1]
    simp [Nat.factorial]
    match_scalars <;> ring
  have k3 := k2 0 p (h / 2)
  rw [add_zero] at k3
  rw [← k3, hsInterp_half M x xn a an ac h hh hv p hp]

theorem C07_motion_exists (M : ℕ) (x : ℕ → V) (a an ac : V) (h : ℝ) (hh : h ≠ 0) :
    ∃ c, ParabolicMotion M x a ac an (h / 2) h c := ⟨_, hsInterp_parabolicMotion M x a an ac h hh⟩

/-- Non-vacuity: order 3, third derivative `t²` on a step of length 2. -/
example : (∃ c : ℕ → ℝ → ℝ, ParabolicMotion 3 (fun _ => 0) 0 1 4 (2 / 2) 2 c) ∧
    ∀ p, p < 3 → hsMRestr (V := ℝ) 3 (fun _ => 0)
      (fun p => if p = 0 then 32 / 60 else if p = 1 then 16 / 12 else 8 / 3) 0 4 2 1 p = 0 := by
  refine ⟨C07_motion_exists 3 _ 0 4 1 2 (by norm_num), ?_⟩
  intro p hp
  interval_cases p <;> norm_num [hsMRestr, sum_range_succ, Nat.factorial]

/-! ### C08: order-generic formulas specialise to the hand-written ones -/

/-- C08, trapezoidal, order 1. -/
theorem C08_trapz_order1 (F : V → U → V) (x xn : V) (u un : U) (h : ℝ) :
    trapzMRestr 1 (seq1 x) (seq1 xn) (F x u) (F xn un) h 0 = trapzRestr x xn u un F h := by
  simp [trapzMRestr, trapzRestr, seq1, Nat.factorial]
  module

/-- C08, trapezoidal, order 2. -/
theorem C08_trapz_order2 (F : V × V → U → V × V) (x xn : V × V) (u un : U) (h : ℝ) :
    (trapzMRestr 2 (seq2 x) (seq2 xn) (F x u).2 (F xn un).2 h 0,
     trapzMRestr 2 (seq2 x) (seq2 xn) (F x u).2 (F xn un).2 h 1) = trapzModRestr x xn u un F h := by
  ext <;> simp [trapzMRestr, trapzModRestr, sum_range_succ, Nat.factorial] <;> module

/-- C08, Hermite-Simpson, order 1: same midpoint state, opposite residual. -/
theorem C08_hs_order1 (F : V → U → V) (x xn : V) (u un uc : U) (h : ℝ) :
    hsMHalfX 1 (seq1 x) (seq1 xn) (F x u) (F xn un) h 0 = hsMidpoint x xn (F x u) (F xn un) h ∧
    hsMRestr 1 (seq1 x) (seq1 xn) (F x u) (F xn un) h
      (F (hsMHalfX 1 (seq1 x) (seq1 xn) (F x u) (F xn un) h 0) uc) 0
      = - hsParabRestr x xn u un F h uc := by
  have e : hsMHalfX 1 (seq1 x) (seq1 xn) (F x u) (F xn un) h 0
      = hsMidpoint x xn (F x u) (F xn un) h := by
    simp [hsMHalfX, hsMidpoint, seq1, Nat.factorial]
    module
  refine ⟨e, ?_⟩
  rw [e]
  simp only [hsMRestr, hsParabRestr, hsMidpoint, seq1]
  simp [Nat.factorial]
  module

/-- C08, Hermite-Simpson, order 2: the generated functions are the hand-written acceleration
forms. -/
theorem C08_hs_order2 (x xn : V × V) (a an ac : V) (h : ℝ) :
    (hsMHalfX 2 (seq2 x) (seq2 xn) a an h 0, hsMHalfX 2 (seq2 x) (seq2 xn) a an h 1)
      = hsModHalfX x xn a an h ∧
    (hsMRestr 2 (seq2 x) (seq2 xn) a an h ac 0, hsMRestr 2 (seq2 x) (seq2 xn) a an h ac 1)
      = hsModAccelRestr x xn a an h ac := by
  constructor
  · ext <;> simp [hsMHalfX, hsModHalfX, sum_range_succ, Nat.factorial] <;> module
  · ext <;> simp [hsMRestr, hsModAccelRestr, sum_range_succ, Nat.factorial] <;> module

/-! ### C01: trapezoidal -/

/-- C01.  The curve drawn for 'trapz' starts at `x`, its slope goes linearly from `F x u` to
`F xn un`, and it ends in `xn` exactly when the constraint is zero. -/
theorem C01_trapz (F : V → U → V) (x xn : V) (u un : U) (h : ℝ) (hh : h ≠ 0) :
    let curve := fun τ => tzInterp 1 0 (seq1 x) (F x u) (F xn un) τ h 0
    curve 0 = x ∧
    (∀ τ, HasDerivAt curve (F x u + (τ / h) • (F xn un - F x u)) τ) ∧
    HasDerivAt curve (F x u) 0 ∧ HasDerivAt curve (F xn un) h ∧
    (trapzRestr x xn u un F h = 0 ↔ curve h = xn) := by
  intro curve
  have lm := tzInterp_linearMotion 1 (seq1 x) (F x u) (F xn un) h hh
  have d : ∀ τ, HasDerivAt curve (F x u + (τ / h) • (F xn un - F x u)) τ := by
    intro τ
    refine (lm.motion 0 τ).congr_deriv ?_
    simp only [tzInterp_top]
    module
  refine ⟨by simpa [seq1] using lm.start 0 (by norm_num), d, ?_, ?_, ?_⟩
  · simpa using d 0
  · simpa [div_self hh] using d h
  · rw [← C08_trapz_order1]
    have := (C06_trapz_n 1 (seq1 x) (seq1 xn) (F x u) (F xn un) h hh _ lm).1
    simpa [Nat.lt_one_iff, curve, seq1] using this

/-- Non-vacuity: a constraint that is satisfied (`F x u = u`, constant control 1, step 2). -/
example : trapzRestr (0 : ℝ) 2 (1 : ℝ) 1 (fun _ u => u) 2 = 0 := by norm_num [trapzRestr]

/-! ### C02: Hermite-Simpson -/

/-- C02.  Stated for any midpoint control `uc` (the `hs_parab` residual); the `hs` residual is the
case `uc = (u+un)/2` (next theorem). -/
theorem C02_hs_parab (F : V → U → V) (x xn : V) (u un uc : U) (h : ℝ) (hh : h ≠ 0) :
    let xc := hsMidpoint x xn (F x u) (F xn un) h
    let curve := fun τ => hsInterp 1 0 (seq1 x) (F x u) (F xn un) τ h (F xc uc) 0
    curve 0 = x ∧
    HasDerivAt curve (F x u) 0 ∧ HasDerivAt curve (F xc uc) (h / 2) ∧
    HasDerivAt curve (F xn un) h ∧
    (∃ b d : V, ∀ τ, HasDerivAt curve (F x u + τ • b + τ ^ 2 • d) τ) ∧
    (hsParabRestr x xn u un F h uc = 0 ↔ curve h = xn) ∧
    (hsParabRestr x xn u un F h uc = 0 → curve (h / 2) = xc) := by
  intro xc curve
  have pm := hsInterp_parabolicMotion 1 (seq1 x) (F x u) (F xn un) (F xc uc) h hh
  have d : ∀ τ, HasDerivAt curve (hsInterp 1 1 (seq1 x) (F x u) (F xn un) τ h (F xc uc) 0) τ :=
    fun τ => pm.motion 0 τ
  have main := C07_hsn 1 (seq1 x) (seq1 xn) (F x u) (F xn un) (F xc uc) h hh _ pm
  have h8 := C08_hs_order1 F x xn u un uc h
  have hr : hsParabRestr x xn u un F h uc = 0 ↔
      ∀ p, p < 1 → hsMRestr 1 (seq1 x) (seq1 xn) (F x u) (F xn un) h (F xc uc) p = 0 := by
    have h9 := h8.2
    rw [h8.1] at h9
    constructor
    · intro h0 p hp
      have : p = 0 := by omega
      subst this
      rw [h9, h0, neg_zero]
    · intro h0
      have := h0 0 (by norm_num)
      rw [h9, neg_eq_zero] at this
      exact this
  refine ⟨by simpa [seq1] using pm.start 0 (by norm_num), ?_, ?_, ?_, ?_, ?_, ?_⟩
  · refine (d 0).congr_deriv ?_
    rw [hsInterp_top]; simp
  · refine (d (h / 2)).congr_deriv ?_
    exact pm.top_mid
  · refine (d h).congr_deriv ?_
    exact pm.top_end
  · obtain ⟨b, e, hb⟩ := pm.top_parabola
    exact ⟨b, e, fun τ => (d τ).congr_deriv (hb τ)⟩
  · rw [hr, main.1]
    simp [Nat.lt_one_iff, seq1, curve]
  · intro h0
    have := main.2.2 (hr.mp h0) 0 (by norm_num)
    rw [h8.1] at this
    exact this.symm

/-- C02 for the plain 'hs' scheme (linear control). -/
theorem C02_hs (F : V → U → V) (x xn : V) (u un : U) (h : ℝ) (hh : h ≠ 0) :
    let uc := (1 / 2 : ℝ) • (u + un)
    let xc := hsMidpoint x xn (F x u) (F xn un) h
    let curve := fun τ => hsInterp 1 0 (seq1 x) (F x u) (F xn un) τ h (F xc uc) 0
    curve 0 = x ∧
    HasDerivAt curve (F x u) 0 ∧ HasDerivAt curve (F xc uc) (h / 2) ∧
    HasDerivAt curve (F xn un) h ∧
    (∃ b d : V, ∀ τ, HasDerivAt curve (F x u + τ • b + τ ^ 2 • d) τ) ∧
    (hsRestr x xn u un F h = 0 ↔ curve h = xn) ∧
    (hsRestr x xn u un F h = 0 → curve (h / 2) = xc) :=
  C02_hs_parab F x xn u un ((1 / 2 : ℝ) • (u + un)) h hh

/-- Non-vacuity: `F x u = u`, controls 0 and 2, step 2: exact solution reaches 2. -/
example : hsRestr (0 : ℝ) 2 (0 : ℝ) 2 (fun _ u => u) 2 = 0 := by norm_num [hsRestr]

/-! ### C03: second-order trapezoidal -/

/-- C03.  For 'trapz_mod' and any acceleration data: the drawn `q` and `v` (components 0 and 1 of the
interpolation) satisfy `q' = v`, `v' =` the line from `a` to `an`, start at the sample, and reach the
next sample exactly when the constraint is zero. -/
theorem C03_trapz_mod (F : V × V → U → V × V) (x xn : V × V) (u un : U) (h : ℝ) (hh : h ≠ 0) :
    let a := (F x u).2
    let an := (F xn un).2
    let q := fun τ => tzInterp 2 0 (seq2 x) a an τ h 0
    let v := fun τ => tzInterp 2 0 (seq2 x) a an τ h 1
    (q 0, v 0) = x ∧ (∀ τ, HasDerivAt q (v τ) τ) ∧
    (∀ τ, HasDerivAt v (a + (τ / h) • (an - a)) τ) ∧
    (trapzModRestr x xn u un F h = 0 ↔ (q h, v h) = xn) := by
  intro a an q v
  have lm := tzInterp_linearMotion 2 (seq2 x) a an h hh
  have hv : ∀ τ, v τ = tzInterp 2 1 (seq2 x) a an τ h 0 := fun τ => tzInterp_shift 2 0 _ a an τ h 1
  have hv' : v = fun τ => tzInterp 2 1 (seq2 x) a an τ h 0 := funext hv
  refine ⟨?_, ?_, ?_, ?_⟩
  · ext
    · simpa using lm.start 0 (by norm_num)
    · rw [hv']; simpa using lm.start 1 (by norm_num)
  · intro τ; rw [hv]; exact lm.motion 0 τ
  · intro τ; rw [hv']
    refine (lm.motion 1 τ).congr_deriv ?_
    simp only [tzInterp_top]
    module
  · rw [← C08_trapz_order2]
    have := (C06_trapz_n 2 (seq2 x) (seq2 xn) a an h hh _ lm).1
    rw [hv']
    constructor
    · intro h0
      have h1 : ∀ p, p < 2 → trapzMRestr 2 (seq2 x) (seq2 xn) a an h p = 0 := by
        intro p hp
        interval_cases p
        · exact congrArg Prod.fst h0
        · exact congrArg Prod.snd h0
      have h2 := this.mp h1
      ext
      · exact h2 0 (by norm_num)
      · exact h2 1 (by norm_num)
    · intro h0
      have h2 : ∀ p, p < 2 → tzInterp 2 p (seq2 x) a an h h 0 = seq2 xn p := by
        intro p hp
        interval_cases p
        · exact congrArg Prod.fst h0
        · exact congrArg Prod.snd h0
      have h1 := this.mpr h2
      ext
      · exact h1 0 (by norm_num)
      · exact h1 1 (by norm_num)

/-- Non-vacuity: constant acceleration 1 from rest during 2. -/
example : trapzModRestr ((0, 0) : ℝ × ℝ) (2, 2) (1 : ℝ) 1 (fun x u => (x.2, u)) 2 = 0 := by
  ext <;> norm_num [trapzModRestr]

/-! ### C04: second-order Hermite-Simpson -/

/-- Both midpoint formulas of the second-order Hermite-Simpson scheme agree on solutions. -/
theorem hsMod_midpoints_agree (x xn : V × V) (a an ac : V) (h : ℝ)
    (h0 : hsModAccelRestr x xn a an h ac = 0) :
    hsModXc x xn a an h = hsModHalfX x xn a an h := by
  have h1 : xn.1 = x.1 + h • x.2 + (h ^ 2 / 6) • (a + (2 : ℝ) • ac) := by
    have := congrArg Prod.fst h0
    simpa [hsModAccelRestr, sub_eq_zero] using this
  have h2 : xn.2 = x.2 + (h / 6) • (a + (4 : ℝ) • ac + an) := by
    have := congrArg Prod.snd h0
    simpa [hsModAccelRestr, sub_eq_zero] using this
  ext
  · simp only [hsModXc, hsModHalfX, h1, h2]
    module
  · simp only [hsModXc, hsModHalfX]

/-- C04.  For 'hs_mod' (and 'hs_mod_parab', arbitrary midpoint control `uc`): the drawn `q`, `v`
satisfy `q' = v`, `v'` is the parabola through `a`, `ac`, `an`, they start at the sample, reach the
next sample exactly when the constraint is zero, and then the state at which `ac` was evaluated is
the drawn curve at `h/2` (with either of the two midpoint formulas of the package). -/
theorem C04_hs_mod (F : V × V → U → V × V) (x xn : V × V) (u un uc : U) (h : ℝ) (hh : h ≠ 0) :
    let a := (F x u).2
    let an := (F xn un).2
    let xc := hsModXc x xn a an h
    let ac := (F xc uc).2
    let q := fun τ => hsInterp 2 0 (seq2 x) a an τ h ac 0
    let v := fun τ => hsInterp 2 0 (seq2 x) a an τ h ac 1
    (q 0, v 0) = x ∧ (∀ τ, HasDerivAt q (v τ) τ) ∧
    (∃ b d : V, ∀ τ, HasDerivAt v (a + τ • b + τ ^ 2 • d) τ) ∧
    HasDerivAt v a 0 ∧ HasDerivAt v ac (h / 2) ∧ HasDerivAt v an h ∧
    (hsModParabRestr x xn u un F h uc = 0 ↔ (q h, v h) = xn) ∧
    (hsModParabRestr x xn u un F h uc = 0 →
      (q (h / 2), v (h / 2)) = xc ∧ (q (h / 2), v (h / 2)) = hsModHalfX x xn a an h ∧
      (q (h / 2), v (h / 2)) = hsModMidpoint x xn (F x u) (F xn un) h) := by
  intro a an xc ac q v
  have pm := hsInterp_parabolicMotion 2 (seq2 x) a an ac h hh
  have hv : ∀ τ, v τ = hsInterp 2 1 (seq2 x) a an τ h ac 0 :=
    fun τ => hsInterp_shift 2 0 _ a an ac τ h 1
  have hv' : v = fun τ => hsInterp 2 1 (seq2 x) a an τ h ac 0 := funext hv
  have main := C07_hsn 2 (seq2 x) (seq2 xn) a an ac h hh _ pm
  have h8 := C08_hs_order2 x xn a an ac h
  have hres : hsModParabRestr x xn u un F h uc = hsModAccelRestr x xn a an h ac := rfl
  have hr : hsModParabRestr x xn u un F h uc = 0 ↔
      ∀ p, p < 2 → hsMRestr 2 (seq2 x) (seq2 xn) a an h ac p = 0 := by
    rw [hres, ← h8.2]
    constructor
    · intro h0 p hp
      interval_cases p
      · exact congrArg Prod.fst h0
      · exact congrArg Prod.snd h0
    · intro h0
      ext
      · exact h0 0 (by norm_num)
      · exact h0 1 (by norm_num)
  refine ⟨?_, ?_, ?_, ?_, ?_, ?_, ?_, ?_⟩
  · ext
    · simpa using pm.start 0 (by norm_num)
    · rw [hv']; simpa using pm.start 1 (by norm_num)
  · intro τ; rw [hv]; exact pm.motion 0 τ
  · obtain ⟨b, d, hb⟩ := pm.top_parabola
    refine ⟨b, d, fun τ => ?_⟩
    rw [hv']
    exact (pm.motion 1 τ).congr_deriv (hb τ)
  · rw [hv']
    refine (pm.motion 1 0).congr_deriv ?_
    show hsInterp 2 2 _ _ _ _ _ _ 0 = _
    rw [hsInterp_top]; simp
  · rw [hv']
    exact (pm.motion 1 (h / 2)).congr_deriv pm.top_mid
  · rw [hv']
    exact (pm.motion 1 h).congr_deriv pm.top_end
  · rw [hr, main.1, hv']
    constructor
    · intro h0
      ext
      · exact h0 0 (by norm_num)
      · exact h0 1 (by norm_num)
    · intro h0 p hp
      interval_cases p
      · exact congrArg Prod.fst h0
      · exact congrArg Prod.snd h0
  · intro h0
    have hm := main.2.2 (hr.mp h0)
    have e1 : (q (h / 2), v (h / 2)) = hsModHalfX x xn a an h := by
      rw [← h8.1, hv']
      ext
      · exact (hm 0 (by norm_num)).symm
      · exact (hm 1 (by norm_num)).symm
    have e2 := hsMod_midpoints_agree x xn a an ac h (hres ▸ h0)
    refine ⟨by rw [e1]; exact e2.symm, e1, ?_⟩
    rw [e1, ← e2]
    ext
    · simp only [hsModXc, hsModMidpoint, a, an]; module
    · simp only [hsModXc, hsModMidpoint, a, an]

/-- Non-vacuity: acceleration equal to the control, controls 0, 1, 2 on a step of 2. -/
example : hsModParabRestr ((0, 0) : ℝ × ℝ) (4 / 3, 2) (0 : ℝ) 2 (fun x u => (x.2, u)) 2 1 = 0 := by
  ext <;> norm_num [hsModParabRestr, hsModXc]

/-! ### C05: hsj -/

/-- C05.  For 'hsj'/'hsj_parab' with interior point at `2h/5`. -/
theorem C05_hsj (F : V × V → U → V × V) (x xn : V × V) (u un uc : U) (h : ℝ) (hh : h ≠ 0)
    (xdn xdc : V × V) (hxdn : xdn = F xn un)
    (hxdc : xdc = F (hsjXc x xn (F x u).2 (F xn un).2 h) uc)
    (c : ℕ → ℝ → V)
    (hc : ParabolicMotion 2 (seq2 x) (F x u).2 xdc.2 xdn.2 (2 * h / 5) h c) :
    (∀ τ, hsjInterp x xn (F x u) xdn τ h xdc = (c 0 τ, c 1 τ)) ∧
    (∀ τ, hsjDotInterp x xn (F x u) xdn τ h xdc = (c 1 τ, c 2 τ)) ∧
    (∀ τ, hsjDotDotInterp x xn (F x u) xdn τ h xdc = (c 2 τ, c 3 τ)) ∧
    (hsjParabRestr x xn u un F h uc = 0 ↔ (c 0 h, c 1 h) = xn) ∧
    (hsjParabRestr x xn u un F h uc = 0 →
      hsjXc x xn (F x u).2 (F xn un).2 h = (c 0 (2 * h / 5), c 1 (2 * h / 5)) ∧
      hsjHalfX x xn (F x u).2 (F xn un).2 h = (c 0 (2 * h / 5), c 1 (2 * h / 5)) ∧
      hsjMidpoint x xn (F x u) (F xn un) h = (c 0 (2 * h / 5), c 1 (2 * h / 5))) := by
  have key := parabolicMotion_unique (by positivity) hh (by
    intro e; apply hh; linarith) (hsjCurve_parabolic x (F x u).2 xdn.2 xdc.2 h hh) hc
  have hr : hsjParabRestr x xn u un F h uc = 0 ↔ (c 0 h, c 1 h) = xn := by
    rw [← key, ← key, hsjCurve_end _ _ _ _ _ hh]
    subst hxdn hxdc
    simp only [hsjParabRestr, sub_eq_zero]
    exact eq_comm
  refine ⟨?_, ?_, ?_, hr, ?_⟩
  · intro τ; rw [hsjInterp_eq, key, key]
  · intro τ; rw [hsjDotInterp_eq, key, key]
  · intro τ; rw [hsjDotDotInterp_eq, key, key]
  · intro h0
    have h1 := hr.mp h0
    rw [← key, ← key] at h1
    have h2 := hsjCurve_mid x xn (F x u).2 xdn.2 xdc.2 h hh h1
    rw [key, key] at h2
    subst hxdn
    exact ⟨h2.1, h2.2, h2.1⟩

theorem C05_motion_exists (x : V × V) (a ac an : V) (h : ℝ) (hh : h ≠ 0) :
    ∃ c, ParabolicMotion 2 (seq2 x) a ac an (2 * h / 5) h c := ⟨_, hsjCurve_parabolic x a an ac h hh⟩

/-- The plain 'hsj' residual is the parabolic one with `uc = 0.6 u + 0.4 un`. -/
theorem C05_hsj_plain (F : V × V → U → V × V) (x xn : V × V) (u un : U) (h : ℝ) :
    hsjRestr x xn u un F h = hsjParabRestr x xn u un F h ((0.6 : ℝ) • u + (0.4 : ℝ) • un) := rfl

/-- Non-vacuity: controls 0 and 5, step 5 (acceleration `t`). -/
example : hsjRestr ((0, 0) : ℝ × ℝ) (125 / 6, 25 / 2) (0 : ℝ) 5 (fun x u => (x.2, u)) 5 = 0 := by
  ext <;> norm_num [hsjRestr, hsjXc]

/-! ### C09: derivatives of interpolations -/

/-- C09 for the trapezoidal family ('trapz' M=1, 'trapz_mod' M=2, 'trapz_n' any M): asking for one
more derivative returns the derivative of the curve, at every instant, for every component. -/
theorem C09_tz_deriv (M k : ℕ) (x : ℕ → V) (a an : V) (h τ : ℝ) (p : ℕ) :
    HasDerivAt (fun t => tzInterp M k x a an t h p) (tzInterp M (k + 1) x a an τ h p) τ := by
  have := tzInterp_motion M x a an h (p + k) τ
  simp only [fun t => tzInterp_shift M k x a an t h p, tzInterp_shift M (k + 1) x a an τ h p]
  exact this

/-- C09 for the Hermite-Simpson family ('hs' M=1, 'hs_mod' M=2, 'hsn' any M). -/
theorem C09_hs_deriv (M k : ℕ) (x : ℕ → V) (a an ac : V) (h τ : ℝ) (p : ℕ) :
    HasDerivAt (fun t => hsInterp M k x a an t h ac p) (hsInterp M (k + 1) x a an τ h ac p) τ := by
  have := hsInterp_motion M x a an ac h (p + k) τ
  simp only [fun t => hsInterp_shift M k x a an ac t h p,
    hsInterp_shift M (k + 1) x a an ac τ h p]
  exact this

/-- C09 for 'hsj', first derivative. -/
theorem C09_hsj_deriv (x xn xd xdn xdc : V × V) (h τ : ℝ) :
    HasDerivAt (fun t => hsjInterp x xn xd xdn t h xdc) (hsjDotInterp x xn xd xdn τ h xdc) τ := by
  simp only [hsjInterp_eq, hsjDotInterp_eq]
  exact (hsjCurve_motion x xd.2 xdn.2 xdc.2 h 0 τ).prodMk (hsjCurve_motion x xd.2 xdn.2 xdc.2 h 1 τ)

/-- C09 for 'hsj', second derivative. -/
theorem C09_hsj_deriv2 (x xn xd xdn xdc : V × V) (h τ : ℝ) :
    HasDerivAt (fun t => hsjDotInterp x xn xd xdn t h xdc)
      (hsjDotDotInterp x xn xd xdn τ h xdc) τ := by
  simp only [hsjDotDotInterp_eq, hsjDotInterp_eq]
  exact (hsjCurve_motion x xd.2 xdn.2 xdc.2 h 1 τ).prodMk (hsjCurve_motion x xd.2 xdn.2 xdc.2 h 2 τ)

/-! ### C10: different spellings of the same scheme -/

/-- C10, step form (used by `integrate_*`) versus residual form (used by the optimiser). -/
theorem C10_step_iff_restr_first (F : V → U → V) (x xn : V) (u un uc : U) (h : ℝ) :
    (eulerStep x u F h = xn ↔ eulerRestr x xn u un F h = 0) ∧
    (trapzOptiStep xn x u un F h = 0 ↔ trapzRestr x xn u un F h = 0) ∧
    (hsOptiStep xn x u un F h = 0 ↔ hsRestr x xn u un F h = 0) ∧
    (hsParabOptiStep xn x u un F h uc = 0 ↔ hsParabRestr x xn u un F h uc = 0) := by
  refine ⟨?_, ?_, Iff.rfl, Iff.rfl⟩
  · simp only [eulerStep, eulerRestr, sub_eq_zero]; exact eq_comm
  · simp only [trapzOptiStep, trapzRestr, sub_eq_zero]; exact eq_comm

theorem C10_step_iff_restr_second (F : V × V → U → V × V) (x xn : V × V) (u un uc : U) (h : ℝ) :
    (trapzModOptiStep xn x u un F h = 0 ↔ trapzModRestr x xn u un F h = 0) ∧
    (hsModOptiStep xn x u un F h = 0 ↔ hsModRestr x xn u un F h = 0) ∧
    (hsModParabOptiStep xn x u un F h uc = 0 ↔ hsModParabRestr x xn u un F h uc = 0) ∧
    (hsjOptiStep xn x u un F h = 0 ↔ hsjRestr x xn u un F h = 0) ∧
    (hsjParabOptiStep xn x u un F h uc = 0 ↔ hsjParabRestr x xn u un F h uc = 0) := by
  have neg : ∀ y z : V × V, (y.1 - z.1, y.2 - z.2) = 0 ↔ z - y = 0 := by
    intro y z
    rw [sub_eq_zero, Prod.ext_iff, Prod.ext_iff]
    simp only [Prod.fst_zero, Prod.snd_zero, sub_eq_zero]
    exact and_congr eq_comm eq_comm
  exact ⟨neg (_, _) xn, neg (_, _) xn, neg (_, _) xn, neg (_, _) xn, neg (_, _) xn⟩

/-- C10, first-order residuals versus their acceleration form, for dynamics whose upper half is
`q' = v` (what `expand_F` produces). -/
theorem C10_accel_first (F : V × V → U → V × V) (hF : ∀ x u, (F x u).1 = x.2)
    (x xn : V × V) (u un uc : U) (h : ℝ) :
    (eulerRestr x xn u un F h = 0 ↔
      ∀ p, p < 2 → eulerAccelRestr 2 (seq2 x) (seq2 xn) (F x u).2 (F xn un).2 h p = 0) ∧
    (trapzRestr x xn u un F h = 0 ↔
      ∀ p, p < 2 → trapzAccelRestr 2 (seq2 x) (seq2 xn) (F x u).2 (F xn un).2 h p = 0) ∧
    (hsParabRestr x xn u un F h uc = 0 ↔
      let xc := hsHalfX 2 (seq2 x) (seq2 xn) (F x u).2 (F xn un).2 h
      ∀ p, p < 2 → hsAccelRestr 2 (seq2 x) (seq2 xn) (F x u).2 (F xn un).2 h
        (F (xc 0, xc 1) uc).2 p = 0) := by
  have two : ∀ P : ℕ → Prop, (∀ p, p < 2 → P p) ↔ P 0 ∧ P 1 := by
    intro P
    constructor
    · intro hP; exact ⟨hP 0 (by norm_num), hP 1 (by norm_num)⟩
    · rintro ⟨h0, h1⟩ p hp
      interval_cases p <;> assumption
  refine ⟨?_, ?_, ?_⟩
  · rw [two, Prod.ext_iff]
    simp [eulerRestr, eulerAccelRestr, shiftIn, hF]
  · rw [two, Prod.ext_iff]
    simp [trapzRestr, trapzAccelRestr, shiftIn, hF]
  · set xc := hsHalfX 2 (seq2 x) (seq2 xn) (F x u).2 (F xn un).2 h with hxc
    show _ ↔ ∀ p, p < 2 → hsAccelRestr 2 (seq2 x) (seq2 xn) (F x u).2 (F xn un).2 h
        (F (xc 0, xc 1) uc).2 p = 0
    have exc : (xc 0, xc 1) = (1 / 2 : ℝ) • (x + xn) + (h / 8) • (F x u - F xn un) := by
      ext <;> simp [xc, hsHalfX, shiftIn, hF]
    rw [two, exc, Prod.ext_iff]
    have hx2 : ((1 / 2 : ℝ) • (x + xn) + (h / 8) • (F x u - F xn un)).2 = xc 1 := by rw [← exc]
    have r1 : (hsParabRestr x xn u un F h uc).1 = - hsAccelRestr 2 (seq2 x) (seq2 xn) (F x u).2
        (F xn un).2 h (F ((1 / 2 : ℝ) • (x + xn) + (h / 8) • (F x u - F xn un)) uc).2 0 := by
      simp only [hsParabRestr, hsAccelRestr, shiftIn, Prod.fst_sub, Prod.fst_add, Prod.smul_fst, hF,
        hx2, ← hxc]
      simp
    have r2 : (hsParabRestr x xn u un F h uc).2 = - hsAccelRestr 2 (seq2 x) (seq2 xn) (F x u).2
        (F xn un).2 h (F ((1 / 2 : ℝ) • (x + xn) + (h / 8) • (F x u - F xn un)) uc).2 1 := by
      simp only [hsParabRestr, hsAccelRestr, shiftIn, Prod.snd_sub, Prod.snd_add, Prod.smul_snd]
      simp
    rw [r1, r2]
    simp

/-- C10, second-order residuals versus their acceleration forms.  The two families use different
formulas for the interior state; the solution sets are still the same. -/
theorem C10_accel_second (F : V × V → U → V × V) (x xn : V × V) (u un uc : U) (h : ℝ)
    (hh : h ≠ 0) :
    (trapzModRestr x xn u un F h = 0 ↔
      trapzModAccelRestr x xn (F x u).2 (F xn un).2 h = 0) ∧
    (hsModParabRestr x xn u un F h uc = 0 ↔
      hsModAccelRestr x xn (F x u).2 (F xn un).2 h
        (F (hsModHalfX x xn (F x u).2 (F xn un).2 h) uc).2 = 0) ∧
    (hsjParabRestr x xn u un F h uc = 0 ↔
      hsjAccelRestr x xn (F x u).2 (F xn un).2 h
        (F (hsjHalfX x xn (F x u).2 (F xn un).2 h) uc).2 = 0) := by
  refine ⟨Iff.rfl, ?_, ?_⟩
  · constructor
    · intro h0
      have h1 : hsModAccelRestr x xn (F x u).2 (F xn un).2 h
        (F (hsModXc x xn (F x u).2 (F xn un).2 h) uc).2 = 0 := h0
      rwa [hsMod_midpoints_agree _ _ _ _ _ _ h1] at h1
    · intro h1
      show hsModAccelRestr x xn (F x u).2 (F xn un).2 h
        (F (hsModXc x xn (F x u).2 (F xn un).2 h) uc).2 = 0
      rwa [hsMod_midpoints_agree _ _ _ _ _ _ h1]
  · have agree : ∀ ac, hsjAccelRestr x xn (F x u).2 (F xn un).2 h ac = 0 →
        hsjXc x xn (F x u).2 (F xn un).2 h = hsjHalfX x xn (F x u).2 (F xn un).2 h := by
      intro ac h0
      have he : (hsjCurve x (F x u).2 (F xn un).2 ac h 0 h,
          hsjCurve x (F x u).2 (F xn un).2 ac h 1 h) = xn := by
        rw [hsjCurve_end _ _ _ _ _ hh]
        exact (sub_eq_zero.mp h0).symm
      have := hsjCurve_mid x xn (F x u).2 (F xn un).2 ac h hh he
      rw [this.1, this.2]
    constructor
    · intro h0
      have h1 : hsjAccelRestr x xn (F x u).2 (F xn un).2 h
        (F (hsjXc x xn (F x u).2 (F xn un).2 h) uc).2 = 0 := h0
      rwa [agree _ h1] at h1
    · intro h1
      show hsjAccelRestr x xn (F x u).2 (F xn un).2 h
        (F (hsjXc x xn (F x u).2 (F xn un).2 h) uc).2 = 0
      rwa [agree _ h1]

/-- C10 holds for 'rk4' only when the control does not change during the step: then the step form and
the residual form agree. -/
theorem C10_rk4_partial (F : V → U → V) (x xn : V) (u : U) (h : ℝ) (un : U) :
    rk4Step x u u F h u = xn ↔ rk4Restr x xn u un F h = 0 := by
  simp only [rk4Step, rk4Restr, sub_eq_zero]; exact eq_comm

/-- C10 is false for 'rk4': `rk4_restr` ignores the control at the middle and at the end of the step
that `rk4_step` uses, so an integrated trajectory does not satisfy the residual. -/
theorem C10_rk4_refuted : ∃ (F : ℝ → ℝ → ℝ) (x u un h : ℝ),
    rk4Restr x (rk4Step x u un F h ((u + un) / 2)) u un F h ≠ 0 := by
  refine ⟨fun _ u => u, 0, 0, 6, 1, ?_⟩
  norm_num [rk4Restr, rk4Step]

/-! ### C16: control interpolation formulas -/

/-- C16, `interp_parab`: takes the three data values at `0`, `h/2`, `h` and reproduces every
parabola. -/
theorem C16_parab (h : ℝ) (hh : h ≠ 0) (y0 yc yn : V) :
    interpParab 0 h y0 yc yn = y0 ∧ interpParab (h / 2) h y0 yc yn = yc ∧
    interpParab h h y0 yc yn = yn ∧
    ∀ (A B C : V) (τ : ℝ), interpParab τ h A (A + (h / 2) • B + ((h / 2) ^ 2) • C)
      (A + h • B + (h ^ 2) • C) = A + τ • B + (τ ^ 2) • C := by
  refine ⟨?_, ?_, ?_, ?_⟩
  · simp [interpParab]
  · simp only [interpParab]; match_scalars <;> field_simp <;> ring
  · simp only [interpParab]; match_scalars <;> field_simp <;> ring
  · intro A B C τ
    simp only [interpParab]; match_scalars <;> field_simp <;> ring

/-- C16, `interp_parab_j`: same with the interior point at `2h/5`. -/
theorem C16_parab_j (h : ℝ) (hh : h ≠ 0) (y0 yc yn : V) :
    interpParabJ 0 h y0 yc yn = y0 ∧ interpParabJ (2 * h / 5) h y0 yc yn = yc ∧
    interpParabJ h h y0 yc yn = yn ∧
    ∀ (A B C : V) (τ : ℝ), interpParabJ τ h A (A + (2 * h / 5) • B + ((2 * h / 5) ^ 2) • C)
      (A + h • B + (h ^ 2) • C) = A + τ • B + (τ ^ 2) • C := by
  refine ⟨?_, ?_, ?_, ?_⟩
  · simp [interpParabJ]
  · simp only [interpParabJ]; match_scalars <;> field_simp <;> ring
  · simp only [interpParabJ]; match_scalars <;> field_simp <;> ring
  · intro A B C τ
    simp only [interpParabJ]; match_scalars <;> field_simp <;> ring

example : interpParab (V := ℝ) 1 2 0 1 4 = 1 := by norm_num [interpParab]

end Chords.Props
