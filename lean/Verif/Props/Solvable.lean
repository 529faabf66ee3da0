import Verif.Props.ConvOpt
import Verif.Lemmas.Interp
import Mathlib.Topology.MetricSpace.Contracting
import Mathlib.Topology.MetricSpace.Pseudo.Pi

/-! # C157: with short steps, the start and the controls determine one feasible point -/

namespace Chords.Conv
open Set Chords.Spec Chords.Props Chords.BuTd Chords.Equi Chords.Problem

variable {M : ℕ} {h L : ℝ} {s : Shape}

/-- The shapes of the schemes. -/
def Known (s : Shape) : Prop := s = .line ∨ s = .parab (1 / 2) ∨ s = .parab (2 / 5)

private theorem zero_tower (n : ℕ) : Tower (fun _ _ => (0 : ℝ)) n h := fun _ _ s _ => hasDerivWithinAt_const s _ (0 : ℝ)

/-- Two motions of a step with the same start. -/
theorem step_close (hs : Known s) (hh : 0 < h) (hh2 : h ≤ 1 / 2) {x x' : ℕ → ℝ} {a a' ac ac' an an' d : ℝ} {c c' : ℕ → ℝ → ℝ}
    (hc : StepMotion s M x a ac an h c) (hc' : StepMotion s M x' a' ac' an' h c') (hx : ∀ p < M, x p = x' p) (ha : a = a')
    (hac : |ac - ac'| ≤ d) (han : |an - an'| ≤ d) : ∀ p < M, ∀ τ ∈ Icc (0 : ℝ) h, |c p τ - c' p τ| ≤ 6 * h * d := by
  have hd : 0 ≤ d := (abs_nonneg _).trans hac
  subst ha
  have key : Motion c → Motion c' → (∀ p < M, c p 0 = c' p 0) → (∀ τ ∈ Icc (0 : ℝ) h, |c M τ - c' M τ| ≤ 3 * d) →
      ∀ p < M, ∀ τ ∈ Icc (0 : ℝ) h, |c p τ - c' p τ| ≤ 6 * h * d := by
    intro m m' h0 hE p hp τ hτ
    obtain ⟨g1, g2⟩ := tower_err (e := fun p τ => c p τ - c' p τ) (M := M) (δ := 0) (E := 3 * d)
      (fun k _ s _ => ((m k s).sub (m' k s)).hasDerivWithinAt) (fun p hp => by simp [h0 p hp]) hE hh.le hh2 le_rfl (by linarith)
    have := g2 p hp _ (fun s hs => g1 (p + 1) (by omega) s hs) τ hτ
    linarith
  have parab : ∀ {θ : ℝ}, θ = 1 / 2 ∨ θ = 2 / 5 → ParabolicMotion M x a ac an (θ * h) h c → ParabolicMotion M x' a ac' an' (θ * h) h c' →
      (Motion c → Motion c' → (∀ p < M, c p 0 = c' p 0) → (∀ τ ∈ Icc (0 : ℝ) h, |c M τ - c' M τ| ≤ 3 * d) →
        ∀ p < M, ∀ τ ∈ Icc (0 : ℝ) h, |c p τ - c' p τ| ≤ 6 * h * d) → ∀ p < M, ∀ τ ∈ Icc (0 : ℝ) h, |c p τ - c' p τ| ≤ 6 * h * d := by
    intro θ hθ hc hc' key
    obtain ⟨m, h0, ⟨b, e, hl⟩, hm, he⟩ := hc
    obtain ⟨m', h0', ⟨b', e', hl'⟩, hm', he'⟩ := hc'
    refine key m m' (fun p hp => by rw [h0 p hp, h0' p hp, hx p hp]) fun τ hτ => ?_
    have := parab_err (f := fun _ => 0) (ℓ := fun τ => c M τ - c' M τ) (D := fun _ _ => 0) (a := 0) (b := b - b') (d := e - e') (K := 0) hθ hh
      (zero_tower 3) rfl (by simp) (fun τ => by rw [hl, hl']; simp only [smul_eq_mul]; ring) τ hτ
    have e0 : c M 0 - c' M 0 = 0 := by rw [hl, hl']; simp
    simp only [sub_zero, zero_mul, e0, abs_zero, zero_add, he, he', hm, hm'] at this
    linarith
  rcases hs with rfl | rfl | rfl
  · obtain ⟨m, h0, ⟨b, hl⟩, he⟩ := hc
    obtain ⟨m', h0', ⟨b', hl'⟩, he'⟩ := hc'
    refine key m m' (fun p hp => by rw [h0 p hp, h0' p hp, hx p hp]) fun τ hτ => ?_
    have := line_err (f := fun _ => 0) (ℓ := fun τ => c M τ - c' M τ) (D := fun _ _ => 0) (a := 0) (b := b - b') (K := 0) hh (zero_tower 2) rfl (by simp)
      (fun τ => by rw [hl, hl']; simp only [smul_eq_mul]; ring) τ hτ
    have e0 : c M 0 - c' M 0 = 0 := by rw [hl, hl']; simp
    simp only [sub_zero, zero_mul, e0, abs_zero, zero_add, he, he'] at this
    linarith
  · exact parab (.inl rfl) hc hc' key
  · exact parab (.inr rfl) hc hc' key

/-- One step from `x` with highest derivatives `a`: the state at the end and the one at the inner point have the highest derivatives that the dynamics
give them. -/
structure StepTo {ι : Type} (s : Shape) (M : ℕ) (h : ℝ) (B Bc : (ℕ → ι → ℝ) → ι → ℝ) (x : ℕ → ι → ℝ) (a : ι → ℝ) (xn xc : ℕ → ι → ℝ) (ac : ι → ℝ) : Prop where
  reached : ∀ j, Reached s M (fun p => x p j) (fun p => xn p j) (fun p => xc p j) (a j) (B xn j) (ac j) h
  centre : ∀ θ, s = .parab θ → ∀ j, ac j = Bc xc j

/-- The fraction of the step at which the inner point is. -/
noncomputable def Shape.inner : Shape → ℝ
  | .line => 0
  | .parab θ => θ

theorem step_exists {ι : Type} [Fintype ι] (hs : Known s) (hex : ∀ x a ac an, ∃ c, StepMotion s M x a ac an h c) (hh : 0 < h) (hL0 : 0 ≤ L) (hhL : h * (2 + 20 * L) ≤ 1 / 2)
    {B Bc : (ℕ → ι → ℝ) → ι → ℝ} (hB : ∀ ξ η d, Within M ξ η d → ∀ j, |B ξ j - B η j| ≤ L * d) (hBc : ∀ ξ η d, Within M ξ η d → ∀ j, |Bc ξ j - Bc η j| ≤ L * d)
    (x : ℕ → ι → ℝ) (a : ι → ℝ) : ∃ xn xc ac, StepTo s M h B Bc x a xn xc ac := by
  have hin : Shape.inner s * h ∈ Icc (0 : ℝ) h := by
    rcases hs with rfl | rfl | rfl <;> simp only [Shape.inner] <;> constructor <;> nlinarith
  have hhL' : 6 * h * L ≤ 1 / 2 := by nlinarith [mul_nonneg hh.le hL0]
  have hh2 : h ≤ 1 / 2 := by nlinarith [mul_nonneg hh.le hL0]
  choose C hC using fun (e : ι × Bool → ℝ) j => hex (fun p => x p j) (a j) (e (j, false)) (e (j, true))
  let Φ : (ι × Bool → ℝ) → ι × Bool → ℝ := fun e k => if k.2 then B (fun p j => C e j p h) k.1 else Bc (fun p j => C e j p (Shape.inner s * h)) k.1
  have hΦ : ContractingWith (1 / 2) Φ := by
    refine ⟨by norm_num, LipschitzWith.of_dist_le_mul fun e e' => ?_⟩
    rw [dist_pi_le_iff (by positivity)]
    have hd : ∀ k, |e k - e' k| ≤ dist e e' := fun k => by rw [← Real.dist_eq]; exact dist_le_pi_dist e e' k
    have hw : ∀ τ ∈ Icc (0 : ℝ) h, Within M (fun p j => C e j p τ) (fun p j => C e' j p τ) (6 * h * dist e e') := fun τ hτ p hp j =>
      step_close hs hh hh2 (hC e j) (hC e' j) (fun _ _ => rfl) rfl (hd _) (hd _) p hp τ hτ
    rintro ⟨j, b⟩
    rw [Real.dist_eq]
    have e1 : L * (6 * h * dist e e') ≤ ((1 / 2 : NNReal) : ℝ) * dist e e' := by
      push_cast
      nlinarith [dist_nonneg (x := e) (y := e')]
    cases b
    · exact (hBc _ _ _ (hw _ hin) j).trans e1
    · exact (hB _ _ _ (hw _ ⟨hh.le, le_rfl⟩) j).trans e1
  obtain ⟨e, he⟩ : ∃ e, Φ e = e := ⟨_, hΦ.fixedPoint_isFixedPt⟩
  refine ⟨fun p j => C e j p h, fun p j => C e j p (Shape.inner s * h), fun j => e (j, false), fun j => ⟨C e j, ?_, fun _ _ => rfl, fun θ hθ _ _ => by subst hθ; rfl⟩, fun θ hθ j => ?_⟩
  · have := congrFun he (j, true)
    simp only [Φ, if_true] at this
    rw [this]
    exact hC e j
  · have := congrFun he (j, false)
    simp only [Φ, Bool.false_eq_true, if_false] at this
    exact this.symm

private theorem half_zero {d : ℝ} (h0 : 0 ≤ d) (h1 : d ≤ 1 / 2 * d) : d = 0 := by linarith

theorem step_unique {ι : Type} [Fintype ι] (hs : Known s) (hh : 0 < h) (hL0 : 0 ≤ L) (hhL : h * (2 + 20 * L) ≤ 1 / 2)
    {B Bc : (ℕ → ι → ℝ) → ι → ℝ} (hB : ∀ ξ η d, Within M ξ η d → ∀ j, |B ξ j - B η j| ≤ L * d) (hBc : ∀ ξ η d, Within M ξ η d → ∀ j, |Bc ξ j - Bc η j| ≤ L * d)
    {x x' xn xn' xc xc' : ℕ → ι → ℝ} {a a' ac ac' : ι → ℝ} (h1 : StepTo s M h B Bc x a xn xc ac) (h2 : StepTo s M h B Bc x' a' xn' xc' ac')
    (hx : ∀ p < M, ∀ j, x p j = x' p j) (ha : a = a') :
    (∀ p < M, ∀ j, xn p j = xn' p j) ∧ ∀ θ, s = .parab θ → (∀ p < M, ∀ j, xc p j = xc' p j) ∧ ac = ac' := by
  subst ha
  have hin : Shape.inner s * h ∈ Icc (0 : ℝ) h := by
    rcases hs with rfl | rfl | rfl <;> simp only [Shape.inner] <;> constructor <;> nlinarith
  have hhL' : 6 * h * L ≤ 1 / 2 := by nlinarith [mul_nonneg hh.le hL0]
  have hh2 : h ≤ 1 / 2 := by nlinarith [mul_nonneg hh.le hL0]
  obtain ⟨g, hg⟩ : ∃ g : (ι → ℝ) → ι → ℝ, g = fun ac j => match s with | .line => 0 | .parab _ => ac j := ⟨_, rfl⟩
  have hgp : ∀ ac j, s = .line ∨ ac j = g ac j := by
    intro ac j
    rw [hg]
    cases s
    · exact .inl rfl
    · exact .inr rfl
  let e : (ℕ → ι → ℝ) → (ι → ℝ) → ι × Bool → ℝ := fun xn ac k => if k.2 then B xn k.1 else g ac k.1
  choose c c1 c2 c3 using h1.reached
  choose c' c1' c2' c3' using h2.reached
  obtain ⟨d, hd⟩ : ∃ d, d = dist (e xn ac) (e xn' ac') := ⟨_, rfl⟩
  have hd0 : 0 ≤ d := hd ▸ dist_nonneg
  have hle : ∀ k, |e xn ac k - e xn' ac' k| ≤ d := fun k => by rw [← Real.dist_eq, hd]; exact dist_le_pi_dist _ _ k
  have close : ∀ τ ∈ Icc (0 : ℝ) h, Within M (fun p j => c j p τ) (fun p j => c' j p τ) (6 * h * d) := fun τ hτ p hp j => by
    have k1 : StepMotion s M (fun p => x p j) (a j) (g ac j) (B xn j) h (c j) := by
      rcases hgp ac j with rfl | h
      · exact c1 j
      · exact h ▸ c1 j
    have k2 : StepMotion s M (fun p => x' p j) (a j) (g ac' j) (B xn' j) h (c' j) := by
      rcases hgp ac' j with rfl | h
      · exact c1' j
      · exact h ▸ c1' j
    exact step_close hs hh hh2 k1 k2 (fun p hp => hx p hp j) rfl (by simpa [e] using hle (j, false)) (by simpa [e] using hle (j, true)) p hp τ hτ
  have hn : Within M xn xn' (6 * h * d) := fun p hp j => by
    rw [show xn p j = c j p h from (c2 j p hp).symm, show xn' p j = c' j p h from (c2' j p hp).symm]
    exact close h ⟨hh.le, le_rfl⟩ p hp j
  have hc : ∀ θ, s = .parab θ → Within M xc xc' (6 * h * d) := fun θ hθ p hp j => by
    rw [show xc p j = c j p (θ * h) from (c3 j θ hθ p hp).symm, show xc' p j = c' j p (θ * h) from (c3' j θ hθ p hp).symm]
    refine close _ ?_ p hp j
    subst hθ
    exact hin
  have hLd : L * (6 * h * d) ≤ 1 / 2 * d := by nlinarith
  have hzero : d = 0 := by
    refine half_zero hd0 ?_
    rw [hd, dist_pi_le_iff (by positivity), ← hd]
    rintro ⟨j, b⟩
    rw [Real.dist_eq]
    cases b
    · have : |g ac j - g ac' j| ≤ 1 / 2 * d := by
        rw [hg]
        cases s with
        | line => simpa using by positivity
        | parab θ =>
          dsimp only
          rw [h1.centre θ rfl, h2.centre θ rfl]
          exact (hBc _ _ _ (hc θ rfl) j).trans hLd
      simpa [e] using this
    · simpa [e] using (hB _ _ _ hn j).trans hLd
  subst hzero
  have z : ∀ {u v : ℝ}, |u - v| ≤ 6 * h * 0 → u = v := fun {u v} h => by
    rw [mul_zero] at h
    exact sub_eq_zero.1 (abs_nonpos_iff.1 h)
  refine ⟨fun p hp j => z (hn p hp j), fun θ hθ => ⟨fun p hp j => z (hc θ hθ p hp j), funext fun j => ?_⟩⟩
  rw [h1.centre θ hθ, h2.centre θ hθ]
  have := hBc _ _ _ (hc θ hθ) j
  rw [mul_zero, mul_zero] at this
  exact sub_eq_zero.1 (abs_nonpos_iff.1 this)

/-- A trajectory of steps from any start. -/
theorem steps_exist {ι : Type} [Fintype ι] (hs : Known s) (hex : ∀ x a ac an, ∃ c, StepMotion s M x a ac an h c) (hh : 0 < h) (hL0 : 0 ≤ L) (hhL : h * (2 + 20 * L) ≤ 1 / 2)
    {B Bc : ℕ → (ℕ → ι → ℝ) → ι → ℝ} (hB : ∀ i ξ η d, Within M ξ η d → ∀ j, |B i ξ j - B i η j| ≤ L * d)
    (hBc : ∀ i ξ η d, Within M ξ η d → ∀ j, |Bc i ξ j - Bc i η j| ≤ L * d) (x0 : ℕ → ι → ℝ) :
    ∃ (X Xc : ℕ → ℕ → ι → ℝ) (Ac : ℕ → ι → ℝ), X 0 = x0 ∧ ∀ i, StepTo s M h (B (i + 1)) (Bc i) (X i) (B i (X i)) (X (i + 1)) (Xc i) (Ac i) := by
  choose f g k hf using fun i x => step_exists hs hex hh hL0 hhL (hB (i + 1)) (hBc i) x (B i x)
  let X : ℕ → ℕ → ι → ℝ := fun i => Nat.rec x0 (fun i x => f i x) i
  exact ⟨X, fun i => g i (X i), fun i => k i (X i), rfl, fun i => hf i (X i)⟩

/-- The dynamics function gives the highest derivatives, and the rates of the levels below are the next levels. -/
def Solved (F : Dyn) (M n_q : ℕ) (A : (ℕ → ℕ → ℝ) → (ℕ → ℝ) → ℕ → ℝ) : Prop :=
  ∀ x xd u lam, zero (F x xd u lam) ↔ (∀ p, p + 1 < M → ∀ j < n_q, xd (n_q * p + j) = x (n_q * (p + 1) + j)) ∧
    ∀ j < n_q, xd (n_q * (M - 1) + j) = A (fun p j => x (n_q * p + j)) u j

/-- The start and the controls that are given. -/
structure Chosen (order n_q n_u N : ℕ) (x0 u uc : ℕ → ℕ → ℝ) (v c : Vars) : Prop where
  start : ∀ p < order, ∀ j < n_q, v.lev order n_q p 0 j = x0 p j
  controls : ∀ i ≤ N, ∀ m < n_u, v.u i m = u i m
  centres : ∀ i < N, ∀ m < n_u, c.u i m = uc i m

/-- Variables with given levels. -/
def ofLevels (n_q : ℕ) (Y : ℕ → ℕ → ℕ → ℝ) (u : ℕ → ℕ → ℝ) : Vars :=
  ⟨fun i k => Y i (k / n_q) (k % n_q), fun i k => Y i (k / n_q + 1) (k % n_q), u, fun _ _ => 0⟩

private theorem col_div {n_q p j : ℕ} (hj : j < n_q) : (n_q * p + j) / n_q = p ∧ (n_q * p + j) % n_q = j := by
  have hq : 0 < n_q := by omega
  rw [Nat.mul_add_div hq, Nat.div_eq_of_lt hj, add_zero, Nat.mul_add_mod, Nat.mod_eq_of_lt hj]
  exact ⟨rfl, rfl⟩

theorem ofLevels_lev {n_q order p i j : ℕ} {Y : ℕ → ℕ → ℕ → ℝ} {u : ℕ → ℕ → ℝ} (ho : 0 < order) (hp : p ≤ order) (hj : j < n_q) :
    (ofLevels n_q Y u).lev order n_q p i j = Y i p j := by
  unfold Vars.lev
  split
  · simp only [ofLevels, (col_div hj).1, (col_div hj).2]
  · simp only [ofLevels, (col_div hj).1, (col_div hj).2]
    rw [show order - 1 + 1 = p by omega]

/-- The highest derivatives depend on the levels and the controls only. -/
theorem lip_congr {A : (ℕ → ℕ → ℝ) → (ℕ → ℝ) → ℕ → ℝ} {order n_q n_u : ℕ} (hL : LipA A (fun _ => True) order n_q n_u L) {ξ η : ℕ → ℕ → ℝ} {u w : ℕ → ℝ}
    (h1 : ∀ p < order, ∀ j < n_q, ξ p j = η p j) (h2 : ∀ m < n_u, u m = w m) {j : ℕ} (hj : j < n_q) : A ξ u j = A η w j := by
  have := hL ξ η u w 0 trivial trivial (fun p hp j hj => by rw [h1 p hp j hj, sub_self, abs_zero]) h2 j hj
  rw [mul_zero] at this
  exact sub_eq_zero.1 (abs_nonpos_iff.1 this)

theorem ofLevels_zero {F : Dyn} {A : (ℕ → ℕ → ℝ) → (ℕ → ℝ) → ℕ → ℝ} {order n_q n_u : ℕ} (ho : 0 < order) (hF : Solved F order n_q A)
    (hL : LipA A (fun _ => True) order n_q n_u L) {Y : ℕ → ℕ → ℕ → ℝ} {u : ℕ → ℕ → ℝ} {i : ℕ} (hY : ∀ j < n_q, Y i order j = A (Y i) (u i) j) :
    zero (F ((ofLevels n_q Y u).x i) ((ofLevels n_q Y u).xd i) ((ofLevels n_q Y u).u i) ((ofLevels n_q Y u).lam i)) := by
  rw [hF]
  refine ⟨fun p hp j hj => ?_, fun j hj => ?_⟩
  · simp only [ofLevels, (col_div hj).1, (col_div hj).2]
  · simp only [ofLevels, (col_div hj).1, (col_div hj).2]
    rw [show order - 1 + 1 = order by omega, hY j hj]
    exact lip_congr hL (fun p hp j hj => by rw [(col_div hj).1, (col_div hj).2]) (fun _ _ => rfl) hj

/-- A function of the coordinates, with zeros after the last one. -/
noncomputable def ext {n_q : ℕ} (ξ : ℕ → Fin n_q → ℝ) (p j : ℕ) : ℝ := if h : j < n_q then ξ p ⟨j, h⟩ else 0

theorem ext_eq {n_q p j : ℕ} (ξ : ℕ → Fin n_q → ℝ) (hj : j < n_q) : ext ξ p j = ξ p ⟨j, hj⟩ := by rw [ext, dif_pos hj]

theorem known_of {o : Option ℕ} {scheme : String} (hs : SchemeIs o scheme s M) : Known s := by
  unfold Known
  cases hs <;> simp

section
variable {F : Dyn} {scheme : String} {order N n_q n_u : ℕ} {t_start t_end : ℝ} {A : (ℕ → ℕ → ℝ) → (ℕ → ℝ) → ℕ → ℝ}

theorem reached_congr {x x' xn xn' xc xc' : ℕ → ℝ} {a an ac : ℝ} (h1 : ∀ p < M, x p = x' p) (h2 : ∀ p < M, xn p = xn' p) (h3 : ∀ p < M, xc p = xc' p)
    (hr : Reached s M x xn xc a an ac h) : Reached s M x' xn' xc' a an ac h := by
  obtain ⟨c, c1, c2, c3⟩ := hr
  refine ⟨c, ?_, fun p hp => (c2 p hp).trans (h2 p hp), fun θ hθ p hp => (c3 θ hθ p hp).trans (h3 p hp)⟩
  cases s with
  | line => exact ⟨c1.motion, fun p hp => (c1.start p hp).trans (h1 p hp), c1.top_line, c1.top_end⟩
  | parab θ => exact ⟨c1.motion, fun p hp => (c1.start p hp).trans (h1 p hp), c1.top_parabola, c1.top_mid, c1.top_end⟩

/-- C157 for the schemes of the order of the problem. -/
theorem C157_motion (hs : SchemeIs (some order) scheme s order) (ho : 0 < order) (hN : 0 < N) (hT : t_start < t_end) (hF : Solved F order n_q A) (hL0 : 0 ≤ L)
    (hL : LipA A (fun _ => True) order n_q n_u L) (hh : h = (t_end - t_start) / N) (hhL : h * (2 + 20 * L) ≤ 1 / 2) :
    ∃ P, equiConstraints F scheme N order n_q n_u t_start t_end = .ok P ∧ ∀ x0 u uc : ℕ → ℕ → ℝ,
      (∀ θ, s = .parab θ → LinearControl scheme → ∀ i < N, ∀ m < n_u, uc i m = (1 - θ) * u i m + θ * u (i + 1) m) →
      (∃ v c, P v c ∧ Chosen order n_q n_u N x0 u uc v c) ∧
      ∀ v c v' c', P v c → P v' c' → Chosen order n_q n_u N x0 u uc v c → Chosen order n_q n_u N x0 u uc v' c' →
        (∀ i ≤ N, ∀ p ≤ order, ∀ j < n_q, v.lev order n_q p i j = v'.lev order n_q p i j) ∧
        ∀ θ, s = .parab θ → ∀ i < N, ∀ p ≤ order, ∀ j < n_q, c.lev order n_q p i j = c'.lev order n_q p i j := by
  obtain ⟨P, hP, hv⟩ := C91_motion F hs N n_q n_u hN hT.ne
  have hpos : 0 < h := by rw [hh]; have : (0 : ℝ) < N := by exact_mod_cast hN
                          exact div_pos (by linarith) this
  rw [← hh] at hv
  have hex := fun x a ac an => Chords.Interp.stepMotion_exists hs x a ac an h hpos
  have hlip : ∀ (w : ℕ → ℝ) (ξ η : ℕ → Fin n_q → ℝ) d, Within order ξ η d → ∀ j : Fin n_q, |A (ext ξ) w j - A (ext η) w j| ≤ L * d := fun w ξ η d hw j =>
    hL _ _ _ _ d trivial trivial (fun p hp j hj => by rw [ext_eq _ hj, ext_eq _ hj]; exact hw p hp _) (fun _ _ => rfl) j j.2
  refine ⟨P, hP, fun x0 u uc huc => ⟨?_, ?_⟩⟩
  · obtain ⟨X, Xc, Ac, hX, hst⟩ := steps_exist (B := fun i ξ (j : Fin n_q) => A (ext ξ) (u i) j) (Bc := fun i ξ (j : Fin n_q) => A (ext ξ) (uc i) j)
      (known_of hs) hex hpos hL0 hhL (fun i => hlip (u i)) (fun i => hlip (uc i)) (fun p j => x0 p j)
    obtain ⟨Y, hY⟩ : ∃ Y : ℕ → ℕ → ℕ → ℝ, Y = fun i p j => if p < order then ext (X i) p j else A (ext (X i)) (u i) j := ⟨_, rfl⟩
    obtain ⟨Yc, hYc⟩ : ∃ Yc : ℕ → ℕ → ℕ → ℝ, Yc = fun i p j => if p < order then ext (Xc i) p j else if hj : j < n_q then Ac i ⟨j, hj⟩ else 0 := ⟨_, rfl⟩
    have hYl : ∀ i, ∀ p < order, ∀ j (hj : j < n_q), Y i p j = X i p ⟨j, hj⟩ := fun i p hp j hj => by rw [hY]; simp only [hp, if_true]; exact ext_eq _ hj
    have hYcl : ∀ i, ∀ p < order, ∀ j (hj : j < n_q), Yc i p j = Xc i p ⟨j, hj⟩ := fun i p hp j hj => by rw [hYc]; simp only [hp, if_true]; exact ext_eq _ hj
    have hYt : ∀ i, ∀ j, Y i order j = A (ext (X i)) (u i) j := fun i j => by rw [hY]; simp only [lt_irrefl, if_false]
    have hYct : ∀ i, ∀ j (hj : j < n_q), Yc i order j = Ac i ⟨j, hj⟩ := fun i j hj => by rw [hYc]; simp only [lt_irrefl, if_false, hj, dif_pos]
    refine ⟨ofLevels n_q Y u, ofLevels n_q Yc uc, ?_, ⟨fun p hp j hj => ?_, fun _ _ _ _ => rfl, fun _ _ _ _ => rfl⟩⟩
    · rw [hv]
      refine ⟨fun i hi j hj => ?_, fun i hi => ?_, fun θ hθ => ⟨fun i hi => ?_, fun hl i hi m hm => huc θ hθ hl i hi m hm⟩⟩
      · rw [ofLevels_lev ho le_rfl hj, ofLevels_lev ho le_rfl hj, ofLevels_lev ho le_rfl hj, hYt, hYt, hYct i j hj]
        refine reached_congr (fun p hp => ?_) (fun p hp => ?_) (fun p hp => ?_) ((hst i).reached ⟨j, hj⟩)
        · rw [ofLevels_lev ho hp.le hj, hYl i p hp j hj]
        · rw [ofLevels_lev ho hp.le hj, hYl (i + 1) p hp j hj]
        · rw [ofLevels_lev ho hp.le hj, hYcl i p hp j hj]
      · refine ofLevels_zero ho hF hL fun j hj => ?_
        rw [hYt]
        exact lip_congr hL (fun p hp j hj => by rw [hYl i p hp j hj, ext_eq _ hj]) (fun _ _ => rfl) hj
      · refine ofLevels_zero ho hF hL fun j hj => ?_
        rw [hYct i j hj, (hst i).centre θ hθ]
        exact lip_congr hL (fun p hp j hj => by rw [hYcl i p hp j hj, ext_eq _ hj]) (fun _ _ => rfl) hj
    · rw [ofLevels_lev ho hp.le hj, hYl 0 p hp j hj, hX]
  · intro v c v' c' h1 h2 k1 k2
    rw [hv] at h1 h2
    have top : ∀ {V : Vars} {i : ℕ} {w : ℕ → ℝ}, zero (F (V.x i) (V.xd i) (V.u i) (V.lam i)) → (∀ m < n_u, V.u i m = w m) → ∀ j (hj : j < n_q),
        V.lev order n_q order i j = A (ext fun p (j : Fin n_q) => V.lev order n_q p i j) w j := by
      intro V i w hz hu j hj
      rw [Vars.lev, if_neg (lt_irrefl _), ((hF _ _ _ _).1 hz).2 j hj]
      exact lip_congr hL (fun p hp j hj => by rw [ext_eq _ hj, Vars.lev, if_pos hp]) hu hj
    have hstep : ∀ {v c : Vars}, Chosen order n_q n_u N x0 u uc v c → ((∀ i < N, ∀ j < n_q, Reached s order (fun p => v.lev order n_q p i j) (fun p => v.lev order n_q p (i + 1) j)
        (fun p => c.lev order n_q p i j) (v.lev order n_q order i j) (v.lev order n_q order (i + 1) j) (c.lev order n_q order i j) h) ∧
        (∀ i ≤ N, zero (F (v.x i) (v.xd i) (v.u i) (v.lam i))) ∧ ∀ θ, s = .parab θ → (∀ i < N, zero (F (c.x i) (c.xd i) (c.u i) (c.lam i))) ∧
        (LinearControl scheme → ∀ i < N, ∀ m < n_u, c.u i m = (1 - θ) * v.u i m + θ * v.u (i + 1) m)) → ∀ i < N,
        StepTo s order h (fun ξ (j : Fin n_q) => A (ext ξ) (u (i + 1)) j) (fun ξ (j : Fin n_q) => A (ext ξ) (uc i) j) (fun p j => v.lev order n_q p i j)
          (fun j => v.lev order n_q order i j) (fun p j => v.lev order n_q p (i + 1) j) (fun p j => c.lev order n_q p i j) (fun j => c.lev order n_q order i j) := by
      intro v c k g i hi
      refine ⟨fun j => ?_, fun θ hθ j => top ((g.2.2 θ hθ).1 i hi) (k.centres i hi) j j.2⟩
      have := g.1 i hi j j.2
      rwa [top (g.2.1 (i + 1) hi) (k.controls (i + 1) hi) j j.2] at this
    have htop : ∀ i ≤ N, (∀ p < order, ∀ j < n_q, v.lev order n_q p i j = v'.lev order n_q p i j) → ∀ j < n_q, v.lev order n_q order i j = v'.lev order n_q order i j := by
      intro i hi h j hj
      rw [top (h1.2.1 i hi) (k1.controls i hi) j hj, top (h2.2.1 i hi) (k2.controls i hi) j hj]
      exact lip_congr hL (fun p hp j hj => by rw [ext_eq _ hj, ext_eq _ hj]; exact h p hp j hj) (fun _ _ => rfl) hj
    have hun := fun i (hi : i < N) (h : ∀ p < order, ∀ j < n_q, v.lev order n_q p i j = v'.lev order n_q p i j) =>
      step_unique (known_of hs) hpos hL0 hhL (hlip _) (hlip _) (hstep k1 h1 i hi) (hstep k2 h2 i hi) (fun p hp j => h p hp j j.2)
        (funext fun j => htop i hi.le h j j.2)
    have hlow : ∀ i ≤ N, ∀ p < order, ∀ j < n_q, v.lev order n_q p i j = v'.lev order n_q p i j := by
      intro i
      induction i with
      | zero => exact fun _ p hp j hj => (k1.start p hp j hj).trans (k2.start p hp j hj).symm
      | succ i ih => exact fun hi p hp j hj => (hun i hi (ih (by omega))).1 p hp ⟨j, hj⟩
    refine ⟨fun i hi p hp j hj => ?_, fun θ hθ i hi p hp j hj => ?_⟩
    · obtain hp | rfl := hp.lt_or_eq
      · exact hlow i hi p hp j hj
      · exact htop i hi (hlow i hi) j hj
    · obtain ⟨g1, g2⟩ := (hun i hi (hlow i hi.le)).2 θ hθ
      obtain hp | rfl := hp.lt_or_eq
      · exact g1 p hp ⟨j, hj⟩
      · exact congrFun g2 ⟨j, hj⟩

/-- A function of the levels and coordinates, with zeros elsewhere. -/
noncomputable def extL {order n_q : ℕ} (ξ : ℕ → Fin order × Fin n_q → ℝ) (p j : ℕ) : ℝ :=
  if hp : p < order then if hj : j < n_q then ξ 0 (⟨p, hp⟩, ⟨j, hj⟩) else 0 else 0

theorem extL_eq {order n_q p j : ℕ} (ξ : ℕ → Fin order × Fin n_q → ℝ) (hp : p < order) (hj : j < n_q) : extL ξ p j = ξ 0 (⟨p, hp⟩, ⟨j, hj⟩) := by
  rw [extL, dif_pos hp, dif_pos hj]

/-- The rates of the levels. -/
noncomputable def rates (A : (ℕ → ℕ → ℝ) → (ℕ → ℝ) → ℕ → ℝ) (w : ℕ → ℝ) (ξ : ℕ → Fin order × Fin n_q → ℝ) (k : Fin order × Fin n_q) : ℝ :=
  if k.1 + 1 < order then extL ξ (k.1 + 1) k.2 else A (extL ξ) w k.2

theorem rates_lip (hL1 : 1 ≤ L) (hL : LipA A (fun _ => True) order n_q n_u L) (w : ℕ → ℝ) (ξ η : ℕ → Fin order × Fin n_q → ℝ) (d : ℝ) (hw : Within 1 ξ η d)
    (k : Fin order × Fin n_q) : |rates A w ξ k - rates A w η k| ≤ L * d := by
  have hd : 0 ≤ d := (abs_nonneg _).trans (hw 0 one_pos k)
  unfold rates
  split
  · rename_i hk
    rw [extL_eq _ hk k.2.2, extL_eq _ hk k.2.2]
    exact (hw 0 one_pos _).trans (le_mul_of_one_le_left hd hL1)
  · exact hL _ _ _ _ d trivial trivial (fun p hp j hj => by rw [extL_eq _ hp hj, extL_eq _ hp hj]; exact hw 0 one_pos _) (fun _ _ => rfl) _ k.2.2

/-- C157 for the schemes of first order, for problems of any order. -/
theorem C157_levels (hs : scheme = "trapz" ∧ s = .line ∨ (scheme = "hs" ∨ scheme = "hs_parab") ∧ s = .parab (1 / 2)) (ho : 0 < order) (hN : 0 < N) (hT : t_start < t_end)
    (hF : Solved F order n_q A) (hL1 : 1 ≤ L) (hL : LipA A (fun _ => True) order n_q n_u L) (hh : h = (t_end - t_start) / N) (hhL : h * (2 + 20 * L) ≤ 1 / 2) :
    ∃ P, equiConstraints F scheme N order n_q n_u t_start t_end = .ok P ∧ ∀ x0 u uc : ℕ → ℕ → ℝ,
      (scheme = "hs" → ∀ i < N, ∀ m < n_u, uc i m = (u i m + u (i + 1) m) / 2) →
      (∃ v c, P v c ∧ Chosen order n_q n_u N x0 u uc v c) ∧
      ∀ v c v' c', P v c → P v' c' → Chosen order n_q n_u N x0 u uc v c → Chosen order n_q n_u N x0 u uc v' c' →
        (∀ i ≤ N, ∀ p ≤ order, ∀ j < n_q, v.lev order n_q p i j = v'.lev order n_q p i j) ∧
        (s ≠ .line → ∀ i < N, ∀ p ≤ order, ∀ j < n_q, c.lev order n_q p i j = c'.lev order n_q p i j) := by
  obtain ⟨P, hP, hv⟩ := C91_levels F hs N order n_q n_u hN hT.ne
  have hpos : 0 < h := by rw [hh]; have : (0 : ℝ) < N := by exact_mod_cast hN
                          exact div_pos (by linarith) this
  rw [← hh] at hv
  have hs1 : SchemeIs none scheme s 1 := by
    obtain ⟨rfl, rfl⟩ | ⟨rfl | rfl, rfl⟩ := hs
    · exact .trapz
    · exact .hs
    · exact .hs_parab
  have hsp : s ≠ .line → ∃ θ, s = .parab θ := by
    cases s with
    | line => exact fun h => absurd rfl h
    | parab θ => exact fun _ => ⟨θ, rfl⟩
  have hex := fun x a ac an => Chords.Interp.stepMotion_exists hs1 x a ac an h hpos
  have hL0 : 0 ≤ L := by linarith
  have hlip := rates_lip (order := order) (n_q := n_q) hL1 hL
  refine ⟨P, hP, fun x0 u uc huc => ⟨?_, ?_⟩⟩
  · obtain ⟨X, Xc, Ac, hX, hst⟩ := steps_exist (B := fun i => rates (order := order) (n_q := n_q) A (u i)) (Bc := fun i => rates A (uc i))
      (known_of hs1) hex hpos hL0 hhL (fun i => hlip (u i)) (fun i => hlip (uc i)) (fun _ k => x0 k.1 k.2)
    obtain ⟨W, hW⟩ : ∃ W : (ℕ → Fin order × Fin n_q → ℝ) → (ℕ → ℝ) → ℕ → ℕ → ℝ, W = fun ξ w p j => if p < order then extL ξ p j else A (extL ξ) w j := ⟨_, rfl⟩
    have hWl : ∀ ξ w, ∀ p (hp : p < order), ∀ j (hj : j < n_q), W ξ w p j = ξ 0 (⟨p, hp⟩, ⟨j, hj⟩) := fun ξ w p hp j hj => by
      rw [hW]; simp only [hp, if_true]; exact extL_eq _ hp hj
    have hWr : ∀ ξ w, ∀ p (hp : p < order), ∀ j (hj : j < n_q), W ξ w (p + 1) j = rates A w ξ (⟨p, hp⟩, ⟨j, hj⟩) := fun ξ w p hp j hj => by
      rw [hW]; rfl
    have hWt : ∀ ξ w, ∀ j < n_q, W ξ w order j = A (W ξ w) w j := fun ξ w j hj => by
      have : W ξ w order j = A (extL ξ) w j := by rw [hW]; simp only [lt_irrefl, if_false]
      rw [this]
      exact lip_congr hL (fun p hp j hj => by rw [hWl ξ w p hp j hj, extL_eq _ hp hj]) (fun _ _ => rfl) hj
    refine ⟨ofLevels n_q (fun i => W (X i) (u i)) u, ofLevels n_q (fun i => W (Xc i) (uc i)) uc, ?_, ⟨fun p hp j hj => ?_, fun _ _ _ _ => rfl, fun _ _ _ _ => rfl⟩⟩
    · rw [hv]
      refine ⟨fun i hi j hj p hp => ?_, fun i hi => ofLevels_zero ho hF hL (hWt _ _), fun hs' => ⟨fun i hi => ofLevels_zero ho hF hL (hWt _ _), fun hl i hi m hm => huc hl i hi m hm⟩⟩
      rw [ofLevels_lev ho hp.le hj, ofLevels_lev ho hp.le hj, ofLevels_lev ho hp.le hj, ofLevels_lev ho (show p + 1 ≤ order from hp) hj, ofLevels_lev ho (show p + 1 ≤ order from hp) hj,
        ofLevels_lev ho (show p + 1 ≤ order from hp) hj]
      have hr := reached_congr (M := 1) (x' := fun _ => W (X i) (u i) p j) (xn' := fun _ => W (X (i + 1)) (u (i + 1)) p j) (xc' := fun _ => W (Xc i) (uc i) p j)
        (fun q hq => by obtain rfl : q = 0 := by omega
                        exact (hWl _ _ p hp j hj).symm)
        (fun q hq => by obtain rfl : q = 0 := by omega
                        exact (hWl _ _ p hp j hj).symm)
        (fun q hq => by obtain rfl : q = 0 := by omega
                        exact (hWl _ _ p hp j hj).symm) ((hst i).reached (⟨p, hp⟩, ⟨j, hj⟩))
      rw [hWr _ _ p hp j hj, hWr _ _ p hp j hj]
      by_cases hl : s = .line
      · subst hl
        exact hr
      · obtain ⟨θ, hθ⟩ := hsp hl
        rw [hWr _ _ p hp j hj, ← (hst i).centre θ hθ]
        exact hr
    · rw [ofLevels_lev ho hp.le hj, hWl _ _ p hp j hj, hX]
  · intro v c v' c' h1 h2 k1 k2
    rw [hv] at h1 h2
    have top : ∀ {V : Vars} {i : ℕ} {w : ℕ → ℝ}, zero (F (V.x i) (V.xd i) (V.u i) (V.lam i)) → (∀ m < n_u, V.u i m = w m) → ∀ k : Fin order × Fin n_q,
        V.lev order n_q (k.1 + 1) i k.2 = rates A w (fun _ k => V.lev order n_q k.1 i k.2) k := by
      intro V i w hz hu k
      unfold rates
      split
      · rename_i hk
        rw [extL_eq _ hk k.2.2]
      · rename_i hk
        rw [show (k.1 : ℕ) + 1 = order by have := k.1.2; omega, Vars.lev, if_neg (lt_irrefl _), ((hF _ _ _ _).1 hz).2 _ k.2.2]
        exact lip_congr hL (fun p hp j hj => by rw [extL_eq _ hp hj, Vars.lev, if_pos hp]) hu k.2.2
    have hstep : ∀ {v c : Vars}, Chosen order n_q n_u N x0 u uc v c → ((∀ i < N, ∀ j < n_q, ∀ p < order, Reached s 1 (fun _ => v.lev order n_q p i j)
        (fun _ => v.lev order n_q p (i + 1) j) (fun _ => c.lev order n_q p i j) (v.lev order n_q (p + 1) i j)
        (v.lev order n_q (p + 1) (i + 1) j) (c.lev order n_q (p + 1) i j) h) ∧
        (∀ i ≤ N, zero (F (v.x i) (v.xd i) (v.u i) (v.lam i))) ∧ (s ≠ .line → (∀ i < N, zero (F (c.x i) (c.xd i) (c.u i) (c.lam i))) ∧
        (scheme = "hs" → ∀ i < N, ∀ m < n_u, c.u i m = (v.u i m + v.u (i + 1) m) / 2))) → ∀ i < N,
        StepTo s 1 h (rates A (u (i + 1))) (rates A (uc i)) (fun _ (k : Fin order × Fin n_q) => v.lev order n_q k.1 i k.2)
          (fun k => v.lev order n_q (k.1 + 1) i k.2) (fun _ k => v.lev order n_q k.1 (i + 1) k.2) (fun _ k => c.lev order n_q k.1 i k.2)
          (fun k => c.lev order n_q (k.1 + 1) i k.2) := by
      intro v c k g i hi
      refine ⟨fun l => ?_, fun θ hθ l => top ((g.2.2 (by rw [hθ]; simp)).1 i hi) (k.centres i hi) l⟩
      have := g.1 i hi l.2 l.2.2 l.1 l.1.2
      rwa [top (g.2.1 (i + 1) hi) (k.controls (i + 1) hi) l] at this
    have htop : ∀ i ≤ N, (∀ p < order, ∀ j < n_q, v.lev order n_q p i j = v'.lev order n_q p i j) → ∀ k : Fin order × Fin n_q, v.lev order n_q (k.1 + 1) i k.2 = v'.lev order n_q (k.1 + 1) i k.2 := by
      intro i hi h k
      rw [top (h1.2.1 i hi) (k1.controls i hi) k, top (h2.2.1 i hi) (k2.controls i hi) k]
      have : (fun (_ : ℕ) (k : Fin order × Fin n_q) => v.lev order n_q k.1 i k.2) = fun _ k => v'.lev order n_q k.1 i k.2 := by
        funext _ k
        exact h k.1 k.1.2 k.2 k.2.2
      rw [this]
    have hun := fun i (hi : i < N) (h : ∀ p < order, ∀ j < n_q, v.lev order n_q p i j = v'.lev order n_q p i j) =>
      step_unique (known_of hs1) hpos hL0 hhL (hlip _) (hlip _) (hstep k1 h1 i hi) (hstep k2 h2 i hi) (fun p hp k => h k.1 k.1.2 k.2 k.2.2)
        (funext fun k => htop i hi.le h k)
    have hlow : ∀ i ≤ N, ∀ p < order, ∀ j < n_q, v.lev order n_q p i j = v'.lev order n_q p i j := by
      intro i
      induction i with
      | zero => exact fun _ p hp j hj => (k1.start p hp j hj).trans (k2.start p hp j hj).symm
      | succ i ih => exact fun hi p hp j hj => (hun i hi (ih (by omega))).1 0 one_pos (⟨p, hp⟩, ⟨j, hj⟩)
    refine ⟨fun i hi p hp j hj => ?_, fun hl i hi p hp j hj => ?_⟩
    · obtain hp | rfl := hp.lt_or_eq
      · exact hlow i hi p hp j hj
      · obtain ⟨q, rfl⟩ : ∃ q, p = q + 1 := ⟨p - 1, by omega⟩
        exact htop i hi (hlow i hi) (⟨q, by omega⟩, ⟨j, hj⟩)
    · obtain ⟨θ, hθ⟩ := hsp hl
      obtain ⟨g1, g2⟩ := (hun i hi (hlow i hi.le)).2 θ hθ
      obtain hp | rfl := hp.lt_or_eq
      · exact g1 0 one_pos (⟨p, hp⟩, ⟨j, hj⟩)
      · obtain ⟨q, rfl⟩ : ∃ q, p = q + 1 := ⟨p - 1, by omega⟩
        exact congrFun g2 (⟨q, by omega⟩, ⟨j, hj⟩)
end

/-- The hypotheses hold of `q'' = q + u` with "hs_mod", with 44 intervals or more over one unit of time. -/
example (N : ℕ) (hN : 44 ≤ N) : ∃ P, equiConstraints (fun x xd u _ => [xd 0 - x 1, xd 1 - (x 0 + u 0)]) "hs_mod" N 2 1 1 0 1 = .ok P ∧
    ∀ x0 u : ℕ → ℕ → ℝ, ∃ v c, P v c ∧ Chosen 2 1 1 N x0 u (fun i m => (1 - 1 / 2) * u i m + 1 / 2 * u (i + 1) m) v c := by
  have hN' : (44 : ℝ) ≤ N := by exact_mod_cast hN
  obtain ⟨P, hP, h⟩ := C157_motion (F := fun x xd u _ => [xd 0 - x 1, xd 1 - (x 0 + u 0)]) (scheme := "hs_mod") (N := N) (n_q := 1) (n_u := 1) (t_start := 0) (t_end := 1)
    (A := fun ξ u _ => ξ 0 0 + u 0) (L := 1) (h := 1 / N) .hs_mod two_pos (by omega) one_pos
    (fun x xd u _ => by
      have e1 : (∀ p, p + 1 < 2 → ∀ j < 1, xd (1 * p + j) = x (1 * (p + 1) + j)) ↔ xd 0 = x 1 :=
        ⟨fun h => h 0 (by norm_num) 0 one_pos, fun h p hp j hj => by
          obtain rfl : p = 0 := by omega
          obtain rfl : j = 0 := by omega
          exact h⟩
      have e2 : (∀ j < 1, xd (1 * (2 - 1) + j) = x (1 * 0 + 0) + u 0) ↔ xd 1 = x 0 + u 0 :=
        ⟨fun h => h 0 one_pos, fun h j hj => by
          obtain rfl : j = 0 := by omega
          exact h⟩
      rw [e1, e2]
      simp [zero, sub_eq_zero])
    zero_le_one
    (fun ξ η u w d _ _ h1 h2 j _ => by
      have := h1 0 (by norm_num) 0 (by norm_num)
      have h3 := h2 0 (by norm_num)
      simpa [h3] using this)
    (by norm_num) (by rw [one_div, inv_mul_le_iff₀ (by linarith)]; linarith)
  refine ⟨P, hP, fun x0 u => (h x0 u _ fun θ hθ _ i _ m _ => ?_).1⟩
  injection hθ with hθ
  rw [← hθ]

end Chords.Conv
