import Verif.Lemmas.DynErr
import Verif.Props.Piecewise
import Mathlib.Analysis.Calculus.Deriv.Pi

/-! # Dynamic error of equispaced trajectories: C64 -/

namespace Chords.Props
open Chords.Interp Chords.Interp.Props Chords.PsInterp Chords.BuTdInterp Chords.Spec Chords.DynErr
open Chords.Ph (linspace)

variable {d : ℕ} {W : Type} [AddCommGroup W] [Module ℝ W] {lib : Interp.Lib d W} {X : List (Arr d)} {U : List W}
  {f : Arr d → W → Arr d} {scheme : String}

theorem linspace_get {a b : ℝ} {n i : ℕ} {t : ℝ} (h : (linspace a b n)[i]? = some t) (hab : a ≤ b) : a ≤ t ∧ t ≤ b := by
  unfold Chords.Ph.linspace at h
  split_ifs at h with h1
  · have : t = a := by
      cases i with
      | zero => simpa using h.symm
      | succ i => simp at h
    subst this
    exact ⟨le_rfl, hab⟩
  · have hi : i < n := by
      have := (List.getElem?_eq_some_iff.1 h).1
      simpa using this
    have e : a + (i : ℝ) * ((b - a) / ((n : ℝ) - 1)) = t := by simpa [hi] using h
    have hn : (2 : ℝ) ≤ n := by exact_mod_cast (show 2 ≤ n by omega)
    have hi' : (i : ℝ) + 1 ≤ n := by exact_mod_cast hi
    have hp : (0 : ℝ) < (n : ℝ) - 1 := by linarith
    have h0 : (0 : ℝ) ≤ (b - a) / ((n : ℝ) - 1) := div_nonneg (by linarith) hp.le
    constructor
    · rw [← e]
      have : (0 : ℝ) ≤ (i : ℝ) * ((b - a) / ((n : ℝ) - 1)) := by positivity
      linarith
    · rw [← e]
      have h3 : (i : ℝ) * ((b - a) / ((n : ℝ) - 1)) ≤ ((n : ℝ) - 1) * ((b - a) / ((n : ℝ) - 1)) :=
        mul_le_mul_of_nonneg_right (by linarith) h0
      rw [mul_div_cancel₀ _ hp.ne'] at h3
      linarith

/-- The controls of a whole call. -/
theorem call_control {flat : Bool} {h : ℝ} {ts : List ℝ} {F : Option (Arr d → W → Arr d)} {X_dot : Option (List (Arr d))}
    {sp? out : Option (Params d W)} (hU : U.length = X.length) (hh : 0 < h) {xs : List (Arr d)} {us : List W}
    (e : interpolatedArray lib flat X U h ts F X_dot scheme "lin" sp? = .ok ((xs, us), out)) {i : ℕ} :
    (∀ (n : ℕ) (θ : ℝ) (u un : W), ts[i]? = some ((n + θ) * h) → 0 ≤ θ → θ < 1 → U[n]? = some u → U[n + 1]? = some un →
      us[i]? = some ((1 - θ) • u + θ • un)) ∧
    ∀ (n : ℕ) (u : W), ts[i]? = some (n * h) → U.length = n + 1 → U[n]? = some u → us[i]? = some u := by
  rw [array_iff] at e
  obtain ⟨acc, U', old_t, Xd, sp', e1, e2, e3, e4, rfl⟩ := e
  obtain ⟨rfl, rfl⟩ := prepare_inv hU e1
  simp only [interpolateU, if_true] at e3
  constructor
  · intro n θ u un hi h0 h1 u1 u2
    obtain ⟨w, w1, w2⟩ := (Interp.mapM_ok e3).2 i _ hi
    rw [← hU, C16_lin hh u1 u2 h0 h1] at w2
    cases w2
    exact w1
  · intro n u hi hn u1
    obtain ⟨w, w1, w2⟩ := (Interp.mapM_ok e3).2 i _ hi
    rw [← hU, C16_lin_end hh hn u1 le_rfl] at w2
    cases w2
    exact w1

/-- The derivatives of a whole call, at the last sample: the end of the last step. -/
theorem call_derivative_end {M dim : ℕ} {s : Shape} {sp? out : Option (Params d W)} {h : ℝ} {ts : List ℝ}
    (hs : SchemeIs (sp?.getD Params.empty).order scheme s M) (hd : d = M * dim) (hM : 0 < M) (hf : Fresh sp?)
    (hU : U.length = X.length) (hh : 0 < h) {xs : List (Arr d)} {k : ℕ}
    (hk : s = .parab (2 / 5) → k = 1 ∨ k = 2)
    (e : interpolatedDerivative lib false X U h ts (some f) none scheme k sp? = .ok (xs, out))
    {i n : ℕ} (hi : ts[i]? = some ((n + 1) * h)) (hn : X.length = n + 2) {x xn : Arr d} {u un : W}
    (x1 : X[n]? = some x) (x2 : X[n + 1]? = some xn) (u1 : U[n]? = some u) (u2 : U[n + 1]? = some un) :
    ∃ y, xs[i]? = some y ∧ OnCurve s M dim x (f x u) (f xn un)
      (f (midOf scheme x xn (f x u) (f xn un) h) (ucOf scheme u un)) h k h y := by
  rw [derivative_iff] at e
  obtain ⟨acc, U', old_t, Xd, sp', e1, e2, e4, rfl⟩ := e
  obtain ⟨rfl, rfl⟩ := prepare_inv hU e1
  obtain ⟨ho, st⟩ := missing_step hU hs (by decide) rfl (fresh_getD hf) e2 x1 x2 u1 u2
  have hsc : scheme ≠ "hs_scipy" := by cases hs <;> decide
  rw [derivativesAt, if_neg hsc] at e4
  obtain ⟨y, y1, y2⟩ := (Interp.mapM_ok e4).2 i _ hi
  obtain ⟨y', y3, y4⟩ := C14_derivative_end (ho ▸ hs) hd hM st hn hk hh (t := (n + 1) * h) (by simp; positivity)
  rw [y2] at y3
  cases y3
  exact ⟨y, y1, y4⟩

/-- The curves of a step: `c j` is a motion of coordinate `j` with the shape that the scheme promises, between the dynamics
at the samples `x` and `xn`. -/
def StepCurves (s : Shape) (scheme : String) (order dim : ℕ) (f : Arr d → W → Arr d) (h : ℝ) (x xn : Arr d) (u un : W)
    (c : ℕ → ℕ → ℝ → ℝ) : Prop :=
  ∀ j < dim, StepMotion s order (fun q => coord x (dim * q + j)) (coord (f x u) (dim * (order - 1) + j))
    (coord (f (midOf scheme x xn (f x u) (f xn un) h) (ucOf scheme u un)) (dim * (order - 1) + j))
    (coord (f xn un) (dim * (order - 1) + j)) h (c j)

/-- The state on the curves at local time `τ`: all positions, all first derivatives, and so on. -/
def curveState (d dim : ℕ) (c : ℕ → ℕ → ℝ → ℝ) (τ : ℝ) : Arr d := fun i => c (i.val % dim) (i.val / dim) τ

/-- Row `i` of the errors of the states on the curves `c` at local time `τ` with control `u`: zero compatibility errors,
and the difference of the highest derivative and the dynamics. -/
def RowIs (order dim : ℕ) (f : Arr d → W → Arr d) (c : ℕ → ℕ → ℝ → ℝ) (τ : ℝ) (u : W) (E : ℕ → ℕ → ℕ → ℕ → ℝ)
    (i : ℕ) : Prop :=
  ∀ jj < order, ∀ ii < order - jj, ∀ j < dim, E jj ii i j = if ii + jj + 1 < order then 0 else
    c j order τ - coord (f (curveState d dim c τ) u) (dim * (order - 1) + j)

theorem row_core {order dim : ℕ} (hd : d = order * dim) {mode : String} {xs : List (Arr d)} {us : List W}
    {v : ℕ → List (Arr d)} {i : ℕ} {c : ℕ → ℕ → ℝ → ℝ} {τ : ℝ} {u : W} {y : Arr d} (hy : xs[i]? = some y)
    (hx : ∀ p < order, ∀ j < dim, coord y (dim * p + j) = c j p τ) (hu : us[i]? = some u)
    (hv : ∀ k < order, ∃ z, (v k)[i]? = some z ∧ ∀ p < order, ∀ j < dim, coord z (dim * p + j) = c j (p + (k + 1)) τ) :
    RowIs order dim f c τ u (fun jj ii i j => coord ((v jj).getD i 0) (dim * ii + j) - if ii + jj + 1 < order then
        coord (xs.getD i 0) (dim * (ii + jj + 1) + j)
        else coord (f (inF mode dim xs v i) (us.getD i 0)) (dim * (order - 1) + j)) i := by
  subst hd
  have hin : inF mode dim xs v i = curveState (order * dim) dim c τ := by
    funext q
    have hdim : 0 < dim := Nat.pos_of_ne_zero (by rintro rfl; exact absurd q.isLt (by simp))
    have hp : q.val / dim < order := by rw [Nat.div_lt_iff_lt_mul hdim]; exact q.isLt
    have hj : q.val % dim < dim := Nat.mod_lt _ hdim
    unfold inF curveState
    split_ifs with h1
    · rw [List.getD_eq_getElem?_getD, hy, Option.getD_some, ← hx _ hp _ hj, Nat.div_add_mod, coord, dif_pos q.isLt]
    · dsimp only
      split_ifs with h2
      · rw [List.getD_eq_getElem?_getD, hy, Option.getD_some, h2, ← hx 0 (lt_of_le_of_lt (Nat.zero_le _) hp) _ hj, mul_zero, zero_add]
      · obtain ⟨z, z1, z2⟩ := hv (q.val / dim - 1) (lt_of_le_of_lt (Nat.sub_le _ _) hp)
        have := z2 0 (lt_of_le_of_lt (Nat.zero_le _) hp) _ hj
        rw [mul_zero, zero_add, zero_add, Nat.sub_add_cancel (Nat.one_le_iff_ne_zero.2 h2)] at this
        rw [List.getD_eq_getElem?_getD, z1, Option.getD_some, this]
  intro jj hjj ii hii j hj
  obtain ⟨z, z1, z2⟩ := hv jj hjj
  dsimp only
  rw [hin, List.getD_eq_getElem?_getD, z1, Option.getD_some, z2 ii (by omega) j hj, ← add_assoc]
  split_ifs with h
  · rw [List.getD_eq_getElem?_getD, hy, Option.getD_some, hx _ h j hj, sub_self]
  · rw [List.getD_eq_getElem?_getD, hu, Option.getD_some, show ii + jj + 1 = order by omega]

/-- C64 for equispaced trajectories, with the schemes whose differential order is that of the problem (`trapz_mod`,
`hs_mod`, `hsj` for order 2, `trapz_n`, `hsn` for any order, `trapz`, `hs` for order 1), linear controls, and both modes. The
call succeeds and returns the documented table. Inside a step the compatibility errors are zero and the dynamic error is
that of the curves of the step; at a sample all the errors are zero; at the last sample they are zero if the trajectory
is feasible there, that is, if the curves of the last step end in the last sample. -/
theorem C64_equi {order dim n : ℕ} {s : Shape} (hs : SchemeIs (some order) scheme s order) (ho : 1 ≤ order)
    (hd : d = order * dim) {sp? : Option (Params d W)} (hf : Fresh sp?) (hU : U.length = X.length) (hX : 2 ≤ X.length)
    {t_end h : ℝ} (ht : 0 < t_end) (hh : h = t_end / ((X.length : ℝ) - 1)) (hn : 1 ≤ n) {mode : String}
    (hm : mode = "q" ∨ mode = "x") (lib : Interp.Lib d W) (f : Arr d → W → Arr d) :
    ∃ errs out E, dynamicError lib X U t_end f none scheme "lin" sp? n order mode = .ok (errs, out) ∧
      Table order dim n E errs ∧
      (∀ (i k : ℕ) (θ : ℝ) x xn u un, (linspace 0 t_end n)[i]? = some ((k + θ) * h) → 1e-8 ≤ θ → θ ≤ 1 - 1e-8 →
        X[k]? = some x → X[k + 1]? = some xn → U[k]? = some u → U[k + 1]? = some un →
        ∀ c, StepCurves s scheme order dim f h x xn u un c →
          RowIs order dim f c (θ * h) ((1 - θ) • u + θ • un) E i) ∧
      (∀ i k : ℕ, (linspace 0 t_end n)[i]? = some (k * h) → k + 1 < X.length →
        ∀ jj < order, ∀ ii < order - jj, ∀ j < dim, E jj ii i j = 0) ∧
      ∀ i k x xn u un, (linspace 0 t_end n)[i]? = some (((k : ℕ) + 1) * h) → X.length = k + 2 →
        X[k]? = some x → X[k + 1]? = some xn → U[k]? = some u → U[k + 1]? = some un →
        (∀ c, StepCurves s scheme order dim f h x xn u un c → ∀ p < order, ∀ j < dim, c j p h = coord xn (dim * p + j)) →
        ∀ jj < order, ∀ ii < order - jj, ∀ j < dim, E jj ii i j = 0 := by
  have hlen : (2 : ℝ) ≤ X.length := by exact_mod_cast hX
  have hpos : (0 : ℝ) < (X.length : ℝ) - 1 := by linarith
  have hh0 : 0 < h := by rw [hh]; positivity
  have hend : ((X.length : ℝ) - 1) * h = t_end := by rw [hh]; field_simp
  obtain ⟨sp, hsp⟩ : ∃ sp : Params d W, sp = { sp?.getD Params.empty with order := some order } := ⟨_, rfl⟩
  have hs' : SchemeIs ((some sp).getD Params.empty).order scheme s order := by rw [hsp]; exact hs
  have hf' : Fresh (some sp) := by
    intro a ha
    cases ha
    rw [hsp]
    exact fresh_getD hf
  have hl := linspace_length 0 t_end n
  obtain ⟨⟨⟨xs, us⟩, out, e⟩, hder⟩ := C14_call_total (lib := lib) (ts := linspace 0 t_end n) hs' hd (by omega) hf' f hU hX hh0
    (by intro h; rw [h] at hl; simp at hl; omega)
    (by intro t htm
        obtain ⟨i, hi, rfl⟩ := List.getElem_of_mem htm
        have := linspace_get (List.getElem?_eq_getElem hi) ht.le
        rwa [hend])
  have hk : ∀ k < order, s = .parab (2 / 5) → k + 1 = 1 ∨ k + 1 = 2 := by
    intro k hk h
    subst h
    generalize hS : Shape.parab (2 / 5) = S at hs
    cases hs <;> first | omega | (simp only [Shape.parab.injEq] at hS; norm_num at hS) | cases hS
  have hder' : ∀ k, ∃ v, k < order → ∃ o, interpolatedDerivative lib false X U h (linspace 0 t_end n) (some f) none scheme
      (k + 1) (some sp) = .ok (v, o) := by
    intro k
    by_cases hk' : k < order
    · obtain ⟨r, o, h⟩ := hder (k + 1) (hk k hk')
      exact ⟨r, fun _ => ⟨o, h⟩⟩
    · exact ⟨[], fun h => absurd h hk'⟩
  choose v hv using hder'
  have hsc : scheme ≠ "hs_scipy" := by cases hs <;> decide
  obtain ⟨b1, b2, -⟩ := C14_call_beyond hsc hh0 e
  have hvl : ∀ k < order, (v k).length = n := by
    intro k hk
    obtain ⟨o, e'⟩ := hv k hk
    rw [derivative_iff] at e'
    obtain ⟨-, _, _, _, _, -, -, e4, -⟩ := e'
    rw [derivativesAt, if_neg hsc] at e4
    rw [(Interp.mapM_ok e4).1, hl]
  obtain ⟨errs, g1, g2⟩ := dynamicError_ok ho hd (by omega) hf hm hh (by rw [← hl]; exact b1) (hsp ▸ e)
    (fun k hk => ⟨hvl k hk, by rw [← hsp]; exact hv k hk⟩)
  have hget : ∀ k, k < X.length → ∃ x u, X[k]? = some x ∧ U[k]? = some u := fun k hk =>
    ⟨X[k], U[k]'(hU ▸ hk), List.getElem?_eq_getElem hk, List.getElem?_eq_getElem (hU ▸ hk)⟩
  have hex : ∀ x xn u un, ∃ c, StepCurves s scheme order dim f h x xn u un c := by
    intro x xn u un
    choose c hc using fun j => stepMotion_exists hs (fun q => coord x (dim * q + j)) (coord (f x u) (dim * (order - 1) + j))
      (coord (f (midOf scheme x xn (f x u) (f xn un) h) (ucOf scheme u un)) (dim * (order - 1) + j))
      (coord (f xn un) (dim * (order - 1) + j)) h hh0
    exact ⟨c, fun j _ => hc j⟩
  refine ⟨errs, _, _, g1, g2, ?_, ?_, ?_⟩
  · intro i k θ x xn u un hi h0 h1 x1 x2 u1 u2 c hc
    obtain ⟨w, y, y1, y2⟩ := C14_call hs' hd (by omega) hf' hU hh0 e hi h0 h1 x1 x2 u1 u2
    refine row_core hd y1 (fun p hp j hj => y2 p j hp hj _ (hc j hj)) w (fun q hq => ?_)
    obtain ⟨o, e'⟩ := hv q hq
    obtain ⟨z, z1, z2⟩ := C14_call_derivative hs' hd (by omega) hf' hU hh0 (hk q hq) e' hi (by linarith) h1 x1 x2 u1 u2
    exact ⟨z, z1, fun p hp j hj => z2 p j hp hj _ (hc j hj)⟩
  · intro i k hi hk1 jj hjj ii hii j hj
    obtain ⟨x, u, x1, u1⟩ := hget k (by omega)
    obtain ⟨xn, un, x2, u2⟩ := hget (k + 1) hk1
    obtain ⟨c, hc⟩ := hex x xn u un
    have hi' : (linspace 0 t_end n)[i]? = some ((k + (0 : ℝ)) * h) := by rw [add_zero]; exact hi
    have hst : ∀ p < order, ∀ j < dim, c j p 0 = coord x (dim * p + j) := by
      intro p hp j hj
      have := hc j hj
      cases s with
      | line => exact LinearMotion.start this p hp
      | parab θ => exact ParabolicMotion.start this p hp
    have htop : ∀ j < dim, c j order 0 = coord (f x u) (dim * (order - 1) + j) := by
      intro j hj
      have := hc j hj
      cases s with
      | line => obtain ⟨b, hb⟩ := LinearMotion.top_line this; rw [hb]; simp
      | parab θ => obtain ⟨b, b', hb⟩ := ParabolicMotion.top_parabola this; rw [hb]; simp
    have := row_core (f := f) (mode := mode) (us := us) (c := c) (τ := 0) (u := u) (v := v) (dim := dim) hd
      (C14_call_sample hsc hh0 e hi x1) (fun p hp j hj => (hst p hp j hj).symm)
      (by have := (call_control hU hh0 e).1 k 0 u un hi' le_rfl one_pos u1 u2
          simpa using this)
      (fun q hq => by
        obtain ⟨o, e'⟩ := hv q hq
        obtain ⟨z, z1, z2⟩ := C14_call_derivative hs' hd (by omega) hf' hU hh0 (hk q hq) e' hi' le_rfl (by norm_num)
          x1 x2 u1 u2
        refine ⟨z, z1, fun p hp j hj => ?_⟩
        have := z2 p j hp hj _ (hc j hj)
        rwa [zero_mul] at this)
    refine (this jj hjj ii hii j hj).trans ?_
    have hcs : curveState d dim c 0 = x := by
      subst hd
      apply coord_ext
      intro q hq
      have hdim : 0 < dim := by omega
      have := hst (q / dim) (by rw [Nat.div_lt_iff_lt_mul hdim]; exact hq) (q % dim) (Nat.mod_lt _ hdim)
      rw [Nat.div_add_mod] at this
      rw [← this]
      simp [coord, hq, curveState]
    rw [hcs, htop j hj, sub_self, ite_self]
  · intro i k x xn u un hi hk1 x1 x2 u1 u2 hfe jj hjj ii hii j hj
    obtain ⟨c, hc⟩ := hex x xn u un
    have hfe' := hfe c hc
    have htop : ∀ j < dim, c j order h = coord (f xn un) (dim * (order - 1) + j) := by
      intro j hj
      have := hc j hj
      cases s with
      | line => exact LinearMotion.top_end this
      | parab θ => exact ParabolicMotion.top_end this
    have hi' : (linspace 0 t_end n)[i]? = some (((k + 1 : ℕ) : ℝ) * h) := by push_cast; exact hi
    have := row_core (f := f) (mode := mode) (us := us) (c := c) (τ := h) (u := un) (v := v) (dim := dim) hd
      (C14_call_sample hsc hh0 e hi' x2) (fun p hp j hj => (hfe' p hp j hj).symm)
      ((call_control hU hh0 e).2 (k + 1) un hi' (by omega) u2)
      (fun q hq => by
        obtain ⟨o, e'⟩ := hv q hq
        obtain ⟨z, z1, z2⟩ := call_derivative_end hs' hd (by omega) hf' hU hh0 (hk q hq) e' hi hk1 x1 x2 u1 u2
        exact ⟨z, z1, fun p hp j hj => z2 p j hp hj _ (hc j hj)⟩)
    refine (this jj hjj ii hii j hj).trans ?_
    have hcs : curveState d dim c h = xn := by
      subst hd
      apply coord_ext
      intro q hq
      have hdim : 0 < dim := by omega
      have := hfe' (q / dim) (by rw [Nat.div_lt_iff_lt_mul hdim]; exact hq) (q % dim) (Nat.mod_lt _ hdim)
      rw [Nat.div_add_mod] at this
      rw [← this]
      simp [coord, hq, curveState]
    rw [hcs, htop j hj, sub_self, ite_self]

/-! ## Solutions of the collocated problem -/

/-- All the errors of one row are zero. -/
def ZeroRow (order dim : ℕ) (errs : List (List Arr2)) (i : ℕ) : Prop :=
  ∀ jj < order, ∀ ii < order - jj, ∃ l a, errs[jj]? = some l ∧ l[ii]? = some a ∧ ∀ j < dim, rows a.rows i j = 0

theorem zeroRow_of {order dim n : ℕ} {E : ℕ → ℕ → ℕ → ℕ → ℝ} {errs : List (List Arr2)} (hT : Table order dim n E errs)
    {i : ℕ} (hi : i < n) (h : ∀ jj < order, ∀ ii < order - jj, ∀ j < dim, E jj ii i j = 0) : ZeroRow order dim errs i := by
  intro jj hjj ii hii
  obtain ⟨l, l1, l2, l3⟩ := hT.2 jj hjj
  obtain ⟨a, a1, a2⟩ := l3 ii hii
  exact ⟨l, a, l1, a1, fun j hj => by rw [a2.2.2 i hi j hj, h jj hjj ii hii j hj]⟩

theorem linspace_index {a b t : ℝ} {n i : ℕ} (h : (linspace a b n)[i]? = some t) : i < n := by
  have := (List.getElem?_eq_some_iff.1 h).1
  rwa [linspace_length] at this

/-- The curves of one step end in the next sample. -/
def EndsIn (s : Shape) (scheme : String) (order dim : ℕ) (f : Arr d → W → Arr d) (h : ℝ) (x xn : Arr d) (u un : W) : Prop :=
  ∀ c, StepCurves s scheme order dim f h x xn u un c → ∀ p < order, ∀ j < dim, c j p h = coord xn (dim * p + j)

/-- The curves of one step go through the state where the scheme evaluates the dynamics at the inner point. -/
def PassesMid (s : Shape) (scheme : String) (order dim : ℕ) (f : Arr d → W → Arr d) (h θ : ℝ) (x xn : Arr d) (u un : W) : Prop :=
  ∀ c, StepCurves s scheme order dim f h x xn u un c → ∀ p < order, ∀ j < dim,
    c j p (θ * h) = coord (midOf scheme x xn (f x u) (f xn un) h) (dim * p + j)

/-- C64 for every trajectory all whose steps end in the next sample: all the errors are zero at all the samples; and at
the inner points, if the curves go through the inner state of the scheme. -/
theorem C64_feasible {order dim n : ℕ} {s : Shape} (hs : SchemeIs (some order) scheme s order) (ho : 1 ≤ order)
    (hd : d = order * dim) {sp? : Option (Params d W)} (hf : Fresh sp?) (hU : U.length = X.length) (hX : 2 ≤ X.length)
    {t_end h : ℝ} (ht : 0 < t_end) (hh : h = t_end / ((X.length : ℝ) - 1)) (hn : 1 ≤ n) {mode : String}
    (hm : mode = "q" ∨ mode = "x") (lib : Interp.Lib d W) (f : Arr d → W → Arr d)
    (hend : ∀ k x xn u un, X[k]? = some x → X[k + 1]? = some xn → U[k]? = some u → U[k + 1]? = some un →
      EndsIn s scheme order dim f h x xn u un) :
    ∃ errs out, dynamicError lib X U t_end f none scheme "lin" sp? n order mode = .ok (errs, out) ∧
      (∀ i k : ℕ, (linspace 0 t_end n)[i]? = some (k * h) → k < X.length → ZeroRow order dim errs i) ∧
      ∀ θ, s = .parab θ → 1e-8 ≤ θ → θ ≤ 1 - 1e-8 → (∀ u un : W, ucOf scheme u un = (1 - θ) • u + θ • un) →
        (∀ k x xn u un, X[k]? = some x → X[k + 1]? = some xn → U[k]? = some u → U[k + 1]? = some un →
          PassesMid s scheme order dim f h θ x xn u un) →
        ∀ i k : ℕ, (linspace 0 t_end n)[i]? = some ((k + θ) * h) → k + 1 < X.length → ZeroRow order dim errs i := by
  obtain ⟨errs, out, E, e1, e2, e3, e4, e5⟩ := C64_equi hs ho hd hf hU hX ht hh hn hm lib f
  have hget : ∀ k, k < X.length → ∃ x u, X[k]? = some x ∧ U[k]? = some u := fun k hk =>
    ⟨X[k], U[k]'(hU ▸ hk), List.getElem?_eq_getElem hk, List.getElem?_eq_getElem (hU ▸ hk)⟩
  refine ⟨errs, out, e1, fun i k hi hk => zeroRow_of e2 (linspace_index hi) ?_,
    fun θ hθ h0 h1 huc hmid i k hi hk => zeroRow_of e2 (linspace_index hi) ?_⟩
  · by_cases hk' : k + 1 < X.length
    · exact e4 i k hi hk'
    · obtain ⟨m, rfl⟩ : ∃ m, k = m + 1 := ⟨k - 1, by omega⟩
      obtain ⟨x, u, x1, u1⟩ := hget m (by omega)
      obtain ⟨xn, un, x2, u2⟩ := hget (m + 1) (by omega)
      exact e5 i m x xn u un (by push_cast at hi; exact hi) (by omega) x1 x2 u1 u2 (hend m x xn u un x1 x2 u1 u2)
  · obtain ⟨x, u, x1, u1⟩ := hget k (by omega)
    obtain ⟨xn, un, x2, u2⟩ := hget (k + 1) hk
    have hlen : (2 : ℝ) ≤ X.length := by exact_mod_cast hX
    have hh0 : 0 < h := by rw [hh]; exact div_pos ht (by linarith)
    choose c hc using fun j => stepMotion_exists hs (fun q => coord x (dim * q + j)) (coord (f x u) (dim * (order - 1) + j))
      (coord (f (midOf scheme x xn (f x u) (f xn un) h) (ucOf scheme u un)) (dim * (order - 1) + j))
      (coord (f xn un) (dim * (order - 1) + j)) h hh0
    have hc' : StepCurves s scheme order dim f h x xn u un c := fun j _ => hc j
    have hp := hmid k x xn u un x1 x2 u1 u2 c hc'
    have hcs : curveState d dim c (θ * h) = midOf scheme x xn (f x u) (f xn un) h := by
      subst hd
      apply coord_ext
      intro q hq
      have hdim : 0 < dim := Nat.pos_of_ne_zero (by rintro rfl; simp at hq)
      have := hp (q / dim) (by rw [Nat.div_lt_iff_lt_mul hdim]; exact hq) (q % dim) (Nat.mod_lt _ hdim)
      rw [Nat.div_add_mod] at this
      rw [← this]
      simp [coord, hq, curveState]
    intro jj hjj ii hii j hj
    have hr := e3 i k θ x xn u un hi h0 h1 x1 x2 u1 u2 c hc' jj hjj ii hii j hj
    rw [hr, hcs, ← huc]
    have htop := hc j
    rw [hθ] at htop
    rw [ParabolicMotion.top_mid htop, sub_self, ite_self]

theorem vec_motion {dim : ℕ} {c : ℕ → ℕ → ℝ → ℝ} (h : ∀ j < dim, Motion (c j)) :
    Motion fun k τ (j : Fin dim) => c j k τ := fun k τ => by
  rw [hasDerivAt_pi]
  exact fun j => h j j.isLt k τ

theorem vec_parabolic {dim M : ℕ} {x : ℕ → Fin dim → ℝ} {a ac an : Fin dim → ℝ} {m h : ℝ} {c : ℕ → ℕ → ℝ → ℝ}
    (hc : ∀ j : Fin dim, ParabolicMotion M (fun q => x q j) (a j) (ac j) (an j) m h (c j)) :
    ParabolicMotion M x a ac an m h fun k τ j => c j k τ := by
  choose b e hb using fun j => (hc j).top_parabola
  exact ⟨vec_motion fun j hj => (hc ⟨j, hj⟩).motion, fun p hp => funext fun j => (hc j).start p hp,
    ⟨b, e, fun τ => funext fun j => by simpa using hb j τ⟩, funext fun j => (hc j).top_mid, funext fun j => (hc j).top_end⟩

theorem vec_linear {dim M : ℕ} {x : ℕ → Fin dim → ℝ} {a an : Fin dim → ℝ} {h : ℝ} {c : ℕ → ℕ → ℝ → ℝ}
    (hc : ∀ j : Fin dim, LinearMotion M (fun q => x q j) (a j) (an j) h (c j)) :
    LinearMotion M x a an h fun k τ j => c j k τ := by
  choose b hb using fun j => (hc j).top_line
  exact ⟨vec_motion fun j hj => (hc ⟨j, hj⟩).motion, fun p hp => funext fun j => (hc j).start p hp,
    ⟨b, fun τ => funext fun j => by simpa using hb j τ⟩, funext fun j => (hc j).top_end⟩

/-- Component `p` of the state, a vector with one entry for each coordinate. -/
def block {order dim : ℕ} (x : Arr (order * dim)) (p : ℕ) : Fin dim → ℝ := fun j => coord x (dim * p + j)

/-- C64 for the straight line schemes of any order: all trajectories whose residuals (those of `trapz_n`) vanish. -/
theorem C64_line {order dim n : ℕ} {X : List (Arr (order * dim))} (hs : SchemeIs (some order) scheme .line order)
    (ho : 1 ≤ order) {sp? : Option (Params (order * dim) W)} (hf : Fresh sp?) (hU : U.length = X.length)
    (hX : 2 ≤ X.length) {t_end h : ℝ} (ht : 0 < t_end) (hh : h = t_end / ((X.length : ℝ) - 1)) (hn : 1 ≤ n) {mode : String}
    (hm : mode = "q" ∨ mode = "x") (lib : Interp.Lib (order * dim) W) (f : Arr (order * dim) → W → Arr (order * dim))
    (sol : ∀ k x xn u un, X[k]? = some x → X[k + 1]? = some xn → U[k]? = some u → U[k + 1]? = some un →
      ∀ p < order, trapzMRestr order (block x) (block xn) (block (f x u) (order - 1)) (block (f xn un) (order - 1)) h p = 0) :
    ∃ errs out, dynamicError lib X U t_end f none scheme "lin" sp? n order mode = .ok (errs, out) ∧
      ∀ i k : ℕ, (linspace 0 t_end n)[i]? = some (k * h) → k < X.length → ZeroRow order dim errs i := by
  have hlen : (2 : ℝ) ≤ X.length := by exact_mod_cast hX
  have hh0 : 0 < h := by rw [hh]; exact div_pos ht (by linarith)
  obtain ⟨errs, out, e1, e2, -⟩ := C64_feasible hs ho rfl hf hU hX ht hh hn hm lib f (by
    intro k x xn u un x1 x2 u1 u2 c hc p hp j hj
    have := (C06_trapz_n order (block x) (block xn) (block (f x u) (order - 1)) (block (f xn un) (order - 1)) h hh0.ne' _
      (vec_linear fun j => hc j j.isLt)).1.1 (sol k x xn u un x1 x2 u1 u2) p hp
    exact congrFun this ⟨j, hj⟩)
  exact ⟨errs, out, e1, e2⟩

/-- C64 for `trapz_mod`, with the residuals of that scheme. -/
theorem C64_trapz_mod {dim n : ℕ} {X : List (Arr (2 * dim))} {sp? : Option (Params (2 * dim) W)} (hf : Fresh sp?)
    (hU : U.length = X.length) (hX : 2 ≤ X.length) {t_end h : ℝ} (ht : 0 < t_end) (hh : h = t_end / ((X.length : ℝ) - 1))
    (hn : 1 ≤ n) {mode : String} (hm : mode = "q" ∨ mode = "x") (lib : Interp.Lib (2 * dim) W)
    {F2 : (Fin dim → ℝ) × (Fin dim → ℝ) → W → (Fin dim → ℝ) × (Fin dim → ℝ)}
    {f : Arr (2 * dim) → W → Arr (2 * dim)} (hF : ∀ x u, f x u = joined (F2 (halves x) u))
    (sol : ∀ k x xn u un, X[k]? = some x → X[k + 1]? = some xn → U[k]? = some u → U[k + 1]? = some un →
      trapzModRestr (halves x) (halves xn) u un F2 h = 0) :
    ∃ errs out, dynamicError lib X U t_end f none "trapz_mod" "lin" sp? n 2 mode = .ok (errs, out) ∧
      ∀ i k : ℕ, (linspace 0 t_end n)[i]? = some (k * h) → k < X.length → ZeroRow 2 dim errs i := by
  refine C64_line .trapz_mod (by norm_num) hf hU hX ht hh hn hm lib f ?_
  intro k x xn u un x1 x2 u1 u2 p hp
  have h1 := sol k x xn u un x1 x2 u1 u2
  rw [← C08_trapz_order2] at h1
  have hb : ∀ y : Arr (2 * dim), ∀ p < 2, block y p = seq2 (halves y) p := by
    intro y p hp
    interval_cases p <;> funext j <;> simp [block, seq2, halves]
  have ha : ∀ (y : Arr (2 * dim)) w, block (f y w) (2 - 1) = (F2 (halves y) w).2 := by
    intro y w
    funext j
    rw [hF]
    simp only [block, Nat.add_one_sub_one, mul_one]
    exact joined_hi _ j.isLt
  have hcongr : ∀ p < 2, trapzMRestr 2 (block x) (block xn) (block (f x u) (2 - 1)) (block (f xn un) (2 - 1)) h p
      = trapzMRestr 2 (seq2 (halves x)) (seq2 (halves xn)) (F2 (halves x) u).2 (F2 (halves xn) un).2 h p := by
    intro p hp
    rw [ha, ha]
    interval_cases p <;> simp [trapzMRestr, Finset.sum_range_succ, hb]
  rw [hcongr p hp]
  interval_cases p
  · exact congrArg Prod.fst h1
  · exact congrArg Prod.snd h1

theorem byPairs_halves {dim : ℕ} (g : ℕ → ℝ × ℝ) :
    halves (byPairs g : Arr (2 * dim)) = (fun j : Fin dim => (g j).1, fun j : Fin dim => (g j).2) := by
  apply Prod.ext
  · funext j
    have := byPairs_at (dim := dim) g (p := 0) (by norm_num) j.isLt
    rw [Nat.mul_zero, Nat.zero_add] at this
    simpa [halves] using this
  · funext j
    have := byPairs_at (dim := dim) g (p := 1) (by norm_num) j.isLt
    rw [Nat.mul_one] at this
    simpa [halves] using this

section second
variable {dim : ℕ} {F2 : (Fin dim → ℝ) × (Fin dim → ℝ) → W → (Fin dim → ℝ) × (Fin dim → ℝ)}
  {f : Arr (2 * dim) → W → Arr (2 * dim)}

theorem accel_of (hF : ∀ x u, f x u = joined (F2 (halves x) u)) (y : Arr (2 * dim)) (w : W) (j : Fin dim) :
    coord (f y w) (dim + j) = (F2 (halves y) w).2 j := by
  rw [hF]
  exact joined_hi _ j.isLt

theorem mod_mid (hF : ∀ x u, f x u = joined (F2 (halves x) u)) (x xn : Arr (2 * dim)) (u un : W) (h : ℝ) :
    halves (midOf "hs_mod" x xn (f x u) (f xn un) h)
      = hsModXc (halves x) (halves xn) (F2 (halves x) u).2 (F2 (halves xn) un).2 h := by
  have hd : 2 * dim / 2 = dim := by omega
  rw [midOf, if_pos (by decide), byPairs_halves]
  apply Prod.ext <;> funext j <;>
    simp [hsModMidpoint, hsModXc, pairAt, hd, at'_eq, accel_of hF, halves] <;> ring

theorem hsj_mid (hF : ∀ x u, f x u = joined (F2 (halves x) u)) (x xn : Arr (2 * dim)) (u un : W) (h : ℝ) :
    halves (midOf "hsj" x xn (f x u) (f xn un) h)
      = hsjXc (halves x) (halves xn) (F2 (halves x) u).2 (F2 (halves xn) un).2 h := by
  have hd : 2 * dim / 2 = dim := by omega
  rw [midOf, if_neg (by decide), if_pos (by decide), byPairs_halves]
  apply Prod.ext <;> funext j <;>
    simp [hsjMidpoint, hsjXc, pairAt, hd, at'_eq, accel_of hF, halves] <;> ring

/-- The curves of one step of a second order problem as one motion of vectors. -/
theorem vec_second (hF : ∀ x u, f x u = joined (F2 (halves x) u)) {scheme : String} {θ h : ℝ} {x xn : Arr (2 * dim)} {u un : W}
    {c : ℕ → ℕ → ℝ → ℝ} (hc : StepCurves (.parab θ) scheme 2 dim f h x xn u un c) :
    ParabolicMotion 2 (seq2 (halves x)) (F2 (halves x) u).2
      (F2 (halves (midOf scheme x xn (f x u) (f xn un) h)) (ucOf scheme u un)).2 (F2 (halves xn) un).2 (θ * h) h
      fun k τ (j : Fin dim) => c j k τ := by
  refine vec_parabolic fun j => ?_
  have h1 : ParabolicMotion 2 _ _ _ _ _ _ _ := hc j j.isLt
  simp only [show (2 - 1 : ℕ) = 1 by rfl, Nat.mul_one, accel_of hF] at h1
  refine ⟨h1.motion, fun p hp => ?_, h1.top_parabola, h1.top_mid, h1.top_end⟩
  rw [h1.start p hp]
  interval_cases p <;> simp [seq2, halves]

/-- C64 for `hs_mod`: all the errors of any solution are zero at the samples and at the middle of all steps. -/
theorem C64_hs_mod {n : ℕ} {X : List (Arr (2 * dim))} {sp? : Option (Params (2 * dim) W)} (hf : Fresh sp?)
    (hU : U.length = X.length) (hX : 2 ≤ X.length) {t_end h : ℝ} (ht : 0 < t_end) (hh : h = t_end / ((X.length : ℝ) - 1))
    (hn : 1 ≤ n) {mode : String} (hm : mode = "q" ∨ mode = "x") (lib : Interp.Lib (2 * dim) W)
    (hF : ∀ x u, f x u = joined (F2 (halves x) u))
    (sol : ∀ k x xn u un, X[k]? = some x → X[k + 1]? = some xn → U[k]? = some u → U[k + 1]? = some un →
      hsModRestr (halves x) (halves xn) u un F2 h = 0) :
    ∃ errs out, dynamicError lib X U t_end f none "hs_mod" "lin" sp? n 2 mode = .ok (errs, out) ∧
      (∀ i k : ℕ, (linspace 0 t_end n)[i]? = some (k * h) → k < X.length → ZeroRow 2 dim errs i) ∧
      ∀ i k : ℕ, (linspace 0 t_end n)[i]? = some ((k + 1 / 2) * h) → k + 1 < X.length → ZeroRow 2 dim errs i := by
  have hlen : (2 : ℝ) ≤ X.length := by exact_mod_cast hX
  have hh0 : 0 < h := by rw [hh]; exact div_pos ht (by linarith)
  have huc : ∀ u un : W, ucOf "hs_mod" u un = (1 / 2 : ℝ) • (u + un) := fun u un => by
    simp [ucOf, show pyIn "j" "hs_mod" = false by decide]
  have key : ∀ k x xn u un, X[k]? = some x → X[k + 1]? = some xn → U[k]? = some u → U[k + 1]? = some un →
      ∀ c, StepCurves (.parab (1 / 2)) "hs_mod" 2 dim f h x xn u un c → ∀ p < 2, ∀ j (hj : j < dim),
        c j p h = seq2 (halves xn) p ⟨j, hj⟩ ∧
        c j p (1 / 2 * h) = seq2 (halves (midOf "hs_mod" x xn (f x u) (f xn un) h)) p ⟨j, hj⟩ := by
    intro k x xn u un x1 x2 u1 u2 c hc p hp j hj
    have pm := vec_second hF hc
    rw [mod_mid hF, huc, show (1 / 2 * h : ℝ) = h / 2 by ring] at pm
    have res := sol k x xn u un x1 x2 u1 u2
    obtain ⟨-, -, -, -, -, -, -, c4⟩ := C04_hs_mod F2 (halves x) (halves xn) u un ((1 / 2 : ℝ) • (u + un)) h hh0.ne'
    obtain ⟨c71, c72, -⟩ := C07_hsn 2 (seq2 (halves x)) (seq2 (halves xn)) _ _ _ h hh0.ne' _ pm
    have hr : ∀ p < 2, hsMRestr 2 (seq2 (halves x)) (seq2 (halves xn)) (F2 (halves x) u).2 (F2 (halves xn) un).2 h
        (F2 (hsModXc (halves x) (halves xn) (F2 (halves x) u).2 (F2 (halves xn) un).2 h) ((1 / 2 : ℝ) • (u + un))).2 p
        = 0 := by
      have h8 := (C08_hs_order2 (halves x) (halves xn) (F2 (halves x) u).2 (F2 (halves xn) un).2
        (F2 (hsModXc (halves x) (halves xn) (F2 (halves x) u).2 (F2 (halves xn) un).2 h) ((1 / 2 : ℝ) • (u + un))).2 h).2
      have : hsModAccelRestr (halves x) (halves xn) (F2 (halves x) u).2 (F2 (halves xn) un).2 h
        (F2 (hsModXc (halves x) (halves xn) (F2 (halves x) u).2 (F2 (halves xn) un).2 h) ((1 / 2 : ℝ) • (u + un))).2 = 0 :=
        res
      rw [this] at h8
      intro p hp
      interval_cases p
      · exact congrArg Prod.fst h8
      · exact congrArg Prod.snd h8
    refine ⟨congrFun (c71.1 hr p hp) ⟨j, hj⟩, ?_⟩
    have c4' := (c4 res).1
    rw [mod_mid hF]
    rw [← c4', show (1 / 2 * h : ℝ) = h / 2 by ring]
    interval_cases p
    · exact (congrFun (c72 0 0 (h / 2)) ⟨j, hj⟩).symm
    · exact (congrFun (c72 0 1 (h / 2)) ⟨j, hj⟩).symm
  obtain ⟨errs, out, e1, e2, e3⟩ := C64_feasible .hs_mod (by norm_num) rfl hf hU hX ht hh hn hm lib f (by
    intro k x xn u un x1 x2 u1 u2 c hc p hp j hj
    rw [(key k x xn u un x1 x2 u1 u2 c hc p hp j hj).1]
    interval_cases p <;> simp [seq2, halves])
  refine ⟨errs, out, e1, e2, e3 (1 / 2) rfl (by norm_num) (by norm_num) (fun u un => ?_) ?_⟩
  · rw [huc]; module
  · intro k x xn u un x1 x2 u1 u2 c hc p hp j hj
    rw [(key k x xn u un x1 x2 u1 u2 c hc p hp j hj).2]
    interval_cases p <;> simp [seq2, halves]

/-- C64 for `hsj`: all the errors of any solution are zero at the samples and at two fifths of all steps. -/
theorem C64_hsj {n : ℕ} {X : List (Arr (2 * dim))} {sp? : Option (Params (2 * dim) W)} (hf : Fresh sp?)
    (hU : U.length = X.length) (hX : 2 ≤ X.length) {t_end h : ℝ} (ht : 0 < t_end) (hh : h = t_end / ((X.length : ℝ) - 1))
    (hn : 1 ≤ n) {mode : String} (hm : mode = "q" ∨ mode = "x") (lib : Interp.Lib (2 * dim) W)
    (hF : ∀ x u, f x u = joined (F2 (halves x) u))
    (sol : ∀ k x xn u un, X[k]? = some x → X[k + 1]? = some xn → U[k]? = some u → U[k + 1]? = some un →
      hsjRestr (halves x) (halves xn) u un F2 h = 0) :
    ∃ errs out, dynamicError lib X U t_end f none "hsj" "lin" sp? n 2 mode = .ok (errs, out) ∧
      (∀ i k : ℕ, (linspace 0 t_end n)[i]? = some (k * h) → k < X.length → ZeroRow 2 dim errs i) ∧
      ∀ i k : ℕ, (linspace 0 t_end n)[i]? = some ((k + 2 / 5) * h) → k + 1 < X.length → ZeroRow 2 dim errs i := by
  have hlen : (2 : ℝ) ≤ X.length := by exact_mod_cast hX
  have hh0 : 0 < h := by rw [hh]; exact div_pos ht (by linarith)
  have huc : ∀ u un : W, ucOf "hsj" u un = (0.6 : ℝ) • u + (0.4 : ℝ) • un := fun u un => by
    simp [ucOf, show pyIn "j" "hsj" = true by decide]
  have key : ∀ k x xn u un, X[k]? = some x → X[k + 1]? = some xn → U[k]? = some u → U[k + 1]? = some un →
      ∀ c, StepCurves (.parab (2 / 5)) "hsj" 2 dim f h x xn u un c → ∀ p < 2, ∀ j (hj : j < dim),
        c j p h = seq2 (halves xn) p ⟨j, hj⟩ ∧
        c j p (2 / 5 * h) = seq2 (halves (midOf "hsj" x xn (f x u) (f xn un) h)) p ⟨j, hj⟩ := by
    intro k x xn u un x1 x2 u1 u2 c hc p hp j hj
    have pm := vec_second hF hc
    rw [hsj_mid hF, huc, show (2 / 5 * h : ℝ) = 2 * h / 5 by ring] at pm
    have res := sol k x xn u un x1 x2 u1 u2
    obtain ⟨-, -, -, c1, c2⟩ := C05_hsj F2 (halves x) (halves xn) u un ((0.6 : ℝ) • u + (0.4 : ℝ) • un) h hh0.ne' _ _ rfl rfl
      _ pm
    have e1 := c1.1 res
    have e2 := (c2 res).1
    rw [hsj_mid hF, e2, ← e1, show (2 / 5 * h : ℝ) = 2 * h / 5 by ring]
    interval_cases p <;> exact ⟨rfl, rfl⟩
  obtain ⟨errs, out, e1, e2, e3⟩ := C64_feasible .hsj (by norm_num) rfl hf hU hX ht hh hn hm lib f (by
    intro k x xn u un x1 x2 u1 u2 c hc p hp j hj
    rw [(key k x xn u un x1 x2 u1 u2 c hc p hp j hj).1]
    interval_cases p <;> simp [seq2, halves])
  refine ⟨errs, out, e1, e2, e3 (2 / 5) rfl (by norm_num) (by norm_num) (fun u un => ?_) ?_⟩
  · rw [huc]; module
  · intro k x xn u un x1 x2 u1 u2 c hc p hp j hj
    rw [(key k x xn u un x1 x2 u1 u2 c hc p hp j hj).2]
    interval_cases p <;> simp [seq2, halves]

end second

/-- C64 for `hs` on first order problems: all the errors of any solution are zero at the samples and at the middle of all
steps. -/
theorem C64_hs {dim n : ℕ} {X : List (Arr (1 * dim))} {sp? : Option (Params (1 * dim) W)} (hf : Fresh sp?)
    (hU : U.length = X.length) (hX : 2 ≤ X.length) {t_end h : ℝ} (ht : 0 < t_end) (hh : h = t_end / ((X.length : ℝ) - 1))
    (hn : 1 ≤ n) {mode : String} (hm : mode = "q" ∨ mode = "x") (lib : Interp.Lib (1 * dim) W)
    (f : Arr (1 * dim) → W → Arr (1 * dim))
    (sol : ∀ k x xn u un, X[k]? = some x → X[k + 1]? = some xn → U[k]? = some u → U[k + 1]? = some un →
      hsRestr x xn u un f h = 0) :
    ∃ errs out, dynamicError lib X U t_end f none "hs" "lin" sp? n 1 mode = .ok (errs, out) ∧
      (∀ i k : ℕ, (linspace 0 t_end n)[i]? = some (k * h) → k < X.length → ZeroRow 1 dim errs i) ∧
      ∀ i k : ℕ, (linspace 0 t_end n)[i]? = some ((k + 1 / 2) * h) → k + 1 < X.length → ZeroRow 1 dim errs i := by
  have hlen : (2 : ℝ) ≤ X.length := by exact_mod_cast hX
  have hh0 : 0 < h := by rw [hh]; exact div_pos ht (by linarith)
  have huc : ∀ u un : W, ucOf "hs" u un = (1 / 2 : ℝ) • (u + un) := fun u un => by
    simp [ucOf, show pyIn "j" "hs" = false by decide]
  have hmid : ∀ x xn xd xdn : Arr (1 * dim), midOf "hs" x xn xd xdn h = hsMidpoint x xn xd xdn h := fun x xn xd xdn => by
    rw [midOf, if_neg (by decide), if_neg (by decide)]
  have key : ∀ k x xn u un, X[k]? = some x → X[k + 1]? = some xn → U[k]? = some u → U[k + 1]? = some un →
      ∀ c, StepCurves (.parab (1 / 2)) "hs" 1 dim f h x xn u un c → ∀ j (hj : j < dim),
        c j 0 h = coord xn j ∧ c j 0 (1 / 2 * h) = coord (midOf "hs" x xn (f x u) (f xn un) h) j := by
    intro k x xn u un x1 x2 u1 u2 c hc j hj
    have hj1 : j < 1 * dim := by omega
    have pm : ParabolicMotion 1 _ _ _ _ _ _ _ := hc j hj
    have res := sol k x xn u un x1 x2 u1 u2
    rw [hmid] at pm ⊢
    rw [huc, show (1 / 2 * h : ℝ) = h / 2 by ring] at pm
    obtain ⟨-, -, -, -, -, r1, r2⟩ := C02_hs f x xn u un h hh0.ne'
    obtain ⟨-, k2, -⟩ := C07_hsn 1 _ (fun _ => 0) _ _ _ h hh0.ne' _ pm
    have hco : ∀ τ, c j 0 τ = coord (hsInterp 1 0 (seq1 x) (f x u) (f xn un) τ h
        (f (hsMidpoint x xn (f x u) (f xn un) h) ((1 / 2 : ℝ) • (u + un))) 0) j := by
      intro τ
      rw [show c j 0 τ = _ from (k2 0 0 τ).symm]
      simp [hsInterp, Finset.sum_range_succ, hsList, coord, hj, seq1]
      ring
    dsimp only at r1 r2
    rw [hco, hco, r1.1 res, show (1 / 2 * h : ℝ) = h / 2 by ring, r2 res]
    exact ⟨rfl, rfl⟩
  obtain ⟨errs, out, e1, e2, e3⟩ := C64_feasible .hs (by norm_num) rfl hf hU hX ht hh hn hm lib f (by
    intro k x xn u un x1 x2 u1 u2 c hc p hp j hj
    interval_cases p
    rw [(key k x xn u un x1 x2 u1 u2 c hc j hj).1]
    simp)
  refine ⟨errs, out, e1, e2, e3 (1 / 2) rfl (by norm_num) (by norm_num) (fun u un => ?_) ?_⟩
  · rw [huc]; module
  · intro k x xn u un x1 x2 u1 u2 c hc p hp j hj
    interval_cases p
    rw [(key k x xn u un x1 x2 u1 u2 c hc j hj).2]
    simp

/-- C64 for `hsn` of any order: all the errors of any solution are zero at the samples.  Missing: the middle of the steps,
where the errors of orders three and more are not zero because the centre is computed with the rule of first order
(`C81_hsn_refuted`). -/
theorem C64_hsn_partial {order dim n : ℕ} {X : List (Arr (order * dim))} (hs : SchemeIs (some order) scheme (.parab (1 / 2)) order)
    (ho : 1 ≤ order) {sp? : Option (Params (order * dim) W)} (hf : Fresh sp?) (hU : U.length = X.length)
    (hX : 2 ≤ X.length) {t_end h : ℝ} (ht : 0 < t_end) (hh : h = t_end / ((X.length : ℝ) - 1)) (hn : 1 ≤ n) {mode : String}
    (hm : mode = "q" ∨ mode = "x") (lib : Interp.Lib (order * dim) W) (f : Arr (order * dim) → W → Arr (order * dim))
    (sol : ∀ k x xn u un, X[k]? = some x → X[k + 1]? = some xn → U[k]? = some u → U[k + 1]? = some un →
      ∀ p < order, hsMRestr order (block x) (block xn) (block (f x u) (order - 1)) (block (f xn un) (order - 1)) h
        (block (f (midOf scheme x xn (f x u) (f xn un) h) (ucOf scheme u un)) (order - 1)) p = 0) :
    ∃ errs out, dynamicError lib X U t_end f none scheme "lin" sp? n order mode = .ok (errs, out) ∧
      ∀ i k : ℕ, (linspace 0 t_end n)[i]? = some (k * h) → k < X.length → ZeroRow order dim errs i := by
  have hlen : (2 : ℝ) ≤ X.length := by exact_mod_cast hX
  have hh0 : 0 < h := by rw [hh]; exact div_pos ht (by linarith)
  obtain ⟨errs, out, e1, e2, -⟩ := C64_feasible hs ho rfl hf hU hX ht hh hn hm lib f (by
    intro k x xn u un x1 x2 u1 u2 c hc p hp j hj
    have pm : ParabolicMotion order (block x) (block (f x u) (order - 1))
        (block (f (midOf scheme x xn (f x u) (f xn un) h) (ucOf scheme u un)) (order - 1)) (block (f xn un) (order - 1))
        (h / 2) h fun k τ (j : Fin dim) => c j k τ := by
      rw [show h / 2 = 1 / 2 * h by ring]
      exact vec_parabolic fun j => hc j j.isLt
    have := (C07_hsn order (block x) (block xn) _ _ _ h hh0.ne' _ pm).1.1 (sol k x xn u un x1 x2 u1 u2) p hp
    exact congrFun this ⟨j, hj⟩)
  exact ⟨errs, out, e1, e2⟩

/-! ## First order schemes on problems of higher order -/

/-- The first-order errors of one row are zero. -/
def ZeroFirst (order dim : ℕ) (errs : List (List Arr2)) (i : ℕ) : Prop :=
  ∀ ii < order, ∃ l a, errs[0]? = some l ∧ l[ii]? = some a ∧ ∀ j < dim, rows a.rows i j = 0

/-- The dynamics of a problem of order `order`: the derivative of each component but the last is the next one. -/
def Expanded (order dim : ℕ) (f : Arr d → W → Arr d) : Prop :=
  ∀ x u p j, p + 1 < order → j < dim → coord (f x u) (dim * p + j) = coord x (dim * (p + 1) + j)

theorem first_core {order dim n : ℕ} (ho : 1 ≤ order) (hd : d = order * dim) (hE : Expanded order dim f) {mode : String}
    (hm : mode = "x" ∨ order ≤ 2) {xs : List (Arr d)} {us : List W} {v : ℕ → List (Arr d)} {errs : List (List Arr2)}
    (hT : Table order dim n (fun jj ii i j => coord ((v jj).getD i 0) (dim * ii + j) - if ii + jj + 1 < order then
        coord (xs.getD i 0) (dim * (ii + jj + 1) + j)
        else coord (f (inF mode dim xs v i) (us.getD i 0)) (dim * (order - 1) + j)) errs)
    {i : ℕ} {y : Arr d} {w : W} (hi : i < n) (hy : xs[i]? = some y) (hw : us[i]? = some w) (hv : (v 0)[i]? = some (f y w)) :
    ZeroFirst order dim errs i := by
  have hin : inF mode dim xs v i = y := by
    unfold inF
    split_ifs with h1
    · rw [List.getD_eq_getElem?_getD, hy, Option.getD_some]
    · have ho2 : order ≤ 2 := hm.resolve_left h1
      subst hd
      apply coord_ext
      intro q hq
      have hdim : 0 < dim := Nat.pos_of_ne_zero (by rintro rfl; simp at hq)
      have hp : q / dim < order := by rw [Nat.div_lt_iff_lt_mul hdim]; exact hq
      have hj : q % dim < dim := Nat.mod_lt _ hdim
      rw [coord, dif_pos hq]
      dsimp only
      have hdm : dim * (q / dim) + q % dim = q := Nat.div_add_mod _ _
      split_ifs with h2
      · rw [List.getD_eq_getElem?_getD, hy, Option.getD_some]
        rw [h2, mul_zero, zero_add] at hdm
        rw [hdm]
      · have h3 : q / dim = 1 := by
          generalize q / dim = r at *
          omega
        rw [h3] at hdm ⊢
        rw [Nat.sub_self, List.getD_eq_getElem?_getD, hv, Option.getD_some]
        have := hE y w 0 (q % dim) (by omega) hj
        rw [mul_zero, zero_add, zero_add] at this
        rw [this, hdm]
  intro ii hii
  obtain ⟨l, l1, l2, l3⟩ := hT.2 0 (by omega)
  obtain ⟨a, a1, a2⟩ := l3 ii (by omega)
  refine ⟨l, a, l1, a1, fun j hj => ?_⟩
  rw [a2.2.2 i hi j hj]
  dsimp only
  rw [hin, List.getD_eq_getElem?_getD, hv, Option.getD_some, add_zero]
  split_ifs with h
  · rw [List.getD_eq_getElem?_getD, hy, Option.getD_some, hE y w ii j h hj, sub_self]
  · rw [List.getD_eq_getElem?_getD, hw, Option.getD_some, show ii = order - 1 by omega, sub_self]

/-- C64 for the schemes of first order (`trapz`, `hs`) on problems of any order with expanded dynamics: for any trajectory
at all, the errors of the first derivatives are zero at all the samples. In mode "q" this is for orders up to 2. For `hs`
they are also zero at the middle of all the steps of any solution.  The errors of the derivatives of higher order are not
zero there, and that is what they are meant to show. -/
theorem C64_first {order dim n : ℕ} {s : Shape} (hs : SchemeIs (some order) scheme s 1) (ho : 1 ≤ order)
    (hd : d = order * dim) {sp? : Option (Params d W)} (hf : Fresh sp?) (hU : U.length = X.length) (hX : 2 ≤ X.length)
    {t_end h : ℝ} (ht : 0 < t_end) (hh : h = t_end / ((X.length : ℝ) - 1)) (hn : 1 ≤ n) {mode : String}
    (hm : mode = "x" ∨ mode = "q" ∧ order ≤ 2) (lib : Interp.Lib d W) {f : Arr d → W → Arr d} (hE : Expanded order dim f) :
    ∃ errs out, dynamicError lib X U t_end f none scheme "lin" sp? n order mode = .ok (errs, out) ∧
      (∀ i k : ℕ, (linspace 0 t_end n)[i]? = some (k * h) → k < X.length → ZeroFirst order dim errs i) ∧
      (scheme = "hs" →
        (∀ k x xn u un, X[k]? = some x → X[k + 1]? = some xn → U[k]? = some u → U[k + 1]? = some un →
          hsRestr x xn u un f h = 0) →
        ∀ i k : ℕ, (linspace 0 t_end n)[i]? = some ((k + 1 / 2) * h) → k + 1 < X.length → ZeroFirst order dim errs i) := by
  have hlen : (2 : ℝ) ≤ X.length := by exact_mod_cast hX
  have hpos : (0 : ℝ) < (X.length : ℝ) - 1 := by linarith
  have hh0 : 0 < h := by rw [hh]; positivity
  have hend : ((X.length : ℝ) - 1) * h = t_end := by rw [hh]; field_simp
  obtain ⟨sp, hsp⟩ : ∃ sp : Params d W, sp = { sp?.getD Params.empty with order := some order } := ⟨_, rfl⟩
  have hs' : SchemeIs ((some sp).getD Params.empty).order scheme s 1 := by rw [hsp]; exact hs
  have hf' : Fresh (some sp) := by
    intro a ha
    cases ha
    rw [hsp]
    exact fresh_getD hf
  have hl := linspace_length 0 t_end n
  obtain ⟨⟨⟨xs, us⟩, out, e⟩, hder⟩ := C14_call_total (lib := lib) (ts := linspace 0 t_end n) hs' (one_mul d).symm
    (by omega) hf' f hU hX hh0
    (by intro h; rw [h] at hl; simp at hl; omega)
    (by intro t htm
        obtain ⟨i, hi, rfl⟩ := List.getElem_of_mem htm
        have := linspace_get (List.getElem?_eq_getElem hi) ht.le
        rwa [hend])
  have hk : s ≠ .parab (2 / 5) := by
    intro h
    subst h
    generalize hS : Shape.parab (2 / 5) = S at hs
    generalize hN : (1 : ℕ) = N at hs
    cases hs <;> first | omega | (simp only [Shape.parab.injEq] at hS; norm_num at hS) | cases hS
  have hder' : ∀ k, ∃ v o, interpolatedDerivative lib false X U h (linspace 0 t_end n) (some f) none scheme
      (k + 1) (some sp) = .ok (v, o) := by
    intro k
    obtain ⟨r, o, h⟩ := hder (k + 1) (fun h => absurd h hk)
    exact ⟨r, o, h⟩
  choose v hv using hder'
  have hsc : scheme ≠ "hs_scipy" := by cases hs <;> decide
  obtain ⟨b1, b2, -⟩ := C14_call_beyond hsc hh0 e
  have hvl : ∀ k, (v k).length = n := by
    intro k
    obtain ⟨o, e'⟩ := hv k
    rw [derivative_iff] at e'
    obtain ⟨-, _, _, _, _, -, -, e4, -⟩ := e'
    rw [derivativesAt, if_neg hsc] at e4
    rw [(Interp.mapM_ok e4).1, hl]
  have hm1 : mode = "q" ∨ mode = "x" := by
    rcases hm with h | h
    · exact Or.inr h
    · exact Or.inl h.1
  have hm2 : mode = "x" ∨ order ≤ 2 := hm.imp id And.right
  obtain ⟨errs, g1, g2⟩ := dynamicError_ok ho hd (by omega) hf hm1 hh (by rw [← hl]; exact b1) (hsp ▸ e)
    (fun k _ => ⟨hvl k, by rw [← hsp]; exact hv k⟩)
  have hget : ∀ k, k < X.length → ∃ x u, X[k]? = some x ∧ U[k]? = some u := fun k hk =>
    ⟨X[k], U[k]'(hU ▸ hk), List.getElem?_eq_getElem hk, List.getElem?_eq_getElem (hU ▸ hk)⟩
  have hex : ∀ x xn u un, ∃ c, StepCurves s scheme 1 d f h x xn u un c := by
    intro x xn u un
    choose c hc using fun j => stepMotion_exists hs (fun q => coord x (d * q + j)) (coord (f x u) (d * (1 - 1) + j))
      (coord (f (midOf scheme x xn (f x u) (f xn un) h) (ucOf scheme u un)) (d * (1 - 1) + j))
      (coord (f xn un) (d * (1 - 1) + j)) h hh0
    exact ⟨c, fun j _ => hc j⟩
  obtain ⟨o, e0⟩ := hv 0
  refine ⟨errs, _, g1, ?_, ?_⟩
  · intro i k hi hk1
    obtain ⟨x, u, x1, u1⟩ := hget k hk1
    refine first_core ho hd hE hm2 g2 (linspace_index hi) (C14_call_sample hsc hh0 e hi x1) (w := u) ?_ ?_
    · by_cases hk2 : k + 1 < X.length
      · obtain ⟨xn, un, x2, u2⟩ := hget (k + 1) hk2
        have hi' : (linspace 0 t_end n)[i]? = some ((k + (0 : ℝ)) * h) := by rw [add_zero]; exact hi
        have := (call_control hU hh0 e).1 k 0 u un hi' le_rfl one_pos u1 u2
        simpa using this
      · exact (call_control hU hh0 e).2 k u hi (by omega) u1
    · by_cases hk2 : k + 1 < X.length
      · obtain ⟨xn, un, x2, u2⟩ := hget (k + 1) hk2
        obtain ⟨c, hc⟩ := hex x xn u un
        have hi' : (linspace 0 t_end n)[i]? = some ((k + (0 : ℝ)) * h) := by rw [add_zero]; exact hi
        obtain ⟨z, z1, z2⟩ := C14_call_derivative hs' (one_mul d).symm (by omega) hf' hU hh0 (fun h => absurd h hk) e0 hi'
          le_rfl (by norm_num) x1 x2 u1 u2
        rw [z1]
        congr 1
        apply coord_ext
        intro j hj
        have := z2 0 j one_pos hj _ (hc j hj)
        rw [mul_zero, zero_add] at this
        rw [this, zero_mul]
        have hcj := hc j hj
        cases s with
        | line => obtain ⟨b, hb⟩ := LinearMotion.top_line hcj; simpa using hb 0
        | parab θ => obtain ⟨b, b', hb⟩ := ParabolicMotion.top_parabola hcj; simpa using hb 0
      · obtain ⟨m, rfl⟩ : ∃ m, k = m + 1 := ⟨k - 1, by omega⟩
        obtain ⟨x', u', x1', u1'⟩ := hget m (by omega)
        obtain ⟨c, hc⟩ := hex x' x u' u
        obtain ⟨z, z1, z2⟩ := call_derivative_end hs' (one_mul d).symm (by omega) hf' hU hh0 (fun h => absurd h hk) e0
          (by push_cast at hi; exact hi) (by omega) x1' x1 u1' u1
        rw [z1]
        congr 1
        apply coord_ext
        intro j hj
        have := z2 0 j one_pos hj _ (hc j hj)
        rw [mul_zero, zero_add] at this
        rw [this]
        have hcj := hc j hj
        cases s with
        | line => simpa using LinearMotion.top_end hcj
        | parab θ => simpa using ParabolicMotion.top_end hcj
  · rintro rfl sol i k hi hk1
    obtain ⟨x, u, z, h1, h2, h3, rfl⟩ := C81_hs hf' hU hh0 sol e e0 hi hk1
    exact first_core ho hd hE hm2 g2 (linspace_index hi) h1 h2 h3

/-! ## Calls that raise -/

/-- C64: a mode that is neither "q" nor "x" raises a value error (all calls whose interpolations succeed). -/
theorem C64_mode {order n : ℕ} (ho : 1 ≤ order) {t_end h : ℝ} (hX : X.length ≠ 1) {sp? : Option (Params d W)}
    (lib : Interp.Lib d W) (f : Arr d → W → Arr d) {X_dot : Option (List (Arr d))} {u_scheme mode : String}
    (hm : mode ≠ "q" ∧ mode ≠ "x") {r : List (List Arr2) × Option (Params d W)} :
    dynamicError lib X U t_end f X_dot scheme u_scheme sp? n order mode ≠ .ok r := by
  intro e
  simp only [dynamicError, show order ≠ 0 by omega, hX, or_self, if_false, bind, Except.bind] at e
  split at e
  · cases e
  · split at e
    · cases e
    · split at e
      · cases e
      · rw [pickXF, if_neg hm.1, if_neg hm.2] at e
        cases e

/-- C64: one sample, or order 0, raises (a division by zero). -/
theorem C64_one_sample {order n : ℕ} {t_end : ℝ} {sp? : Option (Params d W)} (lib : Interp.Lib d W) (f : Arr d → W → Arr d)
    {X_dot : Option (List (Arr d))} {u_scheme mode : String} (h : order = 0 ∨ X.length = 1) :
    dynamicError lib X U t_end f X_dot scheme u_scheme sp? n order mode = .error .zeroDivision := by
  rw [dynamicError, if_pos h]

/-! ## Non-vacuity -/

/-- A mass with constant force 2, one step of length 1 from rest: all the hypotheses of `C64_hs_mod` hold, and all the errors
at the instants 0, 1/2 and 1 are zero. -/
example (lib : Interp.Lib (2 * 1) ℝ) : ∃ errs out,
    dynamicError lib [![0, 0], ![1, 2]] [2, 2] 1 (fun x u => joined ((halves x).2, fun _ => u)) none "hs_mod" "lin" none 3 2 "q"
      = .ok (errs, out) ∧ ∀ i < 3, ZeroRow 2 1 errs i := by
  obtain ⟨errs, out, e1, e2, e3⟩ := C64_hs_mod (dim := 1) (W := ℝ) (U := [2, 2]) (X := [![0, 0], ![1, 2]]) (n := 3) (sp? := none)
    (F2 := fun x u => (x.2, fun _ => u)) (f := fun x u => joined ((halves x).2, fun _ => u)) (t_end := 1) (h := 1)
    (mode := "q") (by intro a ha; cases ha) rfl (by simp) one_pos (by norm_num) (by norm_num) (Or.inl rfl) lib
    (fun _ _ => rfl) (by
      intro k x xn u un x1 x2 u1 u2
      have hk : k = 0 := by
        have := (List.getElem?_eq_some_iff.1 x2).1
        simp at this
        omega
      subst hk
      simp only [List.getElem?_cons_zero, List.getElem?_cons_succ, Option.some.injEq, zero_add] at x1 x2 u1 u2
      subst x1 x2 u1 u2
      apply Prod.ext <;> funext j <;> simp [hsModRestr, halves, coord] <;> norm_num)
  refine ⟨errs, out, e1, fun i hi => ?_⟩
  interval_cases i
  · exact e2 0 0 (by norm_num [linspace, List.range_succ]) (by simp)
  · exact e3 1 0 (by norm_num [linspace, List.range_succ]) (by simp)
  · exact e2 2 1 (by norm_num [linspace, List.range_succ]) (by simp)

/-- The dynamics of that mass are expanded, as `C64_first` asks. -/
example : Expanded (d := 2 * 1) (W := ℝ) 2 1 fun x u => joined ((halves x).2, fun _ => u) := by
  intro x u p j hp hj
  obtain rfl : p = 0 := by omega
  obtain rfl : j = 0 := by omega
  rw [mul_zero, zero_add, joined_lo _ hj]
  simp [halves]

end Chords.Props
