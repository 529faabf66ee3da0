import Verif.Lemmas.Interp
import Mathlib.Analysis.Calculus.Deriv.Pi
import Mathlib.Analysis.Calculus.Deriv.Comp
import Mathlib.Analysis.Calculus.Deriv.Add
import Mathlib.Analysis.Calculus.Deriv.Shift

/-! # C14, C15, C16, C79, C80: interpolation of a piecewise trajectory -/

namespace Chords.Interp.Props
open Chords Chords.Spec Chords.Interp

variable {W : Type} {M dim d : ℕ}

/-! ### C14: the right piece for every time -/

/-- What is known about step `n` of a trajectory: the samples and the derivatives at both ends, and, unless the highest
derivative is a straight line, the derivative at the inner point. -/
structure Step (s : Shape) (X X_dot : List (Arr d)) (sp : Params d W) (n : ℕ) (x xn xd xdn xdc : Arr d) : Prop where
  x : X[n]? = some x
  xn : X[n + 1]? = some xn
  xd : X_dot[n]? = some xd
  xdn : X_dot[n + 1]? = some xdn
  mid : s = .line ∨ ∃ Xc, sp.x_dot_c = some Xc ∧ Xc[n]? = some xdc

/-- `y` is the value at local time `τ` of derivative number `k` of the curve that the scheme promises on a step: state
component `p` of coordinate `j` is derivative number `p + k` of the motion of coordinate `j`, whatever motion of the right
shape that is. -/
def OnCurve (s : Shape) (M dim : ℕ) (x xd xdn xdc : Arr d) (h : ℝ) (k : ℕ) (τ : ℝ) (y : Arr d) : Prop :=
  ∀ p j, p < M → j < dim → ∀ c, StepMotion s M (fun q => coord x (dim * q + j)) (coord xd (dim * (M - 1) + j))
    (coord xdc (dim * (M - 1) + j)) (coord xdn (dim * (M - 1) + j)) h c → coord y (dim * p + j) = c (p + k) τ

/-- C14, inside a step: for every scheme, every step and every time of the step that is not within `1e-8` steps of a
sample, the interpolation evaluates the curve of that very step at the time since its start. -/
theorem C14_piece {sp : Params d W} {scheme : String} {s : Shape} (hs : SchemeIs sp.order scheme s M) (hd : d = M * dim) (hM : 0 < M)
    {X X_dot : List (Arr d)} {n : ℕ} {x xn xd xdn xdc : Arr d}
    (st : Step s X X_dot sp n x xn xd xdn xdc) {h : ℝ} (hh : 0 < h) {t : ℝ} (h1 : (n + 1e-8) * h ≤ t)
    (h2 : t ≤ (n + 1 - 1e-8) * h) :
    ∃ y, newpoint false X X_dot h t scheme sp = .ok y ∧ OnCurve s M dim x xd xdn xdc h 0 (t - n * h) y := by
  subst hd
  obtain ⟨y, e, hy⟩ := piece_at hs hM (k := none) (fun _ => Or.inl rfl) x xn xd xdn xdc st.mid (t - n * h) h hh
  refine ⟨y, ?_, hy⟩
  have hf : ⌊t / h⌋ = (n : ℤ) := floor_of_mem hh (by push_cast; nlinarith) (by push_cast; nlinarith)
  have hlen : n + 1 < X.length := (List.getElem?_eq_some_iff.1 st.xn).1
  have ht : t - h * (((n : ℤ)) : ℝ) = t - n * h := by push_cast; ring
  have a1 : ¬ |t - n * h| < h * 1e-8 := by
    rw [not_lt]; refine le_trans ?_ (le_abs_self _); nlinarith
  have a2 : ¬ |t - n * h - h| < h * 1e-8 := by
    rw [not_lt]; refine le_trans ?_ (neg_le_abs _); nlinarith
  have hx := pyGet_nat st.xn
  have hxd := pyGet_nat st.xdn
  push_cast at hx hxd
  simp only [newpoint, hf, ht, a1, a2, if_false, pyGet_nat st.x, hx, pyGet_nat st.xd, hxd, bind, Except.bind]
  rw [if_neg (by omega), e]

/-- C14, at a sample: every time within `1e-8` steps of a sample time gives the sample itself. -/
theorem C14_sample {d : ℕ} {X X_dot : List (Arr d)} {n : ℕ} {x : Arr d} (hx : X[n]? = some x) {h t : ℝ} (hh : 0 < h)
    (ht : |t - n * h| < h * 1e-8) (scheme : String) (sp : Params d W) (flat : Bool) :
    newpoint flat X X_dot h t scheme sp = .ok x := by
  have hlen : n < X.length := (List.getElem?_eq_some_iff.1 hx).1
  rw [abs_lt] at ht
  by_cases hc : (n : ℝ) * h ≤ t
  · have hf : ⌊t / h⌋ = (n : ℤ) := floor_of_mem hh (by push_cast; linarith) (by push_cast; nlinarith)
    have a1 : |t - h * (((n : ℤ)) : ℝ)| < h * 1e-8 := by
      rw [abs_lt]; push_cast; constructor <;> nlinarith
    simp only [newpoint, hf, a1, if_true, pyGet_nat hx]
    rw [if_neg (by omega)]
  · have hf : ⌊t / h⌋ = (n : ℤ) - 1 := floor_of_mem hh (by push_cast; nlinarith) (by push_cast; nlinarith)
    have a1 : ¬ |t - h * (((n : ℤ) - 1 : ℤ) : ℝ)| < h * 1e-8 := by
      rw [not_lt]; push_cast; refine le_trans ?_ (le_abs_self _); nlinarith
    have a2 : |t - h * (((n : ℤ) - 1 : ℤ) : ℝ) - h| < h * 1e-8 := by
      rw [abs_lt]; push_cast; constructor <;> nlinarith
    simp only [newpoint, hf, a1, a2, if_true, if_false, sub_add_cancel, pyGet_nat hx]
    rw [if_neg (by omega)]

/-- C14, after the end: every time later than the last sample by `1e-8` steps or more is refused. -/
theorem C14_beyond {d : ℕ} {X X_dot : List (Arr d)} {h t : ℝ} (hh : 0 < h)
    (ht : ((X.length : ℝ) - 1 + 1e-8) * h ≤ t) (scheme : String) (sp : Params d W) (flat : Bool) :
    ∃ e, newpoint flat X X_dot h t scheme sp = .error e := by
  have hge : (X.length : ℤ) - 1 ≤ ⌊t / h⌋ := by
    rw [Int.le_floor, le_div_iff₀ hh]; push_cast; nlinarith
  by_cases hc : (X.length : ℤ) ≤ ⌊t / h⌋
  · exact ⟨_, by simp only [newpoint]; rw [if_pos (by omega)]⟩
  · have hf : ⌊t / h⌋ = (X.length : ℤ) - 1 := by omega
    have a1 : ¬ |t - h * (((X.length : ℤ) - 1 : ℤ) : ℝ)| < h * 1e-8 := by
      rw [not_lt]; push_cast; refine le_trans ?_ (le_abs_self _); nlinarith
    have a3 : pyGet X ((X.length : ℤ)) = .error .indexError := pyGet_nat_error le_rfl
    simp only [newpoint, hf, a1, if_false, sub_add_cancel, a3, bind, Except.bind]
    rw [if_neg (by omega)]
    split
    · exact ⟨_, rfl⟩
    · cases pyGet X ((X.length : ℤ) - 1) <;> exact ⟨_, rfl⟩

/-- C14 fails before the start: a negative time is not rejected; Python's negative index silently takes the samples from
the end of the trajectory. At time `-1/2` of the straight line `0, 1, 2` (step 1) the answer is `5/2`. -/
theorem C14_before_refuted : ∃ (X X_dot : List (Arr 1)) (y : Arr 1),
    (∀ n (hn : n < X.length), X[n] 0 = n) ∧ (∀ x ∈ X_dot, x 0 = 1) ∧ X_dot.length = X.length ∧
    newpoint false X X_dot 1 (-1 / 2) "trapz" (Params.empty (W := ℝ)) = .ok y ∧ y 0 = 5 / 2 := by
  refine ⟨[fun _ => 0, fun _ => 1, fun _ => 2], [fun _ => 1, fun _ => 1, fun _ => 1], ?_⟩
  have hf : ⌊(-1 / 2 : ℝ) / 1⌋ = -1 := by rw [Int.floor_eq_iff]; norm_num
  have e : pyGet ([fun _ => 0, fun _ => 1, fun _ => 2] : List (Arr 1)) (-1) = .ok (fun _ => 2) := rfl
  have e0 : pyGet ([fun _ => 0, fun _ => 1, fun _ => 2] : List (Arr 1)) (-1 + 1) = .ok (fun _ => 0) := rfl
  have e1 : pyGet ([fun _ => 1, fun _ => 1, fun _ => 1] : List (Arr 1)) (-1) = .ok (fun _ => 1) := rfl
  have e2 : pyGet ([fun _ => 1, fun _ => 1, fun _ => 1] : List (Arr 1)) (-1 + 1) = .ok (fun _ => 1) := rfl
  have a1 : ¬ |(-1 / 2 : ℝ) - 1 * (((-1 : ℤ)) : ℝ)| < 1 * 1e-8 := by norm_num [abs_of_nonneg]
  have a2 : ¬ |(-1 / 2 : ℝ) - 1 * (((-1 : ℤ)) : ℝ) - 1| < 1 * 1e-8 := by
    rw [show (-1 / 2 : ℝ) - 1 * (((-1 : ℤ)) : ℝ) - 1 = -(1 / 2) by norm_num, abs_neg]; norm_num [abs_of_nonneg]
  obtain ⟨y, ey, hy⟩ := tzArr_at (M := 1) (dim := 1) 0 (fun _ => 2) (fun _ => 1) (fun _ => 1)
    ((-1 / 2 : ℝ) - 1 * (((-1 : ℤ)) : ℝ)) 1 (by norm_num)
  refine ⟨y, ?_, ?_, rfl, ?_, ?_⟩
  · intro n hn
    simp only [List.length_cons, List.length_nil] at hn
    interval_cases n <;> simp
  · intro x hx; simp at hx; subst hx; rfl
  · simp only [newpoint, hf, a1, a2, if_false, e, e0, e1, e2, bind, Except.bind, piece,
      show ("trapz" : String) ≠ "trapz_mod" by decide, if_true, Option.getD_none]
    rw [if_neg (by simp)]
    exact ey
  · have := hy 0 0 (by norm_num) (by norm_num)
    simp [coord, tzInterp, Finset.sum_range_succ, tzList] at this
    rw [this]; norm_num

/-- C14 for the derivatives: on every step, first sample included, derivative number `k` of the interpolation is derivative
`k` of the curve of that step at the time since its start. -/
theorem C14_derivative {sp : Params d W} {scheme : String} {s : Shape} (hs : SchemeIs sp.order scheme s M)
    (hd : d = M * dim) (hM : 0 < M) {X X_dot : List (Arr d)} {n : ℕ} {x xn xd xdn xdc : Arr d}
    (st : Step s X X_dot sp n x xn xd xdn xdc) {k : ℕ} (hk : s = .parab (2 / 5) → k = 1 ∨ k = 2) {h : ℝ} (hh : 0 < h)
    {t : ℝ} (h1 : n * h ≤ t) (h2 : t < (n + 1) * h) (h3 : t ≤ ((X.length : ℝ) - 1 - 1e-8) * h) :
    ∃ y, newpointDer false X X_dot h t scheme k sp = .ok y ∧ OnCurve s M dim x xd xdn xdc h k (t - n * h) y := by
  subst hd
  have hk' : s = .parab (2 / 5) → HsjOrder (some k) := fun e => by
    rcases hk e with rfl | rfl
    · exact Or.inr (Or.inl rfl)
    · exact Or.inr (Or.inr rfl)
  obtain ⟨y, e, hy⟩ := piece_at hs hM hk' x xn xd xdn xdc st.mid (t - n * h) h hh
  refine ⟨y, ?_, hy⟩
  have hf : ⌊t / h⌋ = (n : ℤ) := floor_of_mem hh (by push_cast; nlinarith) (by push_cast; nlinarith)
  have hlen : n + 1 < X.length := (List.getElem?_eq_some_iff.1 st.xn).1
  have ht : t - h * (((n : ℤ)) : ℝ) = t - n * h := by push_cast; ring
  have a1 : ¬ |t - h * ((X.length : ℝ) - 1)| < h * 1e-8 := by
    rw [not_lt]; refine le_trans ?_ (neg_le_abs _); nlinarith
  have hx := pyGet_nat st.xn
  have hxd := pyGet_nat st.xdn
  push_cast at hx hxd
  simp only [newpointDer, hf, ht, a1, if_false, pyGet_nat st.x, hx, pyGet_nat st.xd, hxd, bind, Except.bind]
  rw [if_neg (by omega), e]

/-- C14 for the derivatives, at the last sample: the end of the last step. -/
theorem C14_derivative_end {sp : Params d W} {scheme : String} {s : Shape} (hs : SchemeIs sp.order scheme s M)
    (hd : d = M * dim) (hM : 0 < M) {X X_dot : List (Arr d)} {n : ℕ} {x xn xd xdn xdc : Arr d}
    (st : Step s X X_dot sp n x xn xd xdn xdc) (hn : X.length = n + 2) {k : ℕ} (hk : s = .parab (2 / 5) → k = 1 ∨ k = 2)
    {h : ℝ} (hh : 0 < h) {t : ℝ} (ht : |t - (n + 1) * h| < h * 1e-8) :
    ∃ y, newpointDer false X X_dot h t scheme k sp = .ok y ∧ OnCurve s M dim x xd xdn xdc h k h y := by
  subst hd
  have hk' : s = .parab (2 / 5) → HsjOrder (some k) := fun e => by
    rcases hk e with rfl | rfl
    · exact Or.inr (Or.inl rfl)
    · exact Or.inr (Or.inr rfl)
  obtain ⟨y, e, hy⟩ := piece_at hs hM hk' x xn xd xdn xdc st.mid h h hh
  refine ⟨y, ?_, hy⟩
  have a1 : |t - h * ((X.length : ℝ) - 1)| < h * 1e-8 := by
    rw [hn]; push_cast; rw [show h * ((n : ℝ) + 2 - 1) = (n + 1) * h by ring]; exact ht
  have hlen : (X.length : ℤ) - 2 = n := by omega
  have hx := pyGet_nat st.xn
  have hxd := pyGet_nat st.xdn
  push_cast at hx hxd
  simp only [newpointDer, a1, if_true, hlen, pyGet_nat st.x, hx, pyGet_nat st.xd, hxd, bind, Except.bind]
  rw [if_neg (by omega), e]

/-- C14 for the derivatives, after the end. -/
theorem C14_derivative_beyond {d : ℕ} {X X_dot : List (Arr d)} {h t : ℝ} (hh : 0 < h)
    (ht : ((X.length : ℝ) - 1 + 1e-8) * h ≤ t) (scheme : String) (k : ℕ) (sp : Params d W) (flat : Bool) :
    newpointDer flat X X_dot h t scheme k sp = .error .valueError := by
  have hge : (X.length : ℤ) - 1 ≤ ⌊t / h⌋ := by
    rw [Int.le_floor, le_div_iff₀ hh]; push_cast; nlinarith
  have a1 : ¬ |t - h * ((X.length : ℝ) - 1)| < h * 1e-8 := by
    rw [not_lt]; refine le_trans ?_ (le_abs_self _); nlinarith
  simp only [newpointDer, a1, if_false]
  rw [if_pos (by omega)]

/-- The hypotheses of the theorems above are met: second step of `hs_mod` through `(0, 0), (1, 2), (4, 4)`. -/
example : ∃ (X X_dot : List (Arr (2 * 1))) (sp : Params (2 * 1) ℝ) (x xn xd xdn xdc : Arr (2 * 1)),
    SchemeIs sp.order "hs_mod" (.parab (1 / 2)) 2 ∧ Step (.parab (1 / 2)) X X_dot sp 1 x xn xd xdn xdc ∧
    ((1 : ℕ) + 1e-8) * (1 : ℝ) ≤ 1.5 ∧ (1.5 : ℝ) ≤ ((1 : ℕ) + 1 - 1e-8) * 1 :=
  ⟨[![0, 0], ![1, 2], ![4, 4]], [![0, 2], ![2, 2], ![4, 2]], { x_dot_c := some [![1, 2], ![3, 2]] }, _, _, _, _, _,
    .hs_mod, ⟨rfl, rfl, rfl, rfl, Or.inr ⟨_, rfl, rfl⟩⟩, by norm_num, by norm_num⟩

/-! ### C79: the interpolated derivative is the derivative of the interpolation -/

theorem stepMotion_motion {s : Shape} {M : ℕ} {x : ℕ → ℝ} {a ac an h : ℝ} {c : ℕ → ℝ → ℝ}
    (hc : StepMotion s M x a ac an h c) : Motion c := by
  cases s with
  | line => exact LinearMotion.motion hc
  | parab θ => exact ParabolicMotion.motion hc

theorem onCurve_eq (hd : d = M * dim) {s : Shape} {x xd xdn xdc : Arr d} {h : ℝ} {c : ℕ → ℕ → ℝ → ℝ}
    (hc : ∀ j, StepMotion s M (fun q => coord x (dim * q + j)) (coord xd (dim * (M - 1) + j))
      (coord xdc (dim * (M - 1) + j)) (coord xdn (dim * (M - 1) + j)) h (c j))
    {k : ℕ} {τ : ℝ} {y : Arr d} (hy : OnCurve s M dim x xd xdn xdc h k τ y) :
    y = fun i => c (i.val % dim) (i.val / dim + k) τ := by
  subst hd
  funext i
  have hdim : 0 < dim := by
    rcases Nat.eq_zero_or_pos dim with e | e
    · subst e; exact absurd i.isLt (by simp)
    · exact e
  have h1 : i.val / dim < M := by rw [Nat.div_lt_iff_lt_mul hdim]; exact i.isLt
  have h2 := hy (i.val / dim) (i.val % dim) h1 (Nat.mod_lt _ hdim) (c (i.val % dim)) (hc _)
  rw [Nat.div_add_mod, coord, dif_pos i.isLt] at h2
  exact h2

theorem hasDerivAt_curves {c : ℕ → ℕ → ℝ → ℝ} (hm : ∀ j, Motion (c j)) (d dim k : ℕ) (a t : ℝ) :
    HasDerivAt (fun t => (fun i : Fin d => c (i.val % dim) (i.val / dim + k) (t - a)))
      (fun i : Fin d => c (i.val % dim) (i.val / dim + (k + 1)) (t - a)) t := by
  rw [hasDerivAt_pi]
  intro i
  have := hm (i.val % dim) (i.val / dim + k) (t - a)
  exact HasDerivAt.comp_sub_const t a this

/-- C79. On every step and for every scheme, the interpolated states form a curve, and what is returned as its first
derivative is its derivative, at every time of the step that is not within `1e-8` steps of a sample. -/
theorem C79_first_derivative {sp : Params d W} {scheme : String} {s : Shape} (hs : SchemeIs sp.order scheme s M)
    (hd : d = M * dim) (hM : 0 < M) {X X_dot : List (Arr d)} {n : ℕ} {x xn xd xdn xdc : Arr d}
    (st : Step s X X_dot sp n x xn xd xdn xdc) {h : ℝ} (hh : 0 < h) :
    ∃ f : ℝ → Arr d,
      (∀ t, (n + 1e-8) * h ≤ t → t ≤ (n + 1 - 1e-8) * h → newpoint false X X_dot h t scheme sp = .ok (f t)) ∧
      ∀ t, (n + 1e-8) * h ≤ t → t ≤ (n + 1 - 1e-8) * h →
        ∃ g, newpointDer false X X_dot h t scheme 1 sp = .ok g ∧ HasDerivAt f g t := by
  subst hd
  have hlen : (n : ℝ) + 2 ≤ X.length := by
    have := (List.getElem?_eq_some_iff.1 st.xn).1
    exact_mod_cast this
  choose c hc using fun j => stepMotion_exists hs (fun q => coord x (dim * q + j)) (coord xd (dim * (M - 1) + j))
      (coord xdc (dim * (M - 1) + j)) (coord xdn (dim * (M - 1) + j)) h hh
  refine ⟨fun t i => c (i.val % dim) (i.val / dim + 0) (t - n * h), ?_, ?_⟩
  · intro t h1 h2
    obtain ⟨y, e, hy⟩ := C14_piece hs rfl hM st hh h1 h2
    rw [e, onCurve_eq rfl hc hy]
  · intro t h1 h2
    obtain ⟨y, e, hy⟩ := C14_derivative hs rfl hM st (k := 1) (fun _ => Or.inl rfl) hh (t := t) (by nlinarith) (by nlinarith)
      (by nlinarith)
    refine ⟨y, e, ?_⟩
    rw [onCurve_eq rfl hc hy]
    exact hasDerivAt_curves (fun j => stepMotion_motion (hc j)) _ dim 0 (n * h) t

/-- C79, higher derivatives: what is returned for order `k + 1` is the derivative of what is returned for order `k`, inside
every step (for `hsj` the orders are 1 and 2). -/
theorem C79_higher_derivatives {sp : Params d W} {scheme : String} {s : Shape}
    (hs : SchemeIs sp.order scheme s M) (hd : d = M * dim) (hM : 0 < M) {X X_dot : List (Arr d)} {n : ℕ}
    {x xn xd xdn xdc : Arr d} (st : Step s X X_dot sp n x xn xd xdn xdc) {h : ℝ} (hh : 0 < h) {k : ℕ}
    (hk : s = .parab (2 / 5) → k = 1) :
    ∃ f : ℝ → Arr d,
      (∀ t, n * h ≤ t → t ≤ (n + 1 - 1e-8) * h → newpointDer false X X_dot h t scheme k sp = .ok (f t)) ∧
      ∀ t, n * h ≤ t → t ≤ (n + 1 - 1e-8) * h →
        ∃ g, newpointDer false X X_dot h t scheme (k + 1) sp = .ok g ∧ HasDerivAt f g t := by
  subst hd
  have hlen : (n : ℝ) + 2 ≤ X.length := by
    have := (List.getElem?_eq_some_iff.1 st.xn).1
    exact_mod_cast this
  choose c hc using fun j => stepMotion_exists hs (fun q => coord x (dim * q + j)) (coord xd (dim * (M - 1) + j))
      (coord xdc (dim * (M - 1) + j)) (coord xdn (dim * (M - 1) + j)) h hh
  refine ⟨fun t i => c (i.val % dim) (i.val / dim + k) (t - n * h), ?_, ?_⟩
  · intro t h1 h2
    obtain ⟨y, e, hy⟩ := C14_derivative hs rfl hM st (k := k) (fun e => Or.inl (hk e)) hh (t := t) h1 (by nlinarith)
      (by nlinarith)
    rw [e, onCurve_eq rfl hc hy]
  · intro t h1 h2
    obtain ⟨y, e, hy⟩ := C14_derivative hs rfl hM st (k := k + 1) (fun e => Or.inr (by rw [hk e])) hh (t := t) h1
      (by nlinarith) (by nlinarith)
    refine ⟨y, e, ?_⟩
    rw [onCurve_eq rfl hc hy]
    exact hasDerivAt_curves (fun j => stepMotion_motion (hc j)) _ dim k (n * h) t

/-- C79, at the start of a step: the derivative that is returned has the given highest derivative there, so it is the
derivative of the states for honest data (`X_dot` the shifted state followed by the acceleration). -/
theorem C79_at_samples {sp : Params d W} {scheme : String} {s : Shape} (hs : SchemeIs sp.order scheme s M)
    (hd : d = M * dim) (hM : 0 < M) {X X_dot : List (Arr d)} {n : ℕ} {x xn xd xdn xdc : Arr d}
    (st : Step s X X_dot sp n x xn xd xdn xdc) {h : ℝ} (hh : 0 < h)
    (honest : ∀ p j, p + 1 < M → j < dim → coord xd (dim * p + j) = coord x (dim * (p + 1) + j)) :
    newpointDer false X X_dot h (n * h) scheme 1 sp = .ok xd := by
  subst hd
  have hlen : (n : ℝ) + 2 ≤ X.length := by
    have := (List.getElem?_eq_some_iff.1 st.xn).1
    exact_mod_cast this
  choose c hc using fun j => stepMotion_exists hs (fun q => coord x (dim * q + j)) (coord xd (dim * (M - 1) + j))
      (coord xdc (dim * (M - 1) + j)) (coord xdn (dim * (M - 1) + j)) h hh
  obtain ⟨y, e, hy⟩ := C14_derivative hs rfl hM st (k := 1) (fun _ => Or.inl rfl) hh (t := n * h) le_rfl (by nlinarith)
    (by nlinarith)
  rw [e, onCurve_eq rfl hc hy]
  congr 1
  funext i
  have hdim : 0 < dim := by
    rcases Nat.eq_zero_or_pos dim with e | e
    · subst e; exact absurd i.isLt (by simp)
    · exact e
  have h1 : i.val / dim < M := by rw [Nat.div_lt_iff_lt_mul hdim]; exact i.isLt
  have hi : xd i = coord xd (dim * (i.val / dim) + i.val % dim) := by
    rw [Nat.div_add_mod, coord, dif_pos i.isLt]
  rw [hi, sub_self]
  generalize i.val / dim = p at h1 ⊢
  have hj := Nat.mod_lt i.val hdim
  generalize i.val % dim = j at hj ⊢
  have start : ∀ q, q < M → c j q 0 = coord x (dim * q + j) := by
    intro q hq
    have := hc j
    cases s with
    | line => exact LinearMotion.start this q hq
    | parab θ => exact ParabolicMotion.start this q hq
  have top : c j M 0 = coord xd (dim * (M - 1) + j) := by
    have := hc j
    cases s with
    | line => obtain ⟨b, hb⟩ := LinearMotion.top_line this; rw [hb]; simp
    | parab θ => obtain ⟨b, b', hb⟩ := ParabolicMotion.top_parabola this; rw [hb]; simp
  by_cases hp : p + 1 < M
  · rw [start _ hp, honest p j hp hj]
  · have : p + 1 = M := by omega
    have e2 : M - 1 = p := by omega
    rw [this, top, e2]

end Chords.Interp.Props
