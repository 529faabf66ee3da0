import Verif.Model.InterpScipy
import Verif.Props.InterpCall
import Verif.Props.HermiteSpline

/-! # C166: the scheme "hs_scipy" -/

namespace Chords.Interp.Props
open Chords Chords.Spec Chords.Interp Chords.Bary Chords.PsInterp Polynomial
open Chords.HermiteSpline (splineAt)

variable {d : ℕ} {W : Type} [AddCommGroup W] [Module ℝ W] {lib : Lib d W} {flat : Bool} {X : List (Arr d)} {U : List W}
  {h : ℝ} {ts : List ℝ} {X_dot : Option (List (Arr d))} {u_scheme : String}

theorem times_sorted (hh : 0 < h) (N : ℕ) : (times h N).Pairwise (· < ·) := by
  rw [times, List.pairwise_map]
  refine List.pairwise_lt_range.imp fun {a b} hab => ?_
  have : (a : ℝ) < b := by exact_mod_cast hab
  nlinarith

theorem times_at {N n : ℕ} (hn : n < N) : arr (times h N) n = n * h := by
  simp [arr, times, hn]

theorem toRow_at {Y : List (Arr d)} {n : ℕ} {y : Arr d} (hy : Y[n]? = some y) (i : Fin d) : rows (Y.map toRow) n i = y i := by
  simp [rows, hy, toRow, at']

/-- The spline in step `n`: the cubic with the values and slopes of both ends. -/
theorem scipy_cubic (hh : 0 < h) {D : List (Arr d)} {n : ℕ} {x xn v vn : Arr d} (x1 : X[n]? = some x) (x2 : X[n + 1]? = some xn)
    (v1 : D[n]? = some v) (v2 : D[n + 1]? = some vn) (i : Fin d) :
    ∃ p : ℝ[X], p.degree < 4 ∧ p.eval (n * h) = x i ∧ p.eval ((n + 1) * h) = xn i ∧ p.derivative.eval (n * h) = v i ∧ p.derivative.eval ((n + 1) * h) = vn i ∧
      ∀ t, n * h ≤ t → t < (n + 1) * h ∨ (n + 2 = X.length) → ∀ k, scipySpline (times h X.length) X D k t i = (derivative^[k] p).eval t := by
  have hn : n + 1 < X.length := (List.getElem?_eq_some_iff.1 x2).1
  have hl : (times h X.length).length = X.length := by simp [times]
  have sp := Chords.Props.spline_cubic (times_sorted hh X.length) (by rw [hl]; omega) (X.map toRow) (D.map toRow)
  obtain ⟨p, p1, p2, p3, p4, p5, p6⟩ := sp.cubic n (by rw [hl]; exact hn) i
  have t1 := times_at (h := h) (show n < X.length by omega)
  have t2 := times_at (h := h) hn
  push_cast at t2
  rw [t1, toRow_at x1] at p2
  rw [t2, toRow_at x2] at p3
  rw [t1, toRow_at v1] at p4
  rw [t2, toRow_at v2] at p5
  rw [hl, t1, t2] at p6
  exact ⟨p, p1, p2, p3, p4, p5, fun t h1 h2 k => p6 t (.inr h1) h2.symm k⟩

/-- The derivatives at the samples: those given, or those of the dynamics. -/
def SlopesAre (F : Option (Arr d → W → Arr d)) (X : List (Arr d)) (U : List W) (X_dot : Option (List (Arr d))) (D : List (Arr d)) : Prop :=
  X_dot = some D ∨ (X_dot = none ∧ ∃ f, F = some f ∧ D = List.zipWith f X U)

theorem missing_scipy {F : Option (Arr d → W → Arr d)} {D Xd : List (Arr d)} (hU : U.length = X.length) (hD : SlopesAre F X U X_dot D) {sp sp' : Params d W}
    (e : missing flat X U h F X_dot "hs_scipy" u_scheme sp = .ok (Xd, sp')) : Xd = D ∧ sp' = sp := by
  rcases hD with rfl | ⟨rfl, f, rfl, rfl⟩
  · unfold missing at e
    simp only [givenXdot, bind, Except.bind, pure, Except.pure, ne_eq, not_true_eq_false, false_and, and_false, if_false] at e
    cases e
    exact ⟨rfl, rfl⟩
  · rw [missing_stale hU (Or.inl (by unfold NeedsMiddle; decide))] at e
    cases e
    exact ⟨rfl, rfl⟩

theorem scipy_states {F : Option (Arr d → W → Arr d)} {D : List (Arr d)} (hlib : lib.spline = scipySpline) (hU : U.length = X.length) (hD : SlopesAre F X U X_dot D)
    {sp? out : Option (Params d W)} {xs : List (Arr d)} {us : List W}
    (e : interpolatedArray lib flat X U h ts F X_dot "hs_scipy" u_scheme sp? = .ok ((xs, us), out)) :
    out = sp? ∧ xs = ts.map (scipySpline (times h X.length) X D 0) := by
  rw [array_iff] at e
  obtain ⟨acc, U', old_t, Xd, sp', e1, e2, e3, e4, rfl⟩ := e
  obtain ⟨rfl, rfl⟩ := prepare_inv hU e1
  obtain ⟨rfl, rfl⟩ := missing_scipy hU hD e2
  rw [statesAt, if_pos rfl, hlib] at e4
  cases e4
  exact ⟨by cases sp? <;> rfl, rfl⟩

theorem scipy_derivatives {F : Option (Arr d → W → Arr d)} {D : List (Arr d)} (hlib : lib.spline = scipySpline) (hU : U.length = X.length) (hD : SlopesAre F X U X_dot D)
    {sp? out : Option (Params d W)} {k : ℕ} (hk : k = 1 ∨ k = 2) {vs : List (Arr d)}
    (e : interpolatedDerivative lib flat X U h ts F X_dot "hs_scipy" k sp? = .ok (vs, out)) :
    out = sp? ∧ vs = ts.map (scipySpline (times h X.length) X D k) := by
  rw [derivative_iff] at e
  obtain ⟨acc, U', old_t, Xd, sp', e1, e2, e4, rfl⟩ := e
  obtain ⟨rfl, rfl⟩ := prepare_inv hU e1
  obtain ⟨rfl, rfl⟩ := missing_scipy hU hD e2
  rw [derivativesAt, if_pos rfl, if_pos hk, hlib] at e4
  cases e4
  exact ⟨by cases sp? <;> rfl, rfl⟩

/-- C166, states and derivatives: in each step `interpolated_array` gives the cubic that has the samples and the slopes at both ends, and
`interpolated_array_derivative` its first and second derivative, at all times, near samples too; neither changes the dictionary. -/
theorem C166_cubic_partial {F : Option (Arr d → W → Arr d)} {D : List (Arr d)} (hlib : lib.spline = scipySpline) (hh : 0 < h) (hU : U.length = X.length)
    (hD : SlopesAre F X U X_dot D) {sp? o1 : Option (Params d W)} {xs : List (Arr d)} {us : List W}
    (e : interpolatedArray lib flat X U h ts F X_dot "hs_scipy" u_scheme sp? = .ok ((xs, us), o1))
    {n : ℕ} {x xn v vn : Arr d} (x1 : X[n]? = some x) (x2 : X[n + 1]? = some xn) (v1 : D[n]? = some v) (v2 : D[n + 1]? = some vn) (j : Fin d) :
    o1 = sp? ∧ ∃ p : ℝ[X], p.degree < 4 ∧ p.eval (n * h) = x j ∧ p.eval ((n + 1) * h) = xn j ∧ p.derivative.eval (n * h) = v j ∧
      p.derivative.eval ((n + 1) * h) = vn j ∧
      ∀ (i : ℕ) (t : ℝ), ts[i]? = some t → n * h ≤ t → t < (n + 1) * h →
        (∃ y : Arr d, xs[i]? = some y ∧ y j = p.eval t) ∧
        ∀ k, k = 1 ∨ k = 2 → ∀ vs o2, interpolatedDerivative lib flat X U h ts F X_dot "hs_scipy" k sp? = .ok (vs, o2) →
          o2 = sp? ∧ ∃ y : Arr d, vs[i]? = some y ∧ y j = (derivative^[k] p).eval t := by
  obtain ⟨p, p1, p2, p3, p4, p5, p6⟩ := scipy_cubic hh x1 x2 v1 v2 j
  obtain ⟨ho, rfl⟩ := scipy_states hlib hU hD e
  refine ⟨ho, p, p1, p2, p3, p4, p5, fun i t hi h1 h2 => ⟨⟨scipySpline (times h X.length) X D 0 t, by rw [List.getElem?_map, hi]; rfl, p6 t h1 (.inl h2) 0⟩, ?_⟩⟩
  intro k hk vs o2 e'
  obtain ⟨ho', rfl⟩ := scipy_derivatives hlib hU hD hk e'
  exact ⟨ho', scipySpline (times h X.length) X D k t, by rw [List.getElem?_map, hi]; rfl, p6 t h1 (.inl h2) k⟩

/-- C166, samples: at the time of every sample, the last one included, the state is the sample and the derivative is the slope there. -/
theorem C166_samples_partial {F : Option (Arr d → W → Arr d)} {D : List (Arr d)} (hlib : lib.spline = scipySpline) (hh : 0 < h) (hU : U.length = X.length) (hX : 2 ≤ X.length)
    (hD : SlopesAre F X U X_dot D) {sp? o1 : Option (Params d W)} {xs : List (Arr d)} {us : List W}
    (e : interpolatedArray lib flat X U h ts F X_dot "hs_scipy" u_scheme sp? = .ok ((xs, us), o1)) {n : ℕ} {x v : Arr d} (x1 : X[n]? = some x) (v1 : D[n]? = some v)
    {i : ℕ} (hi : ts[i]? = some (n * h)) :
    xs[i]? = some x ∧ ∀ vs o2, interpolatedDerivative lib flat X U h ts F X_dot "hs_scipy" 1 sp? = .ok (vs, o2) → vs[i]? = some v := by
  have hn : n < X.length := (List.getElem?_eq_some_iff.1 x1).1
  have hl : (times h X.length).length = X.length := by simp [times]
  have sp := Chords.Props.spline_cubic (times_sorted hh X.length) (by rw [hl]; omega) (X.map toRow) (D.map toRow)
  obtain ⟨-, rfl⟩ := scipy_states hlib hU hD e
  constructor
  · rw [List.getElem?_map, hi, Option.map_some, Option.some_inj]
    funext j
    have := sp.value n (by omega) j
    rw [times_at hn, toRow_at x1] at this
    exact this
  · intro vs o2 e'
    obtain ⟨-, rfl⟩ := scipy_derivatives hlib hU hD (.inl rfl) e'
    rw [List.getElem?_map, hi, Option.map_some, Option.some_inj]
    funext j
    have := sp.slope n (by omega) j
    rw [times_at hn, toRow_at v1] at this
    exact this

theorem cubic_eval {p : ℝ[X]} (hp : p.degree < 4) : ∃ a b c e : ℝ, p = C a + C b * Polynomial.X + C c * Polynomial.X ^ 2 + C e * Polynomial.X ^ 3 := by
  refine ⟨p.coeff 0, p.coeff 1, p.coeff 2, p.coeff 3, ?_⟩
  have hn : p.natDegree < 4 := by
    by_cases h0 : p = 0
    · simp [h0]
    · rw [degree_eq_natDegree h0] at hp; exact_mod_cast hp
  conv_lhs => rw [p.as_sum_range' 4 hn]
  simp [Finset.sum_range_succ, C_mul_X_pow_eq_monomial, ← C_mul_X_eq_monomial]

/-- C166, comparison: on trajectories whose Hermite-Simpson residuals vanish, "hs_scipy" and "hs" give the same states, and the same first and second derivatives, inside
each step. -/
theorem C166_hs {sp? o1 o2 : Option (Params d W)} (hlib : lib.spline = scipySpline) (hf : Fresh sp?) {f : Arr d → W → Arr d} (hU : U.length = X.length) (hh : 0 < h)
    (sol : ∀ n x xn u un, X[n]? = some x → X[n + 1]? = some xn → U[n]? = some u → U[n + 1]? = some un → hsRestr x xn u un f h = 0)
    {xs ys : List (Arr d)} {us us' : List W}
    (e : interpolatedArray lib false X U h ts (some f) none "hs_scipy" u_scheme sp? = .ok ((xs, us), o1))
    (e' : interpolatedArray lib false X U h ts (some f) none "hs" "lin" sp? = .ok ((ys, us'), o2))
    {i n : ℕ} {θ : ℝ} (hi : ts[i]? = some ((n + θ) * h)) (h0 : 1e-8 ≤ θ) (h1 : θ ≤ 1 - 1e-8) (hn : n + 1 < X.length) :
    xs[i]? = ys[i]? ∧ ∀ k, k = 1 ∨ k = 2 → ∀ vs ws q1 q2, interpolatedDerivative lib false X U h ts (some f) none "hs_scipy" k sp? = .ok (vs, q1) →
      interpolatedDerivative lib false X U h ts (some f) none "hs" k sp? = .ok (ws, q2) → vs[i]? = ws[i]? := by
  obtain ⟨x, hx⟩ : ∃ x, X[n]? = some x := ⟨_, List.getElem?_eq_getElem (by omega)⟩
  obtain ⟨xn, hxn⟩ : ∃ x, X[n + 1]? = some x := ⟨_, List.getElem?_eq_getElem hn⟩
  obtain ⟨u, hu⟩ : ∃ x, U[n]? = some x := ⟨_, List.getElem?_eq_getElem (by omega)⟩
  obtain ⟨un, hun⟩ : ∃ x, U[n + 1]? = some x := ⟨_, List.getElem?_eq_getElem (by omega)⟩
  obtain ⟨w, y, y1, y2⟩ := C14_call (M := 1) (dim := d) .hs (by omega) (by norm_num) hf hU hh e' hi h0 h1 hx hxn hu hun
  have hm : midOf "hs" x xn (f x u) (f xn un) h = hsMidpoint x xn (f x u) (f xn un) h := by
    simp [midOf, show pyIn "mod" "hs" = false by decide, show pyIn "j" "hs" = false by decide]
  have hc : ucOf "hs" u un = (1 / 2 : ℝ) • (u + un) := by simp [ucOf, show pyIn "j" "hs" = false by decide]
  obtain ⟨g, hg⟩ : ∃ g, g = f (midOf "hs" x xn (f x u) (f xn un) h) (ucOf "hs" u un) := ⟨_, rfl⟩
  have hres := sol n x xn u un hx hxn hu hun
  have hxc' : (1 / 2 : ℝ) • (x + xn) + (h / 8) • (f x u - f xn un) = midOf "hs" x xn (f x u) (f xn un) h := by rw [hm]; rfl
  simp only [hsRestr] at hres
  rw [hxc', ← hc, ← hg] at hres
  rw [← hg] at y2
  have hDs : SlopesAre (some f) X U none (List.zipWith f X U) := .inr ⟨rfl, f, rfl, rfl⟩
  have cub := fun j => scipy_cubic (X := X) hh hx hxn (zipWith_get (f := f) hx hu) (zipWith_get (f := f) hxn hun) j
  have hin : (n : ℝ) * h ≤ (n + θ) * h ∧ ((n : ℝ) + θ) * h < (n + 1) * h := by constructor <;> nlinarith
  -- the cubic of the spline is the motion of "hs"
  have key : ∀ j : Fin d, ∃ c : ℕ → ℝ → ℝ, StepMotion (.parab (1 / 2)) 1 (fun q => coord x (d * q + j)) (coord (f x u) (d * (1 - 1) + j))
      (coord g (d * (1 - 1) + j)) (coord (f xn un) (d * (1 - 1) + j)) h c ∧
      ∀ k, scipySpline (times h X.length) X (List.zipWith f X U) k ((n + θ) * h) j = c k (θ * h) := by
    intro j
    obtain ⟨p, p1, p2, p3, p4, p5, p6⟩ := cub j
    refine ⟨fun k τ => (derivative^[k] p).eval (n * h + τ), ⟨?_, ?_, ?_, ?_, ?_⟩, fun k => ?_⟩
    · intro k τ
      beta_reduce
      rw [Function.iterate_succ_apply']
      have := ((derivative^[k] p).hasDerivAt (n * h + τ)).comp_const_add (n * h) τ
      exact this
    · intro q hq
      have : q = 0 := by omega
      subst this
      simp [coord, p2]
    · obtain ⟨a, b, c, e, rfl⟩ := cubic_eval p1
      refine ⟨2 * c + 6 * e * (n * h), 3 * e, fun τ => ?_⟩
      have : (coord (f x u) (d * (1 - 1) + j)) = f x u j := by simp [coord]
      rw [this, ← p4]
      simp
      ring
    · obtain ⟨a, b, c, e, rfl⟩ := cubic_eval p1
      have hr := congrFun hres j
      have : (coord g (d * (1 - 1) + j)) = g j := by simp [coord]
      rw [this]
      simp at hr p2 p3 p4 p5 ⊢
      rw [← p2, ← p3, ← p4, ← p5] at hr
      have h6 : h * g j = h * (b + c * (2 * (n * h + 2⁻¹ * h)) + e * (3 * (n * h + 2⁻¹ * h) ^ 2)) := by linarith
      rw [mul_left_cancel₀ hh.ne' h6]
      ring
    · have : (coord (f xn un) (d * (1 - 1) + j)) = f xn un j := by simp [coord]
      rw [this, ← p5]
      simp only [Function.iterate_one]
      congr 1
      ring
    · rw [p6 _ hin.1 (.inl hin.2) k]
      congr 1
      ring
  obtain ⟨-, rfl⟩ := scipy_states hlib hU hDs e
  constructor
  · rw [y1, List.getElem?_map, hi, Option.map_some, Option.some_inj]
    funext j
    obtain ⟨c, c1, c2⟩ := key j
    have := y2 0 j (by norm_num) j.isLt c c1
    rw [c2 0, ← zero_add 0, ← this]
    simp [coord]
  · intro k hk vs ws q1 q2 ev ew
    obtain ⟨-, rfl⟩ := scipy_derivatives hlib hU hDs hk ev
    obtain ⟨z, z1, z2⟩ := C14_call_derivative (M := 1) (dim := d) .hs (by omega) (by norm_num) hf hU hh (fun hc => by rcases hk with rfl | rfl <;> simp) ew hi (by linarith)
      h1 hx hxn hu hun
    rw [← hg] at z2
    rw [z1, List.getElem?_map, hi, Option.map_some, Option.some_inj]
    funext j
    obtain ⟨c, c1, c2⟩ := key j
    have := z2 0 j (by norm_num) j.isLt c c1
    rw [c2 k, ← zero_add k, ← this]
    simp [coord]

/-- C166: calls succeed, if the last of the times is not beyond the end. -/
theorem C166_total {F : Option (Arr d → W → Arr d)} {D : List (Arr d)} (hU : U.length = X.length) (hX : X ≠ []) (hh : 0 < h) (hD : SlopesAre F X U X_dot D)
    {t : ℝ} (ht : ts.getLast? = some t) (hr : t ≤ ((X.length : ℝ) - 1) * h) (sp? : Option (Params d W)) :
    (∃ r, interpolatedArray lib flat X U h ts F X_dot "hs_scipy" "lin" sp? = .ok (r, sp?)) ∧
    ∀ k, ∃ vs, interpolatedDerivative lib flat X U h ts F X_dot "hs_scipy" k sp? = .ok (vs, sp?) := by
  have hp := prepare_ok hU ht hX hh hr
  have hm : ∀ us, missing flat X U h F X_dot "hs_scipy" us (sp?.getD Params.empty) = .ok (D, sp?.getD Params.empty) := by
    intro us
    rcases hD with rfl | ⟨rfl, f, rfl, rfl⟩
    · unfold missing
      simp only [givenXdot, bind, Except.bind, pure, Except.pure, ne_eq, not_true_eq_false, false_and, and_false, if_false]
    · exact missing_stale hU (Or.inl (by unfold NeedsMiddle; decide))
  have ho : (sp?.map fun _ => sp?.getD Params.empty) = sp? := by cases sp? <;> rfl
  constructor
  · obtain ⟨us, hus⟩ : ∃ us, interpolateU lib flat X D F "hs_scipy" U (times h X.length) ts "lin" (sp?.getD Params.empty) = .ok us := by
      simp only [interpolateU, if_true]
      apply mapM_total
      intro t _
      rw [← hU]
      obtain ⟨p, rest, _, e⟩ := interpAt_cons (h := h) (U := U) (by rintro rfl; simp at hU; exact hX (List.length_eq_zero_iff.1 hU.symm)) t
      exact ⟨_, e⟩
    refine ⟨(ts.map (lib.spline (times h X.length) X D 0), us), ?_⟩
    rw [array_iff]
    refine ⟨⟨by decide, by decide, by decide, by decide, fun hc => absurd hc (by decide), by simp⟩, U, _, D, _, hp, hm _, hus, if_pos rfl, ho.symm⟩
  · intro k
    have : ∃ vs, derivativesAt lib flat X D h (times h X.length) ts "hs_scipy" k (sp?.getD Params.empty) = .ok vs := by
      rw [derivativesAt, if_pos rfl]
      split_ifs <;> exact ⟨_, rfl⟩
    obtain ⟨vs, hvs⟩ := this
    refine ⟨vs, ?_⟩
    rw [derivative_iff]
    exact ⟨by decide, U, _, D, _, hp, hm _, hvs, ho.symm⟩

/-- C166 is false of other orders: they give zeros. Here the states are `3 t² - 2 t³`, whose third derivative is `-12`. -/
theorem C166_order_refuted (lib : Lib 1 ℝ) (hlib : lib.spline = scipySpline) : ∀ t, 0 ≤ t → t < 1 →
    (∃ us, interpolatedArray lib false [fun _ => 0, fun _ => 1] [0, 0] 1 [t] none (some [fun _ => 0, fun _ => 0]) "hs_scipy" "lin" none =
      .ok (([fun _ => 3 * t ^ 2 - 2 * t ^ 3], us), none)) ∧
    interpolatedDerivative lib false [fun _ => 0, fun _ => 1] [0, 0] 1 [t] none (some [fun _ => 0, fun _ => 0]) "hs_scipy" 3 none = .ok ([0], none) := by
  intro t h0 h1
  have tot := C166_total (lib := lib) (flat := false) (F := none) (U := [(0 : ℝ), 0]) (X := [(fun _ => 0 : Arr 1), fun _ => 1]) (ts := [t]) rfl (by simp) one_pos
    (.inl rfl : SlopesAre (none : Option (Arr 1 → ℝ → Arr 1)) _ _ (some [(fun _ => 0 : Arr 1), fun _ => 0]) _) (t := t) rfl (by norm_num; linarith) none
  obtain ⟨⟨⟨xs, us⟩, e⟩, e2⟩ := tot
  obtain ⟨vs, e3⟩ := e2 3
  constructor
  · refine ⟨us, ?_⟩
    obtain ⟨-, hxs⟩ := scipy_states hlib rfl (.inl rfl) e
    obtain ⟨p, p1, p2, p3, p4, p5, p6⟩ := scipy_cubic (X := [(fun _ => 0 : Arr 1), fun _ => 1]) (D := [(fun _ => 0 : Arr 1), fun _ => 0]) (n := 0) (h := 1) one_pos rfl rfl rfl rfl 0
    rw [e, hxs]
    have : scipySpline (times 1 [(fun _ => 0 : Arr 1), fun _ => 1].length) [(fun _ => 0 : Arr 1), fun _ => 1] [(fun _ => 0 : Arr 1), fun _ => 0] 0 t =
        fun _ => 3 * t ^ 2 - 2 * t ^ 3 := by
      funext j
      obtain rfl : j = 0 := Subsingleton.elim _ _
      rw [p6 t (by simpa using h0) (.inl (by simpa using h1)) 0]
      obtain ⟨a, b, c, e, rfl⟩ := cubic_eval p1
      simp at p2 p3 p4 p5 ⊢
      subst p2 p4
      have hc : c = 3 := by linarith
      have he : e = -2 := by linarith
      rw [hc, he]; ring
    simp only [List.map_cons, List.map_nil, this]
  · rw [derivative_iff] at e3 ⊢
    obtain ⟨acc, U', old_t, Xd, sp', f1, f2, f4, f5⟩ := e3
    refine ⟨acc, U', old_t, Xd, sp', f1, f2, ?_, f5⟩
    rw [derivativesAt, if_pos rfl, if_neg (by norm_num)]
    rfl

/-- C166 is false of times beyond the trajectory: only the last one is looked at. Here a time a hundred steps after the end is accepted. -/
theorem C166_outside_refuted (lib : Lib 1 ℝ) : ∃ r, interpolatedArray lib false [fun _ => 0, fun _ => 1] [0, 0] 1 [100, 1] none (some [fun _ => 0, fun _ => 0]) "hs_scipy" "lin" none =
    .ok (r, none) :=
  (C166_total (lib := lib) (flat := false) (F := none) (U := [(0 : ℝ), 0]) (X := [(fun _ => 0 : Arr 1), fun _ => 1]) (ts := [100, 1]) rfl (by simp) one_pos
    (.inl rfl : SlopesAre (none : Option (Arr 1 → ℝ → Arr 1)) _ _ (some [(fun _ => 0 : Arr 1), fun _ => 0]) _) (t := 1) rfl (by norm_num) none).1

/-- The hypotheses of C166_hs are met: `x' = u`, controls `0, 2`, step 2. -/
example : ∃ lib : Lib 1 ℝ, lib.spline = scipySpline ∧
    (∀ n x xn u un, ([fun _ => 0, fun _ => 2] : List (Arr 1))[n]? = some x → ([fun _ => 0, fun _ => 2] : List (Arr 1))[n + 1]? = some xn → ([0, 2] : List ℝ)[n]? = some u →
      ([0, 2] : List ℝ)[n + 1]? = some un → hsRestr x xn u un (fun _ u _ => u) 2 = 0) ∧
    (∃ r o, interpolatedArray lib false [fun _ => 0, fun _ => 2] [0, 2] 2 [1] (some fun _ u _ => u) none "hs_scipy" "lin" none = .ok (r, o)) ∧
    ∃ r o, interpolatedArray lib false [fun _ => 0, fun _ => 2] [0, 2] 2 [1] (some fun _ u _ => u) none "hs" "lin" none = .ok (r, o) := by
  refine ⟨⟨scipySpline, fun _ u => u⟩, rfl, ?_, ?_, ?_⟩
  · intro n x xn u un h1 h2 h3 h4
    match n with
    | 0 =>
      simp at h1 h2 h3 h4
      subst h1 h2 h3 h4
      funext j
      simp [hsRestr]
      norm_num
    | n + 1 => simp at h2
  · obtain ⟨r, e⟩ := (C166_total (lib := ⟨scipySpline, fun _ u => u⟩) (flat := false) (F := some fun _ u _ => u) (U := [(0 : ℝ), 2])
      (X := [(fun _ => 0 : Arr 1), fun _ => 2]) (h := 2) (ts := [1]) rfl (by simp) two_pos (.inr ⟨rfl, _, rfl, rfl⟩) (t := 1) rfl (by norm_num) none).1
    exact ⟨r, none, e⟩
  · refine (C14_call_total (lib := ⟨scipySpline, fun _ u => u⟩) (sp? := none) (U := [(0 : ℝ), 2]) (X := [(fun _ => 0 : Arr 1), fun _ => 2]) (h := 2) (ts := [1]) (M := 1)
      (dim := 1) .hs rfl one_pos (by intro sp hsp; cases hsp) (fun _ u _ => u) rfl (by simp) two_pos (by simp) ?_).1
    intro t ht
    simp at ht
    subst ht
    norm_num

end Chords.Interp.Props
