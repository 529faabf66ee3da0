import Verif.Model.Analysis
import Verif.Props.EquiInterp
import Verif.Props.InterpScipy
import Mathlib.MeasureTheory.Integral.DivergenceTheorem

/-! # C123-C126: implicit systems, and errors by numerical integration -/

namespace Chords.Props
open Chords Chords.Spec Chords.Interp Chords.Interp.Props Chords.PsInterp Chords.BuTdInterp Chords.DynErr Chords.Analysis

variable {d dim n : ℕ} {W : Type} [AddCommGroup W] [Module ℝ W]

omit [AddCommGroup W] [Module ℝ W] in
theorem implicitF_ok {M : Arr (2 * dim) → Matrix (Fin dim) (Fin dim) ℝ} {Fi : Arr (2 * dim) → W → Fin dim → ℝ}
    (hM : ∀ x, (M x).det ≠ 0) {f : Arr (2 * dim) → W → Arr (2 * dim)} {x : Arr (2 * dim)} {u : W}
    (hv : (halves (f x u)).1 = (halves x).2) (ha : (M x).mulVec (halves (f x u)).2 = Fi x u) :
    implicitF M Fi 2 x u = .ok (List.ofFn (f x u)) := by
  have hd : 2 * dim / 2 = dim := by omega
  have hinv : ((M x)⁻¹).mulVec (Fi x u) = (halves (f x u)).2 := by
    rw [← ha, Matrix.mulVec_mulVec, Matrix.nonsing_inv_mul _ (isUnit_iff_ne_zero.2 (hM x)), Matrix.one_mulVec]
  have hg : generateG M Fi x u = .ok (List.ofFn (halves (f x u)).2) := by
    simp only [generateG, hM x, if_false]
    rw [if_neg (by omega), hinv, List.take_of_length_le (by simp)]
  have hl : List.ofFn (f x u) = (List.ofFn x).drop dim ++ List.ofFn (halves (f x u)).2 := by
    apply List.ext_getElem
    · simp; omega
    · intro i h1 h2
      simp only [List.length_ofFn] at h1
      by_cases hi : i < dim
      · rw [List.getElem_append_left (by simp; omega)]
        have := congrFun hv ⟨i, hi⟩
        simp only [halves] at this
        rw [coord, dif_pos (by omega), coord, dif_pos (by omega)] at this
        simpa only [List.getElem_ofFn, List.getElem_drop] using this
      · rw [List.getElem_append_right (by simp; omega)]
        simp only [List.getElem_ofFn, halves, List.length_drop, List.length_ofFn]
        rw [coord, dif_pos (by omega)]
        congr 1
        rw [Fin.mk.injEq]
        omega
  simp only [implicitF, hg, Expand.expandF, if_true, liftE, bind, Except.bind, Expand.Ret.toList, List.length_ofFn,
    List.length_drop, hd]
  rw [if_neg (by omega), if_pos (by omega), ← hl]

/-- C123, what holds. For second order systems without multipliers whose matrix is regular, `dynamic_error_implicit` is
`dynamic_error` of any explicit form of the system: of any `f` whose first half is the velocity and whose second half
solves the linear equations. -/
theorem C123_partial {M : Arr (2 * dim) → Matrix (Fin dim) (Fin dim) ℝ} {Fi : Arr (2 * dim) → W → Fin dim → ℝ}
    (hM : ∀ x, (M x).det ≠ 0) {f : Arr (2 * dim) → W → Arr (2 * dim)}
    (hv : ∀ x u, (halves (f x u)).1 = (halves x).2) (ha : ∀ x u, (M x).mulVec (halves (f x u)).2 = Fi x u)
    (lib : Interp.Lib (2 * dim) W) (X : List (Arr (2 * dim))) (U : List W) (t_end : ℝ) (Xd : Option (List (Arr (2 * dim))))
    (scheme u_scheme : String) (sp : Option (Params (2 * dim) W)) (k : ℕ) (mode : String) :
    dynamicErrorImplicit lib X U t_end Fi M Xd scheme u_scheme sp k 2 mode =
      dynamicError lib X U t_end f Xd scheme u_scheme sp k 2 mode := by
  have he : ∃ F : Arr (2 * dim) → W → Arr (2 * dim), ∀ x u, implicitF M Fi 2 x u = .ok (List.ofFn (F x u)) :=
    ⟨f, fun x u => implicitF_ok hM (hv x u) (ha x u)⟩
  have hc : he.choose = f := by
    funext x u
    have h1 := he.choose_spec x u
    rw [implicitF_ok hM (hv x u) (ha x u)] at h1
    exact (List.ofFn_injective (Except.ok.inj h1)).symm
  rw [dynamicErrorImplicit, dif_pos he, hc]

/-- C123: `f` exists for every regular system. -/
theorem C123_explicit {M : Arr (2 * dim) → Matrix (Fin dim) (Fin dim) ℝ} (Fi : Arr (2 * dim) → W → Fin dim → ℝ)
    (hM : ∀ x, (M x).det ≠ 0) : ∃ f : Arr (2 * dim) → W → Arr (2 * dim), (∀ x u, (halves (f x u)).1 = (halves x).2) ∧
      ∀ x u, (M x).mulVec (halves (f x u)).2 = Fi x u := by
  refine ⟨fun x u => joined ((halves x).2, ((M x)⁻¹).mulVec (Fi x u)), fun x u => ?_, fun x u => ?_⟩
  · funext j
    have := joined_lo ((halves x).2, ((M x)⁻¹).mulVec (Fi x u)) j.isLt
    exact this
  · have : (halves (joined ((halves x).2, ((M x)⁻¹).mulVec (Fi x u)))).2 = ((M x)⁻¹).mulVec (Fi x u) := by
      funext j
      have := joined_hi ((halves x).2, ((M x)⁻¹).mulVec (Fi x u)) j.isLt
      exact this
    rw [this, Matrix.mulVec_mulVec, Matrix.mul_nonsing_inv _ (isUnit_iff_ne_zero.2 (hM x)), Matrix.one_mulVec]

/-- One pendulum-like coordinate whose inertia depends on its position. -/
example : ∃ f : Arr (2 * 1) → ℝ → Arr (2 * 1), (∀ x u, (halves (f x u)).1 = (halves x).2) ∧
    ∀ x u, (!![1 + x 0 ^ 2] : Matrix (Fin 1) (Fin 1) ℝ).mulVec (halves (f x u)).2 = fun _ => u :=
  C123_explicit (fun _ u _ => u) fun x => by rw [Matrix.det_fin_one_of]; positivity

theorem implicit_error {order : ℕ} {M : Arr d → Matrix (Fin n) (Fin n) ℝ} {Fi : Arr d → W → Fin n → ℝ}
    (h : ∀ x u l, implicitF M Fi order x u ≠ .ok l) (lib : Interp.Lib d W) (X : List (Arr d)) (U : List W) (t_end : ℝ)
    (Xd : Option (List (Arr d))) (scheme u_scheme : String) (sp : Option (Params d W)) (k : ℕ) (mode : String) :
    ∃ e, dynamicErrorImplicit lib X U t_end Fi M Xd scheme u_scheme sp k order mode = .error e := by
  rw [dynamicErrorImplicit, dif_neg]
  · exact ⟨_, rfl⟩
  · rintro ⟨F, hF⟩
    exact h 0 0 _ (hF 0 0)

/-- C123 fails for systems with multipliers, which are the ones that the documentation describes: the solution of the
equations has more entries than there are coordinates, and the call never returns. -/
theorem C123_multipliers_refuted {m : ℕ} (hm : 1 ≤ m) (M : Arr (2 * dim) → Matrix (Fin (dim + m)) (Fin (dim + m)) ℝ)
    (Fi : Arr (2 * dim) → W → Fin (dim + m) → ℝ) (lib : Interp.Lib (2 * dim) W) (X : List (Arr (2 * dim))) (U : List W)
    (t_end : ℝ) (Xd : Option (List (Arr (2 * dim)))) (scheme u_scheme : String) (sp : Option (Params (2 * dim) W)) (k : ℕ)
    (mode : String) :
    ∃ e, dynamicErrorImplicit lib X U t_end Fi M Xd scheme u_scheme sp k 2 mode = .error e := by
  apply implicit_error
  intro x u l
  have : generateG M Fi x u = .error .value := by
    simp only [generateG]
    split_ifs <;> first | rfl | omega
  simp [implicitF, this, bind, Except.bind]

/-- C123 fails for every order other than 2, although there is an argument for it: the call never returns. -/
theorem C123_order_refuted {order : ℕ} (ho : 1 ≤ order) (h2 : order ≠ 2) (hn : 1 ≤ n)
    (M : Arr (order * dim) → Matrix (Fin n) (Fin n) ℝ) (Fi : Arr (order * dim) → W → Fin n → ℝ)
    (lib : Interp.Lib (order * dim) W) (X : List (Arr (order * dim))) (U : List W) (t_end : ℝ)
    (Xd : Option (List (Arr (order * dim)))) (scheme u_scheme : String) (sp : Option (Params (order * dim) W)) (k : ℕ)
    (mode : String) :
    ∃ e, dynamicErrorImplicit lib X U t_end Fi M Xd scheme u_scheme sp k order mode = .error e := by
  apply implicit_error
  intro x u l
  unfold implicitF generateG
  dsimp only
  split_ifs with h1 h3
  · simp [bind, Except.bind]
  · simp [bind, Except.bind]
  · have h3 : n = order * dim / 2 := not_not.1 h3
    have hq : order * dim / order = dim := Nat.mul_div_cancel_left _ (by omega)
    have hl : ((List.ofFn (((M x)⁻¹).mulVec (Fi x u))).take (order * dim / 2)).length = n := by simp [h3]
    simp only [Expand.expandF, if_true, liftE, bind, Except.bind, Expand.Ret.toList, hl, List.length_drop, List.length_ofFn, hq]
    rw [if_neg (by omega), if_neg]
    · simp
    · intro h
      rcases Nat.lt_or_ge order 2 with h4 | h4
      · have : order = 1 := by omega
        subst this
        omega
      · have : 3 * dim ≤ order * dim := Nat.mul_le_mul_right _ (by omega)
        omega

/-! ### C124: the acceleration at one instant -/

variable {X Xd : List (Arr d)} {U : List W} {h : ℝ} {scheme u_scheme : String} {lib : Interp.Lib d W}
  {f : Arr d → W → Arr d}

/-- C124 fails for every scheme but SciPy's spline, although the others are documented: no call returns. -/
theorem C124_scheme_refuted (hsc : scheme ≠ "hs_scipy") (lib : Interp.Lib d W) (X : List (Arr d)) (U : List W) (t_arr : List ℝ) (t : ℝ) (f : Arr d → W → Arr d)
    (Xd? : Option (List (Arr d))) (u_scheme : String) (sp? : Option (Params d W)) :
    ∃ err, fPoint lib X U t_arr t f Xd? scheme u_scheme sp? = .error err := by
  unfold fPoint
  split_ifs
  · exact ⟨_, rfl⟩
  cases e1 : ends t_arr with
  | error err => exact ⟨err, rfl⟩
  | ok e =>
    simp only [bind, Except.bind]
    generalize missing false X U ((e.2 - e.1) / ((X.length : ℝ) - 1)) (some f) Xd? scheme u_scheme (sp?.getD Params.empty) = r
    rcases r with err | ⟨D, sp⟩
    · exact ⟨_, rfl⟩
    dsimp only
    generalize Analysis.stateAt lib X D t_arr ((e.2 - e.1) / ((X.length : ℝ) - 1)) t scheme sp = r
    rcases r with err | x
    · exact ⟨_, rfl⟩
    dsimp only
    generalize newpointU lib false X D (some f) scheme U ((e.2 - e.1) / ((X.length : ℝ) - 1)) t u_scheme sp = r
    rcases r with err | u
    · exact ⟨_, rfl⟩
    simp only [slopeAt, hsc, if_false, newpointDer8]
    exact ⟨_, rfl⟩

/-- C124: calls that have everything else that they need raise a TypeError. -/
theorem C124_scheme_type_refuted (hsc : scheme ≠ "hs_scipy") (hX : X.length ≠ 1) {t_arr : List ℝ} {t0 tf t : ℝ}
    (h1 : t_arr.head? = some t0) (h2 : t_arr.getLast? = some tf) (hh : h = (tf - t0) / ((X.length : ℝ) - 1)) {Xd? : Option (List (Arr d))}
    {sp? : Option (Params d W)} {sp' : Params d W} (e : missing false X U h (some f) Xd? scheme u_scheme (sp?.getD Params.empty) = .ok (Xd, sp')) {x : Arr d} {u : W}
    (ex : newpoint false X Xd h t scheme sp' = .ok x) (eu : newpointU lib false X Xd (some f) scheme U h t u_scheme sp' = .ok u) :
    fPoint lib X U t_arr t f Xd? scheme u_scheme sp? = .error .typeError := by
  unfold fPoint
  rw [if_neg hX]
  simp only [ends, h1, h2, bind, Except.bind, ← hh, e, Analysis.stateAt, hsc, if_false, ex, eu, slopeAt, newpointDer8]

theorem newpointU_lin {sp : Params d W} {F : Option (Arr d → W → Arr d)} {n : ℕ} {u un : W} (hu : U[n]? = some u) (hun : U[n + 1]? = some un)
    (hh : 0 < h) {θ : ℝ} (h0 : 1e-8 ≤ θ) (h1 : θ ≤ 1 - 1e-8) :
    newpointU lib false X Xd F scheme U h ((n + θ) * h) "lin" sp = .ok ((1 - θ) • u + θ • un) := by
  have hlen : n + 1 < U.length := (List.getElem?_eq_some_iff.1 hun).1
  have hfl : ⌊(n + θ) * h / h⌋ = (n : ℤ) := floor_of_mem hh (by push_cast; nlinarith) (by push_cast; nlinarith)
  have ht : (n + θ) * h - h * (((n : ℤ)) : ℝ) = θ * h := by push_cast; ring
  have a1 : ¬ |θ * h| < h * 1e-8 := by rw [not_lt]; refine le_trans ?_ (le_abs_self _); nlinarith
  have a2 : ¬ |θ * h - h| < h * 1e-8 := by rw [not_lt]; refine le_trans ?_ (neg_le_abs _); nlinarith
  have hx := pyGet_nat hun
  push_cast at hx
  simp only [newpointU, hfl, ht, a1, a2, if_false, pyGet_nat hu, hx, bind, Except.bind, if_true, pure, Except.pure]
  rw [if_neg (by omega), smul_add, smul_smul, smul_smul]
  congr 3 <;> field_simp

omit [AddCommGroup W] [Module ℝ W] in
theorem drop_half {dim : ℕ} (hd : d = 2 * dim) (y : Arr d) :
    (List.ofFn y).drop (d / 2) = (List.range dim).map fun j => coord y (dim + j) := by
  apply List.ext_getElem
  · simp; omega
  · intro i h1 h2
    simp only [List.length_map, List.length_range] at h2
    simp only [List.getElem_drop, List.getElem_ofFn, List.getElem_map, List.getElem_range]
    rw [coord, dif_pos (by omega)]
    congr 1
    rw [Fin.mk.injEq]
    omega

/-- The state made of positions `q` and their derivatives `v`. -/
def phase (d : ℕ) (q v : ℕ → ℝ) : Arr d := fun i => if i.val < d / 2 then q i.val else v (i.val - d / 2)

theorem missing_scipy_ok {D : List (Arr d)} {Xd? : Option (List (Arr d))} (hU : U.length = X.length) (hD : SlopesAre (some f) X U Xd? D) (sp : Params d W) :
    missing false X U h (some f) Xd? "hs_scipy" u_scheme sp = .ok (D, sp) := by
  rcases hD with rfl | ⟨rfl, g, hg, rfl⟩
  · unfold missing
    simp only [givenXdot, bind, Except.bind, pure, Except.pure, ne_eq, not_true_eq_false, false_and, and_false, if_false]
  · cases hg
    exact missing_stale hU (Or.inl (by unfold NeedsMiddle; decide))

/-- What `F_point` does with SciPy's spline once the control is known. -/
theorem fPoint_scipy {dim : ℕ} (hd : d = 2 * dim) (hlib : lib.spline = scipySpline) (hU : U.length = X.length) (hX : 2 ≤ X.length) {D : List (Arr d)}
    {Xd? : Option (List (Arr d))} (hD : SlopesAre (some f) X U Xd? D) (hDl : D.length = X.length) {t_arr : List ℝ} (hl : t_arr.length = X.length)
    (hT : t_arr.Pairwise (· < ·)) {t0 tf t : ℝ} (h1 : t_arr.head? = some t0) (h2 : t_arr.getLast? = some tf) (hh : h = (tf - t0) / ((X.length : ℝ) - 1))
    {sp? : Option (Params d W)} {u : W} (eu : newpointU lib false X D (some f) "hs_scipy" U h t u_scheme (sp?.getD Params.empty) = .ok u)
    {q v : ℕ → ℝ} (hq : ∀ j < dim, coord (scipySpline t_arr X D 0 t) j = q j) (hv : ∀ j < dim, coord (scipySpline t_arr X D 1 t) j = v j) :
    fPoint lib X U t_arr t f Xd? "hs_scipy" u_scheme sp? = .ok ((List.range dim).map (fun j => coord (f (phase d q v) u) (dim + j)), sp?) := by
  have hst : (fun i : Fin d => if i.val < d / 2 then scipySpline t_arr X D 0 t i else at' (scipySpline t_arr X D 1 t) (i.val - d / 2)) = phase d q v := by
    funext i
    have hi := i.isLt
    unfold phase
    split_ifs with hlt
    · rw [← hq _ (by omega), coord, dif_pos hi]
    · rw [← hv _ (by omega)]; rfl
  have hc : 2 ≤ t_arr.length ∧ X.length = t_arr.length ∧ D.length = t_arr.length ∧ t_arr.Pairwise (· < ·) := ⟨by omega, hl.symm, by omega, hT⟩
  unfold fPoint
  rw [if_neg (by omega)]
  have hs0 : ∀ k, hermiteAt lib X D t_arr k t = .ok (scipySpline t_arr X D k t) := by
    intro k
    rw [hermiteAt, if_pos hc, hlib]
  simp only [ends, h1, h2, bind, Except.bind, ← hh, missing_scipy_ok hU hD, Analysis.stateAt, slopeAt, if_true, hs0, eu, pure, Except.pure]
  simp only [hst]
  rw [drop_half hd]
  cases sp? <;> rfl

/-- The motion of SciPy's spline: a state that passes through the samples with the given slopes, a cubic in each step, whose derivative is `V`. -/
structure Motion (X D : List (Arr d)) (t0 h : ℝ) (Q V : ℝ → ℕ → ℝ) : Prop where
  sample : ∀ (n : ℕ) (x : Arr d), X[n]? = some x → ∀ i < d, Q (t0 + n * h) i = coord x i
  slope : ∀ (n : ℕ) (v : Arr d), D[n]? = some v → ∀ i < d, V (t0 + n * h) i = coord v i
  smooth : ∀ t, ∀ i < d, HasDerivAt (fun s => Q s i) (V t i) t
  cubic : ∀ n : ℕ, n + 1 < X.length → ∀ i < d, ∃ p : Polynomial ℝ, p.degree < 4 ∧ ∀ t, t0 + n * h ≤ t → t ≤ t0 + (n + 1) * h → Q t i = p.eval t ∧ V t i = p.derivative.eval t

/-- The equispaced times. -/
def grid (t0 h : ℝ) (N : ℕ) : List ℝ := (List.range N).map fun n : ℕ => t0 + n * h

theorem grid_sorted (hh : 0 < h) (t0 : ℝ) (N : ℕ) : (grid t0 h N).Pairwise (· < ·) := by
  rw [grid, List.pairwise_map]
  refine List.pairwise_lt_range.imp fun {a b} hab => ?_
  have : (a : ℝ) < b := by exact_mod_cast hab
  nlinarith

theorem grid_length (t0 h : ℝ) (N : ℕ) : (grid t0 h N).length = N := by simp [grid]

theorem grid_at {t0 : ℝ} {N n : ℕ} (hn : n < N) : Bary.arr (grid t0 h N) n = t0 + n * h := by
  simp [Bary.arr, grid, hn]

theorem grid_ends {t0 : ℝ} {N : ℕ} (hN : 1 ≤ N) : (grid t0 h N).head? = some t0 ∧ (grid t0 h N).getLast? = some (t0 + ((N : ℝ) - 1) * h) := by
  obtain ⟨m, rfl⟩ : ∃ m, N = m + 1 := ⟨N - 1, by omega⟩
  constructor
  · simp [grid, List.range_succ_eq_map]
  · simp [grid, List.range_succ]

theorem motion_scipy (hh : 0 < h) (hX : 2 ≤ X.length) {D : List (Arr d)} (hD : D.length = X.length) (t0 : ℝ) :
    ∃ Q V : ℝ → ℕ → ℝ, Motion X D t0 h Q V ∧
      ∀ t, (∀ j < d, coord (scipySpline (grid t0 h X.length) X D 0 t) j = Q t j) ∧ ∀ j < d, coord (scipySpline (grid t0 h X.length) X D 1 t) j = V t j := by
  have hl := grid_length t0 h X.length
  have hs := spline_cubic (grid_sorted hh t0 X.length) (by rw [hl]; exact hX) (X.map toRow) (D.map toRow)
  obtain ⟨S, hS⟩ : ∃ S, S = HermiteSpline.splineAt (grid t0 h X.length) (X.map toRow) (D.map toRow) := ⟨_, rfl⟩
  have hrow : ∀ (Y : List (Arr d)) (n : ℕ) (y : Arr d), Y[n]? = some y → ∀ i < d, PsInterp.rows (Y.map toRow) n i = coord y i := by
    intro Y n y hy i hi
    have := toRow_at hy ⟨i, hi⟩
    rw [coord, dif_pos hi]
    exact this
  rw [← hS] at hs
  refine ⟨fun t i => S 0 t i, fun t i => S 1 t i, ⟨?_, ?_, ?_, ?_⟩, ?_⟩
  · intro n x hx i hi
    have hn := (List.getElem?_eq_some_iff.1 hx).1
    have := hs.value n (by rw [hl]; exact hn) i
    rwa [grid_at hn, hrow X n x hx i hi] at this
  · intro n v hv i hi
    have hn := (List.getElem?_eq_some_iff.1 hv).1
    rw [hD] at hn
    have := hs.slope n (by rw [hl]; exact hn) i
    rwa [grid_at hn, hrow D n v hv i hi] at this
  · intro t i _
    exact hs.smooth t i
  · intro n hn i hi
    obtain ⟨p, p1, p2, p3, p4, p5, p6⟩ := hs.cubic n (by rw [hl]; exact hn) i
    have g1 : Bary.arr (grid t0 h X.length) n = t0 + n * h := grid_at (by omega)
    have g2 : Bary.arr (grid t0 h X.length) (n + 1) = t0 + (n + 1) * h := by rw [grid_at hn]; push_cast; rfl
    refine ⟨p, p1, fun t h1 h2 => ?_⟩
    rcases lt_or_eq_of_le h2 with h2 | rfl
    · exact ⟨p6 t (.inr (by rw [g1]; exact h1)) (.inr (by rw [g2]; exact h2)) 0, p6 t (.inr (by rw [g1]; exact h1)) (.inr (by rw [g2]; exact h2)) 1⟩
    · have v := hs.value (n + 1) (by rw [hl]; exact hn) i
      have w := hs.slope (n + 1) (by rw [hl]; exact hn) i
      rw [g2] at v w p3 p5
      exact ⟨v.trans p3.symm, w.trans p5.symm⟩
  · intro t
    constructor <;> (intro j hj; rw [coord, dif_pos hj, hS]; rfl)

/-- The control between two samples, and at the last one. -/
inductive ControlAt (U : List W) (h : ℝ) : ℝ → W → Prop
  | between (k : ℕ) (θ : ℝ) (u un : W) : θ = 0 ∨ 1e-8 ≤ θ ∧ θ ≤ 1 - 1e-8 → U[k]? = some u → U[k + 1]? = some un → ControlAt U h ((k + θ) * h) ((1 - θ) • u + θ • un)
  | last (k : ℕ) (u : W) : U.length = k + 1 → U[k]? = some u → ControlAt U h (k * h) u

theorem control_ok {sp : Params d W} {F : Option (Arr d → W → Arr d)} (hh : 0 < h) {t : ℝ} {u : W} (hc : ControlAt U h t u) :
    newpointU lib false X Xd F scheme U h t "lin" sp = .ok u := by
  rcases hc with ⟨k, θ, u, un, hθ, u1, u2⟩ | ⟨k, u, hl, u1⟩
  · rcases hθ with rfl | ⟨h0, h1⟩
    · rw [C16_newpoint_sample _ _ _ _ _ _ u1 hh (by rw [add_zero, sub_self, abs_zero]; positivity)]
      simp
    · exact newpointU_lin u1 u2 hh h0 h1
  · exact C16_newpoint_sample _ _ _ _ _ _ u1 hh (by rw [sub_self, abs_zero]; positivity) _ _

/-- C124, what holds. For second order systems, SciPy's spline, linear controls and trajectories that start at time zero, `F_point` returns the
acceleration that the dynamics give for the interpolated positions at `t`, their derivatives at `t` and the control at `t`. The slopes of the spline are those that
are given, or else those of the dynamics. -/
theorem C124_partial {dim : ℕ} (hd : d = 2 * dim) (hlib : lib.spline = scipySpline) (hh : 0 < h) (hU : U.length = X.length) (hX : 2 ≤ X.length) {D : List (Arr d)}
    {Xd? : Option (List (Arr d))} (hD : SlopesAre (some f) X U Xd? D) (hDl : D.length = X.length) (sp? : Option (Params d W)) :
    ∃ Q V : ℝ → ℕ → ℝ, Motion X D 0 h Q V ∧ ∀ t u, ControlAt U h t u →
      fPoint lib X U (grid 0 h X.length) t f Xd? "hs_scipy" "lin" sp? = .ok ((List.range dim).map (fun j => coord (f (phase d (Q t) (V t)) u) (dim + j)), sp?) := by
  obtain ⟨Q, V, hm, hv⟩ := motion_scipy hh hX hDl 0
  refine ⟨Q, V, hm, fun t u hc => ?_⟩
  have hlen : (2 : ℝ) ≤ X.length := by exact_mod_cast hX
  have hg := grid_ends (t0 := 0) (h := h) (show 1 ≤ X.length by omega)
  refine fPoint_scipy hd hlib hU hX hD hDl (grid_length _ _ _) (grid_sorted hh _ _) hg.1 hg.2 ?_ (control_ok hh hc) (fun j hj => (hv t).1 j (by omega)) (fun j hj => (hv t).2 j (by omega))
  have : (X.length : ℝ) - 1 ≠ 0 := by linarith
  field_simp
  ring

/-- C124 fails for trajectories that start later: the controls are those of other instants. If the trajectory starts `m` steps after zero, at sample `k` the control
is that of sample `k + m`. -/
theorem C124_shift_refuted {dim : ℕ} (hd : d = 2 * dim) (hlib : lib.spline = scipySpline) (hh : 0 < h) (hU : U.length = X.length) (hX : 2 ≤ X.length) {D : List (Arr d)}
    {Xd? : Option (List (Arr d))} (hD : SlopesAre (some f) X U Xd? D) (hDl : D.length = X.length) (sp? : Option (Params d W)) {k m : ℕ} {x v : Arr d} {u : W}
    (x1 : X[k]? = some x) (v1 : D[k]? = some v) (u1 : U[k + m]? = some u) :
    fPoint lib X U (grid (m * h) h X.length) (m * h + k * h) f Xd? "hs_scipy" "lin" sp? =
      .ok ((List.range dim).map (fun j => coord (f (phase d (coord x) (coord v)) u) (dim + j)), sp?) := by
  obtain ⟨Q, V, hm, hv⟩ := motion_scipy hh hX hDl (m * h)
  have hlen : (2 : ℝ) ≤ X.length := by exact_mod_cast hX
  have hg := grid_ends (t0 := m * h) (h := h) (show 1 ≤ X.length by omega)
  refine fPoint_scipy hd hlib hU hX hD hDl (grid_length _ _ _) (grid_sorted hh _ _) hg.1 hg.2 ?_ (C16_newpoint_sample _ _ _ _ _ _ u1 hh ?_ _ _) (fun j hj => ?_) (fun j hj => ?_)
  · have : (X.length : ℝ) - 1 ≠ 0 := by linarith
    field_simp
    ring
  · push_cast
    rw [show (m : ℝ) * h + k * h - (k + m) * h = 0 by ring, abs_zero]
    positivity
  · rw [(hv _).1 j (by omega), hm.sample k x x1 j (by omega)]
  · rw [(hv _).2 j (by omega), hm.slope k v v1 j (by omega)]

theorem newpointU_beyond {sp : Params d W} {F : Option (Arr d → W → Arr d)} (hU : 1 ≤ U.length) (hh : 0 < h) {t : ℝ} (h1 : ((U.length : ℝ) - 1) * h + 1e-8 * h ≤ t) :
    ∃ err, newpointU lib false X Xd F scheme U h t u_scheme sp = .error err := by
  have hn : (U.length : ℤ) - 1 ≤ ⌊t / h⌋ := by
    rw [Int.le_floor, le_div_iff₀ hh]
    push_cast
    nlinarith
  unfold newpointU
  by_cases h2 : ⌊t / h⌋ + 1 > (U.length : ℤ)
  · simp only [h2, if_true]
    exact ⟨_, rfl⟩
  · have he : ⌊t / h⌋ = (U.length : ℤ) - 1 := by omega
    have hg : pyGet U ((U.length : ℤ) - 1 + 1) = .error .indexError := by
      unfold pyGet
      rw [if_pos (by omega), List.getElem?_eq_none (by omega)]
    have a1 : ¬ |t - h * (((U.length : ℤ) - 1 : ℤ) : ℝ)| < h * 1e-8 := by
      rw [not_lt]
      refine le_trans ?_ (le_abs_self _)
      push_cast
      linarith
    simp only [he, a1, if_false, hg, bind, Except.bind]
    rw [if_neg (by omega)]
    split_ifs
    · exact ⟨_, rfl⟩
    · cases pyGet U ((U.length : ℤ) - 1) with
      | error e => exact ⟨_, rfl⟩
      | ok u => exact ⟨_, rfl⟩

/-- C124 fails for trajectories that start later than at time zero: every call for an instant in the last part of the
trajectory, of the length of `t_arr[0]`, raises. -/
theorem C124_refuted {sp? : Option (Params d W)} {t_arr : List ℝ} {t0 tf t : ℝ} (hU : U.length = X.length) (hX : 2 ≤ X.length)
    (e1 : t_arr.head? = some t0) (e2 : t_arr.getLast? = some tf) (ht : t0 < tf)
    (hh : h = (tf - t0) / ((X.length : ℝ) - 1)) (h1 : tf - t0 + 1e-8 * h ≤ t) (f : Arr d → W → Arr d)
    (Xd? : Option (List (Arr d))) :
    ∃ err, fPoint lib X U t_arr t f Xd? scheme u_scheme sp? = .error err := by
  have hlen : (2 : ℝ) ≤ X.length := by exact_mod_cast hX
  have hpos : (0 : ℝ) < (X.length : ℝ) - 1 := by linarith
  have hh0 : 0 < h := by rw [hh]; exact div_pos (by linarith) hpos
  have hend : ((X.length : ℝ) - 1) * h = tf - t0 := by rw [hh]; field_simp
  unfold fPoint
  rw [if_neg (by omega)]
  simp only [ends, e1, e2, bind, Except.bind, ← hh]
  rcases missing false X U h (some f) Xd? scheme u_scheme (sp?.getD Params.empty) with e | ⟨D, sp⟩
  · exact ⟨_, rfl⟩
  dsimp only
  rcases Analysis.stateAt lib X D t_arr h t scheme sp with e | x
  · exact ⟨_, rfl⟩
  obtain ⟨err, he⟩ := newpointU_beyond (lib := lib) (X := X) (Xd := D) (F := some f) (scheme := scheme) (u_scheme := u_scheme) (sp := sp) (U := U) (by omega) hh0 (t := t)
    (by rw [hU]; linarith)
  simp only [he]
  exact ⟨_, rfl⟩

/-! ### C125 and C126: integrals of the dynamic error -/

/-- C125 is false: `quad_problem` never returns, for any trajectory of at least one coordinate and any scheme. -/
theorem C125_refuted (hd : 2 ≤ d) (quad : (ℝ → ℝ) → ℝ → ℝ → ℝ) (lib : Interp.Lib d W) (X : List (Arr d)) (U : List W) (t_arr : List ℝ) (f : Arr d → W → Arr d)
    (scheme u_scheme : String) (sp : Params d W) (Xd? : Option (List (Arr d))) :
    ∃ err, quadProblem quad lib X U t_arr f scheme u_scheme sp Xd? = .error err := by
  unfold quadProblem
  cases ends t_arr with
  | error err => exact ⟨err, rfl⟩
  | ok e =>
    simp only [bind, Except.bind]
    generalize missing false X U ((e.2 - e.1) / ((t_arr.length : ℝ) - 1)) (some f) Xd? scheme u_scheme sp = r
    rcases r with err | ⟨D, sp⟩
    · exact ⟨_, rfl⟩
    dsimp only
    rw [if_neg]
    · exact ⟨_, rfl⟩
    · rintro (h0 | H)
      · omega
      · obtain ⟨l, hl⟩ := H e.1 Set.left_mem_uIcc
        unfold accelError at hl
        generalize fPoint lib X U t_arr e.1 f none scheme u_scheme (some sp) = r at hl
        rcases r with err | E <;> simp [bind, Except.bind, newpointDer8] at hl

/-- C125, what is left of it: without coordinates there are no integrals. -/
theorem C125_partial (hd : d < 2) (quad : (ℝ → ℝ) → ℝ → ℝ → ℝ) {D : List (Arr d)} {Xd? : Option (List (Arr d))} (hU : U.length = X.length) (hD : SlopesAre (some f) X U Xd? D)
    {t_arr : List ℝ} (ht : t_arr ≠ []) (sp : Params d W) : quadProblem quad lib X U t_arr f "hs_scipy" u_scheme sp Xd? = .ok [] := by
  obtain ⟨t, l, rfl⟩ := List.exists_cons_of_ne_nil ht
  unfold quadProblem
  rw [ends, List.head?_cons, List.getLast?_cons]
  simp only [bind, Except.bind, missing_scipy_ok hU hD, show d / 2 = 0 by omega, true_or, if_true, List.range_zero, List.map_nil]
  rfl

theorem newpointU_lin_total {sp : Params d W} {F : Option (Arr d → W → Arr d)} (hX : 2 ≤ U.length) (hh : 0 < h) {t : ℝ} (h0 : 0 ≤ t)
    (h1 : t ≤ ((U.length : ℝ) - 1) * h) : ∃ y, newpointU lib false X Xd F scheme U h t "lin" sp = .ok y := by
  by_cases hlast : t < ((U.length : ℝ) - 1) * h
  · obtain ⟨n, hn, n1, n2⟩ := in_step hh h0 hlast
    have e1 := List.getElem?_eq_getElem (l := U) (i := n) (by omega)
    have e2 := List.getElem?_eq_getElem (l := U) (i := n + 1) hn
    by_cases c1 : |t - n * h| < h * 1e-8
    · exact ⟨_, C16_newpoint_sample _ _ _ _ _ _ e1 hh c1 _ _⟩
    by_cases c2 : |t - (n + 1 : ℕ) * h| < h * 1e-8
    · exact ⟨_, C16_newpoint_sample _ _ _ _ _ _ e2 hh c2 _ _⟩
    rw [abs_of_nonneg (by linarith)] at c1
    rw [abs_of_neg (by push_cast; linarith)] at c2
    push_cast at c2
    have ht : t = (n + (t / h - n)) * h := by field_simp; ring
    have := newpointU_lin (lib := lib) (X := X) (Xd := Xd) (F := F) (scheme := scheme) (sp := sp) e1 e2 hh (θ := t / h - n)
      (by rw [le_sub_iff_add_le, le_div_iff₀ hh]; nlinarith) (by rw [sub_le_iff_le_add, div_le_iff₀ hh]; nlinarith)
    rw [← ht] at this
    exact ⟨_, this⟩
  · have hx := List.getElem?_eq_getElem (l := U) (i := U.length - 1) (by omega)
    refine ⟨_, C16_newpoint_sample _ _ _ _ _ _ hx hh ?_ _ _⟩
    have : t = ((U.length : ℝ) - 1) * h := le_antisymm h1 (not_lt.1 hlast)
    rw [this, Nat.cast_sub (by omega)]
    simp; positivity

/-- C126, what holds. For second order systems, SciPy's spline, linear controls and trajectories that start at time zero, `doub_quad_problem` returns for each
coordinate the double integral of the difference between the acceleration of the trajectory and the acceleration that the
dynamics give. The integration routine is taken as exact. The trajectory may be any continuous motion with a continuous velocity through the first
and the last sample, whose acceleration may jump at the samples or at any countable set of instants. -/
theorem C126_partial {quad : (ℝ → ℝ) → ℝ → ℝ → ℝ} (hq : ∀ g a b, quad g a b = ∫ t in a..b, g t) {dim : ℕ} (hd : d = 2 * dim) (hdim : 0 < dim)
    (hlib : lib.spline = scipySpline) (hh : 0 < h) (hU : U.length = X.length) (hX : 2 ≤ X.length) (sp? : Option (Params d W)) {tf : ℝ} (htf : tf = ((X.length : ℝ) - 1) * h) :
    ∃ (Q V : ℝ → ℕ → ℝ) (a : ℕ → ℝ → ℝ) (l : List ℝ), Motion X (List.zipWith f X U) 0 h Q V ∧
      doubQuadProblem quad lib X U (grid 0 h X.length) f "hs_scipy" "lin" sp? = .ok l ∧ l.length = dim ∧
      (∀ t u, ControlAt U h t u → ∀ j < dim, a j t = coord (f (phase d (Q t) (V t)) u) (dim + j)) ∧
      ∀ x0 xN, X.head? = some x0 → X.getLast? = some xN → ∀ j < dim, ∀ (q v acc : ℝ → ℝ) (S : Set ℝ), S.Countable →
        ContinuousOn q (Set.Icc 0 tf) → ContinuousOn v (Set.Icc 0 tf) →
        (∀ t ∈ Set.Ioo 0 tf \ S, HasDerivAt q (v t) t) → (∀ t ∈ Set.Ioo 0 tf \ S, HasDerivAt v (acc t) t) →
        IntervalIntegrable acc MeasureTheory.volume 0 tf → q 0 = coord x0 j → v 0 = coord x0 (dim + j) → q tf = coord xN j →
        l[j]? = some ((∫ t in (0 : ℝ)..tf, ∫ s in (0 : ℝ)..t, acc s) - ∫ t in (0 : ℝ)..tf, ∫ s in (0 : ℝ)..t, a j s) := by
  have hlen : (2 : ℝ) ≤ X.length := by exact_mod_cast hX
  have hpos : (0 : ℝ) < (X.length : ℝ) - 1 := by linarith
  have ht : 0 < tf := by rw [htf]; positivity
  have hDl : (List.zipWith f X U).length = X.length := by simp [hU]
  have hD : SlopesAre (some f) X U none (List.zipWith f X U) := .inr ⟨rfl, f, rfl, rfl⟩
  obtain ⟨Q, V, hm, hv⟩ := motion_scipy hh hX hDl 0
  have hg := grid_ends (t0 := 0) (h := h) (show 1 ≤ X.length by omega)
  rw [zero_add, ← htf] at hg
  have hstep : h = (tf - 0) / ((X.length : ℝ) - 1) := by rw [htf, sub_zero]; field_simp
  have hval : ∀ t u, newpointU lib false X (List.zipWith f X U) (some f) "hs_scipy" U h t "lin" (sp?.getD Params.empty) = .ok u →
      fPoint lib X U (grid 0 h X.length) t f none "hs_scipy" "lin" sp? = .ok ((List.range dim).map (fun j => coord (f (phase d (Q t) (V t)) u) (dim + j)), sp?) :=
    fun t u hu => fPoint_scipy hd hlib hU hX hD hDl (grid_length _ _ _) (grid_sorted hh _ _) hg.1 hg.2 hstep hu (fun j hj => (hv t).1 j (by omega)) (fun j hj => (hv t).2 j (by omega))
  obtain ⟨F, hF⟩ : ∃ F : ℝ → Except PErr (List ℝ), F = fun t => (fPoint lib X U (grid 0 h X.length) t f none "hs_scipy" "lin" sp?).map Prod.fst := ⟨_, rfl⟩
  have htot : ∀ t ∈ Set.uIcc 0 tf, ∃ l, F t = .ok l := by
    intro t h1
    rw [Set.uIcc_of_le ht.le] at h1
    obtain ⟨u, hu⟩ := newpointU_lin_total (lib := lib) (X := X) (Xd := List.zipWith f X U) (F := some f) (scheme := "hs_scipy") (sp := sp?.getD Params.empty) (U := U)
      (by omega) hh h1.1 (by rw [hU, ← htf]; exact h1.2)
    exact ⟨_, by rw [hF]; simp only [hval t u hu]; rfl⟩
  obtain ⟨x0, r0⟩ : ∃ x0, X[0]? = some x0 := ⟨_, List.getElem?_eq_getElem (by omega)⟩
  obtain ⟨xN, rN⟩ : ∃ xN, X[X.length - 1]? = some xN := ⟨_, List.getElem?_eq_getElem (by omega)⟩
  have p0 : pyGet X 0 = .ok x0 := pyGet_nat r0
  have pN : pyGet X (-1) = .ok xN := by
    unfold pyGet
    rw [if_neg (by omega), if_pos (by omega), show (-1 + (X.length : ℤ)).toNat = X.length - 1 by omega, rN]
  refine ⟨Q, V, fun j t => (okD (F t)).getD j 0, (List.range dim).map fun j => coord xN j - coord x0 j - coord x0 (dim + j) * tf -
      quad (fun t => quad (fun s => (okD (F s)).getD j 0) 0 t) 0 tf, hm, ?_, ?_, ?_, ?_⟩
  · unfold doubQuadProblem
    simp only [ends, hg.1, hg.2, bind, Except.bind]
    rw [if_neg (by omega), if_pos (by rw [hF] at htot; exact htot)]
    simp only [p0, pN, show d / 2 = dim by omega, hF]
    rfl
  · simp
  · intro t u hc j hj
    simp only [hF, hval t u (control_ok hh hc), Except.map, okD]
    rw [List.getD_eq_getElem?_getD]
    simp [List.getElem?_range hj]
  · intro y0 yN g0 gN j hj q v acc S hS cq cv dq dv ia q0 v0 qN
    rw [List.head?_eq_getElem?, r0] at g0
    rw [List.getLast?_eq_getElem?, rN] at gN
    cases g0
    cases gN
    have i1 : ∀ t ∈ Set.Icc 0 tf, ∫ s in (0 : ℝ)..t, acc s = v t - v 0 := by
      intro t h
      refine MeasureTheory.integral_eq_of_hasDerivAt_off_countable_of_le v acc h.1 hS (cv.mono (Set.Icc_subset_Icc_right h.2))
        (fun s hs => dv s ⟨⟨hs.1.1, lt_of_lt_of_le hs.1.2 h.2⟩, hs.2⟩) ?_
      exact ia.mono_set (by rw [Set.uIcc_of_le h.1, Set.uIcc_of_le ht.le]; exact Set.Icc_subset_Icc_right h.2)
    have iv : IntervalIntegrable v MeasureTheory.volume 0 tf := by
      apply ContinuousOn.intervalIntegrable; rwa [Set.uIcc_of_le ht.le]
    have i2 : ∫ t in (0 : ℝ)..tf, v t = q tf - q 0 :=
      MeasureTheory.integral_eq_of_hasDerivAt_off_countable_of_le q v ht.le hS cq dq iv
    have i3 : ∫ t in (0 : ℝ)..tf, ∫ s in (0 : ℝ)..t, acc s = q tf - q 0 - v 0 * tf := by
      rw [intervalIntegral.integral_congr (g := fun t => v t - v 0)
        (fun t h => i1 t (by rwa [Set.uIcc_of_le ht.le] at h)), intervalIntegral.integral_sub iv (by simp), i2,
        intervalIntegral.integral_const]
      simp [mul_comm]
    rw [i3]
    simp only [List.getElem?_map, List.getElem?_range hj, Option.map_some, hq, q0, v0, qN]

/-- C126 fails for every scheme but SciPy's spline: no call returns. -/
theorem C126_scheme_refuted (hd : 2 ≤ d) (hsc : scheme ≠ "hs_scipy") (quad : (ℝ → ℝ) → ℝ → ℝ → ℝ) (lib : Interp.Lib d W) (X : List (Arr d)) (U : List W) (t_arr : List ℝ)
    (f : Arr d → W → Arr d) (u_scheme : String) (sp? : Option (Params d W)) :
    ∃ err, doubQuadProblem quad lib X U t_arr f scheme u_scheme sp? = .error err := by
  unfold doubQuadProblem
  dsimp only
  rw [if_neg (by omega)]
  cases ends t_arr with
  | error err => exact ⟨err, rfl⟩
  | ok e =>
    simp only [bind, Except.bind]
    rw [if_neg]
    · exact ⟨_, rfl⟩
    · intro H
      obtain ⟨l, hl⟩ := H e.1 Set.left_mem_uIcc
      obtain ⟨err, he⟩ := C124_scheme_refuted hsc lib X U t_arr e.1 f none u_scheme sp?
      simp only [he, Except.map] at hl
      cases hl

/-- C126 fails for trajectories that start later than at time zero, too: the function to integrate raises at the end. -/
theorem C126_refuted (hd : 2 ≤ d) (quad : (ℝ → ℝ) → ℝ → ℝ → ℝ) {sp? : Option (Params d W)} {t_arr : List ℝ} {t0 tf : ℝ} (hU : U.length = X.length)
    (hX : 2 ≤ X.length) (e1 : t_arr.head? = some t0) (e2 : t_arr.getLast? = some tf)
    (ht : t0 < tf) (h0 : 1e-8 * ((tf - t0) / ((X.length : ℝ) - 1)) ≤ t0) (f : Arr d → W → Arr d) :
    ∃ err, doubQuadProblem quad lib X U t_arr f scheme u_scheme sp? = .error err := by
  unfold doubQuadProblem
  dsimp only
  rw [if_neg (by omega)]
  simp only [ends, e1, e2, bind, Except.bind]
  rw [if_neg]
  · exact ⟨_, rfl⟩
  · intro H
    obtain ⟨l, hl⟩ := H tf Set.right_mem_uIcc
    obtain ⟨err, he⟩ := C124_refuted (lib := lib) (scheme := scheme) (u_scheme := u_scheme) (sp? := sp?) hU hX e1 e2 ht rfl (t := tf) (by linarith) f none
    simp only [he, Except.map] at hl
    cases hl

/-! ### C127: the sizes of the rows -/

theorem foldl_max_le {l : List ℝ} {a b : ℝ} : l.foldl max a ≤ b ↔ a ≤ b ∧ ∀ x ∈ l, x ≤ b := by
  induction l generalizing a with
  | nil => simp
  | cons y l ih => simp only [List.foldl_cons, ih, max_le_iff, List.forall_mem_cons]; tauto

theorem listMax_le {l : List ℝ} {m : ℝ} (h : listMax l = .ok m) (b : ℝ) : m ≤ b ↔ ∀ x ∈ l, x ≤ b := by
  cases l with
  | nil => cases h
  | cons a l =>
    simp only [listMax, Except.ok.injEq] at h
    rw [← h, foldl_max_le]; simp

/-- C127. `arr_mod`, `arr_sum` and `arr_max` give one number for each row. The largest magnitude is at most the modulus,
that is at most the sum of magnitudes, and this is at most as many times the largest magnitude as there are columns. They
bound all the entries, and each of them vanishes only when the whole row does. -/
theorem C127_sizes (a : Arr2) (hw : 0 < a.width) :
    ∃ m, arrMax a = .ok m ∧ m.length = a.rows.length ∧ (arrMod a).length = a.rows.length ∧ (arrSum a).length = a.rows.length ∧
      ∀ (i : ℕ) (r : ℕ → ℝ), a.rows[i]? = some r → ∃ x y z : ℝ, m[i]? = some x ∧ (arrMod a)[i]? = some y ∧ (arrSum a)[i]? = some z ∧
        x ≤ y ∧ y ≤ z ∧ z ≤ a.width * x ∧ (∀ c < a.width, |r c| ≤ x) ∧ (∃ c < a.width, x = |r c|) ∧
        y ^ 2 = ∑ c ∈ Finset.range a.width, r c ^ 2 ∧ (z = 0 ↔ ∀ c < a.width, r c = 0) := by
  have hm : ∀ r : ℕ → ℝ, ∃ x, listMax ((List.range a.width).map fun c => |r c|) = .ok x := by
    intro r
    obtain ⟨k, hk⟩ : ∃ k, a.width = k + 1 := ⟨a.width - 1, by omega⟩
    rw [hk, List.range_succ_eq_map]
    exact ⟨_, rfl⟩
  choose g hg using hm
  have hA : arrMax a = .ok (a.rows.map g) := Exc.mapM_eq fun r _ => hg r
  refine ⟨_, hA, by simp, by simp [arrMod], by simp [arrSum], ?_⟩
  intro i r hr
  have hb : ∀ c < a.width, |r c| ≤ g r := by
    intro c hc
    exact (listMax_le (hg r) _).1 le_rfl _ (List.mem_map.2 ⟨c, List.mem_range.2 hc, rfl⟩)
  obtain ⟨c0, h0, e0⟩ : ∃ c < a.width, g r = |r c| := by
    by_contra H
    push Not at H
    obtain ⟨c, hc, hmax⟩ := Finset.exists_max_image (Finset.range a.width) (fun c => |r c|) ⟨0, Finset.mem_range.2 hw⟩
    apply H c (Finset.mem_range.1 hc)
    apply le_antisymm _ (hb c (Finset.mem_range.1 hc))
    rw [listMax_le (hg r)]
    simp only [List.mem_map, List.mem_range]
    rintro _ ⟨c', hc', rfl⟩
    exact hmax c' (Finset.mem_range.2 hc')
  have hnn : 0 ≤ ∑ c ∈ Finset.range a.width, r c * r c := Finset.sum_nonneg fun c _ => mul_self_nonneg _
  have hs : 0 ≤ ∑ c ∈ Finset.range a.width, |r c| := Finset.sum_nonneg fun c _ => abs_nonneg _
  refine ⟨g r, √(∑ c ∈ Finset.range a.width, r c * r c), ∑ c ∈ Finset.range a.width, |r c|, by simp [hr],
    by simp [arrMod, hr], by simp [arrSum, hr], ?_, ?_, ?_, hb, ⟨c0, h0, e0⟩, ?_, ?_⟩
  · rw [e0, ← Real.sqrt_mul_self_eq_abs]
    exact Real.sqrt_le_sqrt (Finset.single_le_sum (f := fun c => r c * r c) (fun c _ => mul_self_nonneg _) (Finset.mem_range.2 h0))
  · rw [Real.sqrt_le_left hs, Finset.sum_congr rfl (fun c _ => (abs_mul_abs_self (r c)).symm)]
    rw [pow_two, Finset.sum_mul]
    refine Finset.sum_le_sum fun c hc => mul_le_mul_of_nonneg_left ?_ (abs_nonneg _)
    exact Finset.single_le_sum (f := fun c => |r c|) (fun c _ => abs_nonneg _) hc
  · calc _ ≤ ∑ _c ∈ Finset.range a.width, g r := Finset.sum_le_sum fun c hc => hb c (Finset.mem_range.1 hc)
      _ = _ := by simp
  · rw [Real.sq_sqrt hnn]
    exact Finset.sum_congr rfl fun c _ => (pow_two _).symm
  · rw [Finset.sum_eq_zero_iff_of_nonneg fun c _ => abs_nonneg _]
    simp

/-- C127 fails for the largest magnitude when there are no columns. -/
theorem C127_refuted (a : Arr2) (hw : a.width = 0) (h : a.rows ≠ []) : ∃ err, arrMax a = .error err := by
  cases e : a.rows with
  | nil => exact absurd e h
  | cons r l => exact ⟨.value, by simp [arrMax, hw, e, listMax, List.mapM_cons, bind, Except.bind]⟩

example : (arrMod ⟨2, [fun c => if c = 0 then 3 else 4]⟩) = [5] := by
  simp only [arrMod, List.map_cons, List.map_nil, Finset.sum_range_succ, Finset.sum_range_zero]
  norm_num
  rw [show (25 : ℝ) = 5 ^ 2 by norm_num, Real.sqrt_sq (by norm_num)]

/-! ### A case for C124 and C126: one coordinate, accelerated by its control -/

theorem accelerated_coord (x : Arr (2 * 1)) (u : ℝ) : coord (joined ((halves x).2, fun _ => u)) 1 = u :=
  joined_hi (dim := 1) ((halves x).2, fun _ => u) (j := 0) one_pos

example : fPoint (⟨scipySpline, fun _ u => u⟩ : Interp.Lib (2 * 1) ℝ) [![0, 0], ![1, 2]] [2, 4] (grid 0 1 2) (1 / 2)
    (fun x u => joined ((halves x).2, fun _ => u)) none "hs_scipy" "lin" none = .ok ([3], none) := by
  obtain ⟨Q, V, -, h⟩ := C124_partial (lib := (⟨scipySpline, fun _ u => u⟩ : Interp.Lib (2 * 1) ℝ)) (dim := 1) (X := ([![0, 0], ![1, 2]] : List (Arr (2 * 1)))) (U := [2, 4])
    (f := fun (x : Arr (2 * 1)) (u : ℝ) => joined ((halves x).2, fun _ => u)) (Xd? := none) rfl rfl one_pos rfl (by simp) (.inr ⟨rfl, _, rfl, rfl⟩) rfl none
  have := h _ _ (.between 0 (1 / 2) 2 4 (Or.inr (by norm_num)) rfl rfl)
  simp only [List.range_succ, List.range_zero, List.nil_append, List.map_cons, List.map_nil, add_zero, accelerated_coord] at this
  norm_num at this ⊢
  exact this

example : ∃ (a : ℝ → ℝ) (x : ℝ), doubQuadProblem (fun g a b => ∫ t in a..b, g t) (⟨scipySpline, fun _ u => u⟩ : Interp.Lib (2 * 1) ℝ) [![0, 0], ![1, 2]]
    [2, 2] (grid 0 1 2) (fun x u => joined ((halves x).2, fun _ => u)) "hs_scipy" "lin" none = .ok [x] ∧
      x = (∫ t in (0 : ℝ)..1, ∫ _s in (0 : ℝ)..t, (2 : ℝ)) - ∫ t in (0 : ℝ)..1, ∫ s in (0 : ℝ)..t, a s := by
  obtain ⟨Q, V, a, l, -, h, h1, -, h3⟩ := C126_partial (quad := fun g a b => ∫ t in a..b, g t) (fun _ _ _ => rfl)
    (lib := (⟨scipySpline, fun _ u => u⟩ : Interp.Lib (2 * 1) ℝ)) (dim := 1) (X := ([![0, 0], ![1, 2]] : List (Arr (2 * 1)))) (U := [2, 2])
    (f := fun (x : Arr (2 * 1)) (u : ℝ) => joined ((halves x).2, fun _ => u)) rfl one_pos rfl one_pos rfl (by simp) none (tf := 1) (by norm_num)
  obtain ⟨x, rfl⟩ := List.length_eq_one_iff.1 h1
  have := h3 _ _ rfl rfl 0 one_pos (fun t => t ^ 2) (fun t => 2 * t) (fun _ => 2) ∅ Set.countable_empty
    (by fun_prop) (by fun_prop) (fun t _ => by simpa using hasDerivAt_pow 2 t) (fun t _ => by simpa using (hasDerivAt_id t).const_mul 2)
    (by simp) (by simp [coord]) (by simp [coord]) (by simp [coord])
  exact ⟨a 0, x, h, by simpa using this⟩

/-- C124 on two cases where the window does not start at zero: at its end the function raises, and at its start it takes the control of another sample. -/
example (scheme u_scheme : String) (sp? : Option (Params (2 * 1) ℝ)) : ∃ err,
    fPoint (⟨scipySpline, fun _ u => u⟩ : Interp.Lib (2 * 1) ℝ) [![0, 0], ![1, 2]] [2, 4] [5, 6] 6 (fun x u => joined ((halves x).2, fun _ => u)) none scheme u_scheme
      sp? = .error err :=
  C124_refuted (X := [![0, 0], ![1, 2]]) (U := [(2 : ℝ), 4]) (t := 6) (h := 1) (t0 := 5) (tf := 6) rfl (by simp) rfl rfl (by norm_num) (by norm_num) (by norm_num) _ _

example (sp? : Option (Params (2 * 1) ℝ)) :
    fPoint (⟨scipySpline, fun _ u => u⟩ : Interp.Lib (2 * 1) ℝ) [![0, 0], ![1, 2]] [2, 4] (grid ((1 : ℕ) * 1) 1 2) ((1 : ℕ) * 1 + (0 : ℕ) * 1)
      (fun x u => joined ((halves x).2, fun _ => u)) none "hs_scipy" "lin" sp? = .ok ([4], sp?) := by
  have := C124_shift_refuted (lib := (⟨scipySpline, fun _ u => u⟩ : Interp.Lib (2 * 1) ℝ)) (dim := 1) (h := 1) (X := ([![0, 0], ![1, 2]] : List (Arr (2 * 1)))) (U := [2, 4])
    (f := fun (x : Arr (2 * 1)) (u : ℝ) => joined ((halves x).2, fun _ => u)) (Xd? := none) rfl rfl one_pos rfl (by simp) (.inr ⟨rfl, _, rfl, rfl⟩) rfl sp? (k := 0) (m := 1)
    rfl rfl rfl
  simp only [List.range_succ, List.range_zero, List.nil_append, List.map_cons, List.map_nil, add_zero, accelerated_coord] at this
  exact this

/-- C125 and C126 on a case: two coordinates of state, and a window that starts at one. -/
example (quad : (ℝ → ℝ) → ℝ → ℝ → ℝ) (lib : Interp.Lib 2 ℝ) (f : Arr 2 → ℝ → Arr 2) : (∃ err, quadProblem quad lib [![0, 0], ![1, 2]] [2, 4] [0, 1] f "hs" "lin" {} none = .error err) ∧
    ∃ err, doubQuadProblem quad lib [![0, 0], ![1, 2]] [2, 4] [1, 2] f "hs_scipy" "lin" none = .error err :=
  ⟨C125_refuted le_rfl quad lib _ _ _ f _ _ _ _, C126_refuted (X := [![0, 0], ![1, 2]]) (U := [(2 : ℝ), 4]) le_rfl quad (t0 := 1) (tf := 2) rfl (by simp) rfl rfl (by norm_num) (by norm_num) f⟩

end Chords.Props
