import Verif.Props.InterpCall

/-! # C165: controls computed from the dynamics -/

namespace Chords.Interp.Props
open Chords Chords.Spec Chords.Interp

variable {d : ℕ} {W : Type} [AddCommGroup W] [Module ℝ W] {lib : Lib d W} {flat : Bool} {X : List (Arr d)} {U : List W}
  {h : ℝ} {ts : List ℝ} {F : Option (Arr d → W → Arr d)} {X_dot : Option (List (Arr d))} {scheme u_scheme : String}

/-- The difference between the accelerations of the dynamics and those of a motion: the sum of the absolute differences in the second half of the states. -/
noncomputable def accError (f : Arr d → W → Arr d) (x v : Arr d) (w : W) : ℝ := ∑ i : Fin d, if i.val < d / 2 then 0 else |f x w i - v i|

/-- What `scipy.optimize.minimize` is for: functions that have a minimum are given one. -/
def Minimizes (lib : Lib d W) : Prop := ∀ (g : W → ℝ) (u0 : W), (∃ m, ∀ w, g m ≤ g w) → ∀ w, g (lib.minimize g u0) ≤ g w

omit [AddCommGroup W] [Module ℝ W] in
theorem minErr_eq (f : Arr d → W → Arr d) (x v : Arr d) : minErr f x v = accError f x v := by
  funext w
  rw [minErr, accError, ← List.sum_ofFn, List.ofFn_eq_map]
  congr 1
  refine List.map_congr_left fun i _ => ?_
  by_cases hi : d / 2 ≤ i.val
  · rw [if_pos hi, if_neg (by omega)]
  · rw [if_neg hi, if_pos (by omega)]

omit [AddCommGroup W] [Module ℝ W] in
theorem accError_nonneg (f : Arr d → W → Arr d) (x v : Arr d) (w : W) : 0 ≤ accError f x v w :=
  Finset.sum_nonneg fun i _ => by split_ifs <;> positivity

omit [AddCommGroup W] [Module ℝ W] in
theorem accError_zero (f : Arr d → W → Arr d) (x v : Arr d) (w : W) : accError f x v w = 0 ↔ ∀ i : Fin d, d / 2 ≤ i.val → f x w i = v i := by
  rw [accError, Finset.sum_eq_zero_iff_of_nonneg fun i _ => by split_ifs <;> positivity]
  constructor
  · intro H i hi
    have := H i (Finset.mem_univ i)
    rw [if_neg (by omega), abs_eq_zero, sub_eq_zero] at this
    exact this
  · intro H i _
    by_cases hi : i.val < d / 2
    · rw [if_pos hi]
    · rw [if_neg hi, H i (by omega), sub_self, abs_zero]

theorem missing_congr {a b : String} (hp : pyIn "parab" a = pyIn "parab" b) (sp : Params d W) :
    missing flat X U h F X_dot scheme a sp = missing flat X U h F X_dot scheme b sp := by
  simp only [missing, fillUc, hp]

omit [AddCommGroup W] [Module ℝ W] in
theorem prepare_form {U' : List W} {o : List ℝ} (e : prepare X U h ts = .ok (U', o)) : U'.length = X.length ∧ o = times h X.length := by
  unfold prepare at e
  obtain ⟨U1, e1, e⟩ := bind_ok e
  beta_reduce at e
  split at e
  · rename_i hl
    split at e
    · split at e
      · cases e
      · cases e; exact ⟨hl.symm, rfl⟩
    · cases e
  · cases e

theorem times_step' (hX : 2 ≤ X.length) (hh : 0 < h) :
    ((times h X.length).getLastD 0 - (times h X.length).headD 0) / (((times h X.length).length : ℝ) - 1) = h := by
  have hl := times_last (X := X) (h := h) (by rintro rfl; simp at hX)
  have h1 : (times h X.length).headD 0 = 0 := by
    obtain ⟨m, hm⟩ : ∃ m, X.length = m + 1 := ⟨X.length - 1, by omega⟩
    rw [hm]; simp [times, List.range_succ_eq_map]
  have h2 : (times h X.length).length = X.length := by simp [times]
  have h3 : (2 : ℝ) ≤ X.length := by exact_mod_cast hX
  rw [List.getLastD_eq_getLast?, hl, h1, h2, Option.getD_some, sub_zero, mul_comm, mul_div_assoc, div_self (by linarith), mul_one]

/-- The controls of a time inside a step that both functions were called for. -/
theorem inside_call {sp? o1 o2 : Option (Params d W)} (hsc : scheme ≠ "hs_scipy") (hu : u_scheme = "min_err" ∨ u_scheme = "pinv_dyn") (hh : 0 < h)
    {xs vs : List (Arr d)} {us : List W}
    (e : interpolatedArray lib flat X U h ts F X_dot scheme u_scheme sp? = .ok ((xs, us), o1))
    (e' : interpolatedDerivative lib flat X U h ts F X_dot scheme 1 sp? = .ok (vs, o2))
    {i n : ℕ} {θ : ℝ} (hi : ts[i]? = some ((n + θ) * h)) (h0 : 1e-8 ≤ θ) (h1 : θ ≤ 1 - 1e-8) (hn : n + 1 < X.length) :
    ∃ x v w Xd sp' U' u un, xs[i]? = some x ∧ vs[i]? = some v ∧ us[i]? = some w ∧ U'[n]? = some u ∧ U'[n + 1]? = some un ∧
      sp'.pinv_f = (sp?.getD Params.empty).pinv_f ∧ (U.length = X.length → U' = U) ∧
      newpoint flat X Xd h ((n + θ) * h) scheme sp' = .ok x ∧ newpointDer flat X Xd h ((n + θ) * h) scheme 1 sp' = .ok v ∧
      newpointU lib flat X Xd F scheme U' h ((n + θ) * h) u_scheme sp' = .ok w := by
  rw [array_iff] at e
  rw [derivative_iff] at e'
  obtain ⟨acc, U', old_t, Xd, sp', e1, e2, e3, e4, rfl⟩ := e
  obtain ⟨acc', V', old_t', Xd', sq', f1, f2, f4, rfl⟩ := e'
  rw [e1] at f1
  cases f1
  obtain ⟨l1, rfl⟩ := prepare_form e1
  have hp : pyIn "parab" "None" = pyIn "parab" u_scheme := by rcases hu with rfl | rfl <;> decide
  rw [missing_congr hp, e2] at f2
  cases f2
  rw [statesAt, if_neg hsc] at e4
  rw [derivativesAt, if_neg hsc] at f4
  have hlin : u_scheme ≠ "lin" := by rcases hu with rfl | rfl <;> decide
  rw [interpolateU, if_neg hlin, if_neg (by simp [times]; omega)] at e3
  dsimp only at e3
  rw [times_step' (by omega) hh] at e3
  obtain ⟨x, x1, x2⟩ := (mapM_ok e4).2 i _ hi
  obtain ⟨v, v1, v2⟩ := (mapM_ok f4).2 i _ hi
  obtain ⟨w, w1, w2⟩ := (mapM_ok e3).2 i _ hi
  refine ⟨x, v, w, Xd, sp', U', U'[n]'(by omega), U'[n + 1]'(by omega), x1, v1, w1, List.getElem?_eq_getElem _, List.getElem?_eq_getElem _, ?_,
    fun hU => (prepare_inv hU e1).1, x2, v2, w2⟩
  unfold missing at e2
  obtain ⟨a, -, e2⟩ := bind_ok e2
  dsimp only at e2
  split at e2
  · obtain ⟨b, -, e2⟩ := bind_ok e2
    obtain ⟨c, -, e2⟩ := bind_ok e2
    obtain ⟨g, -, e2⟩ := bind_ok e2
    cases e2
    unfold fillUc
    split <;> rfl
  · cases e2; rfl

/-- C165, `min_err`, what is minimized: the error of the accelerations at the state `x` and derivative `v` that `interpolated_array` and
`interpolated_array_derivative` return for that time, from the linear interpolation of the controls on. -/
theorem C165_search {sp? o1 o2 : Option (Params d W)} {f : Arr d → W → Arr d} (hsc : scheme ≠ "hs_scipy") (hh : 0 < h) (hU : U.length = X.length)
    {xs vs : List (Arr d)} {us : List W}
    (e : interpolatedArray lib flat X U h ts (some f) X_dot scheme "min_err" sp? = .ok ((xs, us), o1))
    (e' : interpolatedDerivative lib flat X U h ts (some f) X_dot scheme 1 sp? = .ok (vs, o2))
    {i n : ℕ} {θ : ℝ} (hi : ts[i]? = some ((n + θ) * h)) (h0 : 1e-8 ≤ θ) (h1 : θ ≤ 1 - 1e-8) (hn : n + 1 < X.length) :
    ∃ x v u un, xs[i]? = some x ∧ vs[i]? = some v ∧ U[n]? = some u ∧ U[n + 1]? = some un ∧
      us[i]? = some (lib.minimize (accError f x v) ((1 - θ) • u + θ • un)) := by
  obtain ⟨x, v, w, Xd, sp', U', u, un, x1, v1, w1, u1, u2, -, hU', x2, v2, w2⟩ := inside_call hsc (.inl rfl) hh e e' hi h0 h1 hn
  rw [hU' hU] at u1 u2 w2
  obtain ⟨hf, a0, a1, a2, g1, g2⟩ := newpointU_inside u1 u2 hh (t := (n + θ) * h) (by nlinarith) (by nlinarith)
  simp only [newpointU, hf, a0, a1, a2, if_false, g1, g2, bind, Except.bind, pure, Except.pure, key, show ("min_err" : String) ≠ "lin" by decide,
    show ("min_err" : String) ≠ "parab" by decide, show ("min_err" : String) ≠ "parab_j" by decide, if_true, x2, v2, minErr_eq] at w2
  refine ⟨x, v, u, un, x1, v1, u1, u2, ?_⟩
  rw [w1, ← Except.ok.inj w2]
  have : ((n + θ) * h - h * (((n : ℤ)) : ℝ)) / h = θ := by push_cast; field_simp; ring
  rw [this, add_comm]

/-- C165, `min_err`: inside a step, no control has accelerations nearer to those of the interpolated motion than the control returned; if some control has exactly those
accelerations, the control returned has. -/
theorem C165_min_err {sp? o1 o2 : Option (Params d W)} {f : Arr d → W → Arr d} (hsc : scheme ≠ "hs_scipy") (hh : 0 < h) (hm : Minimizes lib)
    {xs vs : List (Arr d)} {us : List W}
    (e : interpolatedArray lib flat X U h ts (some f) X_dot scheme "min_err" sp? = .ok ((xs, us), o1))
    (e' : interpolatedDerivative lib flat X U h ts (some f) X_dot scheme 1 sp? = .ok (vs, o2))
    {i n : ℕ} {θ : ℝ} (hi : ts[i]? = some ((n + θ) * h)) (h0 : 1e-8 ≤ θ) (h1 : θ ≤ 1 - 1e-8) (hn : n + 1 < X.length) :
    ∃ x v u, xs[i]? = some x ∧ vs[i]? = some v ∧ us[i]? = some u ∧
      ((∃ m, ∀ w, accError f x v m ≤ accError f x v w) → ∀ w, accError f x v u ≤ accError f x v w) ∧
      ((∃ w, ∀ j : Fin d, d / 2 ≤ j.val → f x w j = v j) → ∀ j : Fin d, d / 2 ≤ j.val → f x u j = v j) := by
  obtain ⟨x, v, w, Xd, sp', U', u, un, x1, v1, w1, u1, u2, -, -, x2, v2, w2⟩ := inside_call hsc (.inl rfl) hh e e' hi h0 h1 hn
  obtain ⟨hf, a0, a1, a2, g1, g2⟩ := newpointU_inside u1 u2 hh (t := (n + θ) * h) (by nlinarith) (by nlinarith)
  simp only [newpointU, hf, a0, a1, a2, if_false, g1, g2, bind, Except.bind, pure, Except.pure, key, show ("min_err" : String) ≠ "lin" by decide,
    show ("min_err" : String) ≠ "parab" by decide, show ("min_err" : String) ≠ "parab_j" by decide, if_true, x2, v2, minErr_eq] at w2
  obtain ⟨u0, hu0⟩ : ∃ u0, w = lib.minimize (accError f x v) u0 := ⟨_, (Except.ok.inj w2).symm⟩
  have best := fun hex => hm (accError f x v) u0 hex
  rw [← hu0] at best
  refine ⟨x, v, w, x1, v1, w1, best, ?_⟩
  rintro ⟨z, hz⟩
  rw [← accError_zero] at hz ⊢
  have := best ⟨z, fun w => hz ▸ accError_nonneg f x v w⟩ z
  rw [hz] at this
  exact le_antisymm this (accError_nonneg f x v _)

/-- C165, at samples: the samples. -/
theorem C165_sample {sp? o1 : Option (Params d W)} (hu : u_scheme = "min_err" ∨ u_scheme = "pinv_dyn") (hh : 0 < h) (hU : U.length = X.length) (hX : 2 ≤ X.length)
    {xs : List (Arr d)} {us : List W} (e : interpolatedArray lib flat X U h ts F X_dot scheme u_scheme sp? = .ok ((xs, us), o1))
    {i n : ℕ} (hi : ts[i]? = some (n * h)) {u : W} (u1 : U[n]? = some u) : us[i]? = some u := by
  rw [array_iff] at e
  obtain ⟨acc, U', old_t, Xd, sp', e1, e2, e3, e4, rfl⟩ := e
  obtain ⟨rfl, rfl⟩ := prepare_inv hU e1
  have hlin : u_scheme ≠ "lin" := by rcases hu with rfl | rfl <;> decide
  rw [interpolateU, if_neg hlin, if_neg (by simp [times]; omega)] at e3
  dsimp only at e3
  rw [times_step' hX hh] at e3
  obtain ⟨w, w1, w2⟩ := (mapM_ok e3).2 i _ hi
  rw [C16_newpoint_sample _ _ _ _ _ _ u1 hh (by rw [sub_self, abs_zero]; positivity)] at w2
  cases w2
  exact w1

/-- C165 is false with the states of SciPy's spline: the call is accepted and then raises, whatever the trajectory, if a time is inside a step. -/
theorem C165_scipy_refuted {sp? : Option (Params d W)} (hu : u_scheme = "min_err" ∨ u_scheme = "pinv_dyn") (hh : 0 < h) {f : Arr d → W → Arr d}
    (hU : U.length = X.length) {n : ℕ} {θ : ℝ} (hi : ts = [(n + θ) * h]) (h0 : 1e-8 ≤ θ) (h1 : θ ≤ 1 - 1e-8) (hn : n + 1 < X.length) :
    "hs_scipy" ∈ supportedSchemes ∧ u_scheme ∈ supportedUSchemes ∧
    interpolatedArray lib flat X U h ts (some f) none "hs_scipy" u_scheme sp? = .error .nameError := by
  have hus : u_scheme ∈ supportedUSchemes := by rcases hu with rfl | rfl <;> decide
  have hlin : u_scheme ≠ "lin" := by rcases hu with rfl | rfl <;> decide
  have hpar : u_scheme ≠ "parab" := by rcases hu with rfl | rfl <;> decide
  have hj : pyIn "j" u_scheme = false := by rcases hu with rfl | rfl <;> decide
  refine ⟨by decide, hus, ?_⟩
  have hlen : ((n + 1 : ℕ) : ℝ) ≤ (X.length : ℝ) - 1 := by
    have : ((n + 1 + 1 : ℕ) : ℝ) ≤ X.length := by exact_mod_cast hn
    push_cast at this ⊢; linarith
  have hp : prepare X U h ts = .ok (U, times h X.length) := by
    refine prepare_ok hU (t := (n + θ) * h) (by rw [hi]; rfl) (by rintro rfl; simp at hn) hh ?_
    push_cast at hlen
    nlinarith
  have hm : missing flat X U h (some f) none "hs_scipy" u_scheme (sp?.getD Params.empty) = .ok (List.zipWith f X U, sp?.getD Params.empty) :=
    missing_stale hU (Or.inl (by unfold NeedsMiddle; decide))
  obtain ⟨x, hx⟩ : ∃ x, X[n]? = some x := ⟨_, List.getElem?_eq_getElem (by omega)⟩
  obtain ⟨xn, hxn⟩ : ∃ x, X[n + 1]? = some x := ⟨_, List.getElem?_eq_getElem hn⟩
  obtain ⟨u, hu1⟩ : ∃ x, U[n]? = some x := ⟨_, List.getElem?_eq_getElem (by omega)⟩
  obtain ⟨un, hun⟩ : ∃ x, U[n + 1]? = some x := ⟨_, List.getElem?_eq_getElem (by omega)⟩
  obtain ⟨hf, a0, a1, a2, g1, g2⟩ := newpointU_inside hu1 hun hh (t := (n + θ) * h) (by nlinarith) (by nlinarith)
  obtain ⟨-, b0, -, -, q1, q2⟩ := newpointU_inside hx hxn hh (t := (n + θ) * h) (by nlinarith) (by nlinarith)
  obtain ⟨-, -, -, -, r1, r2⟩ := newpointU_inside (zipWith_get (f := f) hx hu1) (zipWith_get (f := f) hxn hun) hh (t := (n + θ) * h) (by nlinarith) (by nlinarith)
  have hnp : newpoint flat X (List.zipWith f X U) h ((n + θ) * h) "hs_scipy" (sp?.getD Params.empty) = .error .nameError := by
    simp only [newpoint, hf, b0, a1, a2, if_false, q1, q2, r1, r2, bind, Except.bind, piece]
    rfl
  have hnu : newpointU lib flat X (List.zipWith f X U) (some f) "hs_scipy" U h ((n + θ) * h) u_scheme (sp?.getD Params.empty) = .error .nameError := by
    rcases hu with rfl | rfl
    · simp only [newpointU, hf, a0, a1, a2, if_false, g1, g2, bind, Except.bind, pure, Except.pure, key, show ("min_err" : String) ≠ "lin" by decide,
        show ("min_err" : String) ≠ "parab" by decide, show ("min_err" : String) ≠ "parab_j" by decide, if_true, hnp]
    · simp only [newpointU, hf, a0, a1, a2, if_false, g1, g2, bind, Except.bind, pure, Except.pure, show ("pinv_dyn" : String) ≠ "lin" by decide,
        show ("pinv_dyn" : String) ≠ "parab" by decide, show ("pinv_dyn" : String) ≠ "parab_j" by decide, show ("pinv_dyn" : String) ≠ "min_err" by decide, if_true, hnp]
  have hiu : interpolateU lib flat X (List.zipWith f X U) (some f) "hs_scipy" U (times h X.length) ts u_scheme (sp?.getD Params.empty) = .error .nameError := by
    rw [interpolateU, if_neg hlin, if_neg (by simp [times]; omega)]
    dsimp only
    rw [times_step' (by omega) hh, hi, List.mapM_cons, hnu]
    rfl
  unfold interpolatedArray
  rw [if_neg (not_not.2 (by decide)), if_neg (not_not.2 hus), if_neg (fun hc => hpar hc.2), if_neg (fun hc => by rw [hj] at hc; cases hc.1)]
  have hco : checkOrder "hs_scipy" sp? = .ok () := by
    unfold checkOrder
    rw [if_neg (by decide)]
  have hcf : checkF u_scheme (some f) = .ok () := by
    unfold checkF
    rw [if_neg (by simp)]
  simp only [hco, hp, hm, hcf, hiu, bind, Except.bind]

/-- C165, `pinv_dyn`: inside a step the control returned is that of the inverse dynamics given, at the interpolated state and its derivative. -/
theorem C165_pinv_dyn {sp? o1 o2 : Option (Params d W)} {g : Arr d → Arr d → W} (hg : (sp?.getD Params.empty).pinv_f = some g) (hsc : scheme ≠ "hs_scipy") (hh : 0 < h)
    {xs vs : List (Arr d)} {us : List W}
    (e : interpolatedArray lib flat X U h ts F X_dot scheme "pinv_dyn" sp? = .ok ((xs, us), o1))
    (e' : interpolatedDerivative lib flat X U h ts F X_dot scheme 1 sp? = .ok (vs, o2))
    {i n : ℕ} {θ : ℝ} (hi : ts[i]? = some ((n + θ) * h)) (h0 : 1e-8 ≤ θ) (h1 : θ ≤ 1 - 1e-8) (hn : n + 1 < X.length) :
    ∃ x v, xs[i]? = some x ∧ vs[i]? = some v ∧ us[i]? = some (g x v) := by
  obtain ⟨x, v, w, Xd, sp', U', u, un, x1, v1, w1, u1, u2, hpf, -, x2, v2, w2⟩ := inside_call hsc (.inr rfl) hh e e' hi h0 h1 hn
  obtain ⟨hf, a0, a1, a2, g1, g2⟩ := newpointU_inside u1 u2 hh (t := (n + θ) * h) (by nlinarith) (by nlinarith)
  simp only [newpointU, hf, a0, a1, a2, if_false, g1, g2, bind, Except.bind, pure, Except.pure, key, show ("pinv_dyn" : String) ≠ "lin" by decide,
    show ("pinv_dyn" : String) ≠ "parab" by decide, show ("pinv_dyn" : String) ≠ "parab_j" by decide, show ("pinv_dyn" : String) ≠ "min_err" by decide,
    if_true, x2, v2, hpf.trans hg] at w2
  cases w2
  exact ⟨x, v, x1, v1, w1⟩

theorem newpointU_ok {Xd : List (Arr d)} {sp : Params d W} (hU : U.length = X.length) (hh : 0 < h) {t : ℝ} (h0 : 0 ≤ t) (h1 : t ≤ ((X.length : ℝ) - 1) * h)
    (hu : (u_scheme = "min_err" ∧ F ≠ none) ∨ (u_scheme = "pinv_dyn" ∧ sp.pinv_f ≠ none)) {x v : Arr d}
    (ex : newpoint flat X Xd h t scheme sp = .ok x) (ev : newpointDer flat X Xd h t scheme 1 sp = .ok v) :
    ∃ w, newpointU lib flat X Xd F scheme U h t u_scheme sp = .ok w := by
  have hf : 0 ≤ t / h := by positivity
  obtain ⟨n, hn⟩ : ∃ n : ℕ, n = ⌊t / h⌋₊ := ⟨_, rfl⟩
  have f1 : (n : ℝ) * h ≤ t := by rw [hn, ← le_div_iff₀ hh]; exact Nat.floor_le hf
  have f2 : t < (n + 1) * h := by rw [hn, ← div_lt_iff₀ hh]; exact Nat.lt_floor_add_one _
  have hnX : n < X.length := by
    have : (n : ℝ) ≤ (X.length : ℝ) - 1 := by
      by_contra hc
      nlinarith
    have : ((n + 1 : ℕ) : ℝ) ≤ X.length := by push_cast; linarith
    exact_mod_cast this
  by_cases c1 : |t - n * h| < h * 1e-8
  · exact ⟨_, C16_newpoint_sample _ _ _ _ _ _ (List.getElem?_eq_getElem (hU ▸ hnX)) hh c1 _ _⟩
  have hnl : n + 1 < X.length := by
    by_contra hc
    have hc' : (X.length : ℝ) - 1 = n := by
      have : X.length = n + 1 := by omega
      rw [this]; push_cast; ring
    rw [hc'] at h1
    rw [show t - n * h = 0 by linarith, abs_zero] at c1
    exact c1 (by positivity)
  by_cases c2 : |t - (n + 1 : ℕ) * h| < h * 1e-8
  · exact ⟨_, C16_newpoint_sample _ _ _ _ _ _ (List.getElem?_eq_getElem (hU ▸ hnl)) hh c2 _ _⟩
  rw [abs_of_nonneg (by linarith)] at c1
  rw [abs_of_neg (by push_cast; linarith)] at c2
  push_cast at c2
  obtain ⟨hf, a0, a1, a2, g1, g2⟩ := newpointU_inside (List.getElem?_eq_getElem (show n < U.length by omega)) (List.getElem?_eq_getElem (show n + 1 < U.length by omega)) hh
    (t := t) (by nlinarith) (by nlinarith)
  rcases hu with ⟨rfl, hF⟩ | ⟨rfl, hF⟩
  · obtain ⟨f, rfl⟩ := Option.ne_none_iff_exists'.1 hF
    simp only [newpointU, hf, a0, a1, a2, if_false, g1, g2, bind, Except.bind, pure, Except.pure, key, show ("min_err" : String) ≠ "lin" by decide,
      show ("min_err" : String) ≠ "parab" by decide, show ("min_err" : String) ≠ "parab_j" by decide, if_true, ex, ev]
    exact ⟨_, rfl⟩
  · obtain ⟨f, hf'⟩ := Option.ne_none_iff_exists'.1 hF
    simp only [newpointU, hf, a0, a1, a2, if_false, g1, g2, bind, Except.bind, pure, Except.pure, show ("pinv_dyn" : String) ≠ "lin" by decide,
      show ("pinv_dyn" : String) ≠ "parab" by decide, show ("pinv_dyn" : String) ≠ "parab_j" by decide, show ("pinv_dyn" : String) ≠ "min_err" by decide, if_true,
      ex, ev, hf', key]
    exact ⟨_, rfl⟩

/-- C165: calls do succeed, for every scheme of states but SciPy's, every trajectory with two samples or more and all times between the start and the end. -/
theorem C165_total {M dim : ℕ} {s : Shape} {sp? : Option (Params d W)}
    (hs : SchemeIs (sp?.getD Params.empty).order scheme s M) (hd : d = M * dim) (hM : 0 < M) (hf : Fresh sp?)
    (hu : u_scheme = "min_err" ∨ (u_scheme = "pinv_dyn" ∧ (sp?.getD Params.empty).pinv_f ≠ none))
    (f : Arr d → W → Arr d) (hU : U.length = X.length) (hX : 2 ≤ X.length) (hh : 0 < h) (hts : ts ≠ [])
    (hr : ∀ t ∈ ts, 0 ≤ t ∧ t ≤ ((X.length : ℝ) - 1) * h) :
    (∃ r out, interpolatedArray lib false X U h ts (some f) none scheme u_scheme sp? = .ok (r, out)) ∧
    ∃ vs out, interpolatedDerivative lib false X U h ts (some f) none scheme 1 sp? = .ok (vs, out) := by
  obtain ⟨⟨⟨xs, us⟩, o1, e⟩, eD⟩ := C14_call_total (lib := lib) hs hd hM hf f hU hX hh hts hr
  obtain ⟨vs, o2, e'⟩ := eD 1 (fun _ => .inl rfl)
  refine ⟨?_, vs, o2, e'⟩
  have hsc : scheme ≠ "hs_scipy" := by cases hs <;> decide
  rw [array_iff] at e
  rw [derivative_iff] at e'
  obtain ⟨acc, U', old_t, Xd, sp', e1, e2, e3, e4, rfl⟩ := e
  obtain ⟨acc', V', old_t', Xd', sq', f1, f2, f4, rfl⟩ := e'
  rw [e1] at f1
  cases f1
  obtain ⟨rfl, rfl⟩ := prepare_inv hU e1
  have hp : pyIn "parab" u_scheme = false := by rcases hu with rfl | ⟨rfl, -⟩ <;> decide
  rw [missing_congr (a := "None") (b := "lin") (by decide), e2] at f2
  cases f2
  rw [missing_congr (a := "lin") (b := u_scheme) (by rw [hp]; decide)] at e2
  have hpf : sp'.pinv_f = (sp?.getD Params.empty).pinv_f := by
    unfold missing at e2
    obtain ⟨a, -, e2⟩ := bind_ok e2
    dsimp only at e2
    split at e2
    · obtain ⟨b, -, e2⟩ := bind_ok e2
      obtain ⟨c, -, e2⟩ := bind_ok e2
      obtain ⟨g, -, e2⟩ := bind_ok e2
      cases e2
      unfold fillUc
      split <;> rfl
    · cases e2; rfl
  have hlin : u_scheme ≠ "lin" := by rcases hu with rfl | ⟨rfl, -⟩ <;> decide
  have hpar : u_scheme ≠ "parab" := by rcases hu with rfl | ⟨rfl, -⟩ <;> decide
  have hj : pyIn "j" u_scheme = false := by rcases hu with rfl | ⟨rfl, -⟩ <;> decide
  have hus : u_scheme ∈ supportedUSchemes := by rcases hu with rfl | ⟨rfl, -⟩ <;> decide
  obtain ⟨us', hus'⟩ : ∃ us', interpolateU lib false X Xd (some f) scheme U' (times h X.length) ts u_scheme sp' = .ok us' := by
    rw [interpolateU, if_neg hlin, if_neg (by simp [times]; omega)]
    dsimp only
    rw [times_step' hX hh]
    apply mapM_total
    intro t ht
    obtain ⟨i, hi, hti⟩ := List.getElem_of_mem ht
    have hti : ts[i]? = some t := by rw [List.getElem?_eq_getElem hi, hti]
    rw [statesAt, if_neg hsc] at e4
    rw [derivativesAt, if_neg hsc] at f4
    obtain ⟨x, -, x2⟩ := (mapM_ok e4).2 i _ hti
    obtain ⟨v, -, v2⟩ := (mapM_ok f4).2 i _ hti
    refine newpointU_ok hU hh (hr t ht).1 (hr t ht).2 ?_ x2 v2
    rcases hu with rfl | ⟨rfl, h2⟩
    · exact .inl ⟨rfl, by simp⟩
    · exact .inr ⟨rfl, by rw [hpf]; exact h2⟩
  refine ⟨(xs, us'), sp?.map fun _ => sp', ?_⟩
  rw [array_iff]
  refine ⟨⟨acc.1, hus, fun hc => hpar hc.2, fun hc => (by rw [hj] at hc; cases hc.1), acc.2.2.2.2.1, by simp⟩, U', _, Xd, sp', e1, e2, hus', e4, rfl⟩

/-- The hypotheses of the theorems above are met: `q'' = u` in three samples, with any scheme of order two; there are libraries that minimize. -/
example : ∃ lib : Lib 2 ℝ, Minimizes lib ∧ (∃ r out, interpolatedArray lib false [![0, 0], ![1, 2], ![4, 4]] [2, 2, 2] 1 [1 / 2, 3 / 2] (some fun x u => ![x 1, u]) none "hs_mod"
    "min_err" none = .ok (r, out)) ∧
    ∃ vs out, interpolatedDerivative lib false [![0, 0], ![1, 2], ![4, 4]] [2, 2, 2] 1 [1 / 2, 3 / 2] (some fun x u => ![x 1, u]) none "hs_mod" 1 none = .ok (vs, out) := by
  classical
  refine ⟨⟨fun _ _ _ _ _ => 0, fun g u0 => if H : ∃ m, ∀ w, g m ≤ g w then H.choose else u0⟩, ?_, ?_⟩
  · intro g u0 H
    simp only [dif_pos H]
    exact H.choose_spec
  · refine C165_total (M := 2) (dim := 1) .hs_mod rfl (by norm_num) (by intro sp hsp; cases hsp) (.inl rfl) _ rfl (by simp) (by norm_num) (by simp) ?_
    intro t ht
    simp at ht
    rcases ht with rfl | rfl <;> norm_num

end Chords.Interp.Props
