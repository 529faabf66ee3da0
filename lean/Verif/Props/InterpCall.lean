import Verif.Lemmas.InterpCall
import Verif.Props.Interp
import Verif.Props.InterpU

/-! # C14 and C15 for whole calls, C80, C81 -/

namespace Chords.Interp.Props
open Chords Chords.Spec Chords.Interp

variable {d : ℕ} {W : Type} [AddCommGroup W] [Module ℝ W] {lib : Lib d W} {flat : Bool} {X : List (Arr d)} {U : List W}
  {h : ℝ} {ts : List ℝ} {F : Option (Arr d → W → Arr d)} {X_dot : Option (List (Arr d))} {scheme u_scheme : String}

/-! ### C15: the dictionary of parameters -/

/-- C15, the part that holds for every scheme: repeating a call with the dictionary as the first call left it gives the
same states and controls, and changes the dictionary no more. -/
theorem C15_repeat {sp? out : Option (Params d W)} {r : List (Arr d) × List W}
    (e : interpolatedArray lib flat X U h ts F X_dot scheme u_scheme sp? = .ok (r, out)) :
    interpolatedArray lib flat X U h ts F X_dot scheme u_scheme out = .ok (r, out) := by
  obtain ⟨xs, us⟩ := r
  rw [array_iff] at e ⊢
  obtain ⟨acc, U', old_t, Xd, sp', e1, e2, e3, e4, rfl⟩ := e
  cases sp? with
  | none => exact ⟨acc, U', old_t, Xd, sp', e1, e2, e3, e4, rfl⟩
  | some sp =>
    have hc := missing_cases e2
    refine ⟨?_, U', old_t, Xd, sp', e1, missing_again e2 _, e3, e4, rfl⟩
    have ho : sp'.order = sp.order := hc.1
    simpa [Accepts, ho] using acc

/-- C15, the part that holds for every scheme, derivatives: the dictionary that a successful call of `interpolated_array`
leaves behind gives the same derivatives as a repeated call, whatever the order of the two calls, and the derivatives do not
change the dictionary. -/
theorem C15_repeat_derivative {sp? out : Option (Params d W)} {r : List (Arr d)} {k : ℕ}
    (e : interpolatedDerivative lib flat X U h ts F X_dot scheme k sp? = .ok (r, out)) :
    interpolatedDerivative lib flat X U h ts F X_dot scheme k out = .ok (r, out) := by
  rw [derivative_iff] at e ⊢
  obtain ⟨acc, U', old_t, Xd, sp', e1, e2, e4, rfl⟩ := e
  cases sp? with
  | none => exact ⟨acc, U', old_t, Xd, sp', e1, e2, e4, rfl⟩
  | some sp => exact ⟨acc, U', old_t, Xd, sp', e1, missing_again e2 _, e4, rfl⟩

/-- C15, the part that holds in general: a scheme without an inner point (`trapz`, `trapz_mod`, `trapz_n`, `hs_scipy`), or
a dictionary in which the user gave `x_dot_c`, is left as it was. -/
theorem C15_unchanged_partial {sp : Params d W} {out : Option (Params d W)} {r : List (Arr d) × List W}
    (hs : scheme ∈ ["trapz", "trapz_mod", "trapz_n", "hs_scipy"] ∨ sp.x_dot_c ≠ none)
    (e : interpolatedArray lib flat X U h ts F X_dot scheme u_scheme (some sp) = .ok (r, out)) : out = some sp := by
  obtain ⟨xs, us⟩ := r
  rw [array_iff] at e
  obtain ⟨acc, U', old_t, Xd, sp', e1, e2, e3, e4, rfl⟩ := e
  have hc := (missing_cases e2).2.2.2.1 (by
    rcases hs with hs | hs
    · left
      simp only [List.mem_cons, List.not_mem_nil, or_false] at hs
      unfold NeedsMiddle
      rcases hs with rfl | rfl | rfl | rfl
      · decide
      · decide
      · decide
      · simp
    · exact Or.inr hs)
  rw [hc]; rfl

/-- A history: earlier calls of either function, with any arguments, that share one dictionary. -/
inductive History (lib : Lib d W) : Params d W → Params d W → Prop
  | nil (sp : Params d W) : History lib sp sp
  | array {sp sp1 sp2 : Params d W} {flat : Bool} {X : List (Arr d)} {U : List W} {h : ℝ} {ts : List ℝ}
      {F : Option (Arr d → W → Arr d)} {X_dot : Option (List (Arr d))} {scheme u_scheme : String}
      {r : List (Arr d) × List W} : History lib sp sp1 →
      interpolatedArray lib flat X U h ts F X_dot scheme u_scheme (some sp1) = .ok (r, some sp2) → History lib sp sp2
  | derivative {sp sp1 sp2 : Params d W} {flat : Bool} {X : List (Arr d)} {U : List W} {h : ℝ} {ts : List ℝ}
      {F : Option (Arr d → W → Arr d)} {X_dot : Option (List (Arr d))} {scheme : String} {k : ℕ}
      {r : List (Arr d)} : History lib sp sp1 →
      interpolatedDerivative lib flat X U h ts F X_dot scheme k (some sp1) = .ok (r, some sp2) → History lib sp sp2

/-- C15, the part that holds for all histories: if the user's dictionary has `x_dot_c` from the start, then no history of
successful calls changes it, so every later call gives what it would give with a new copy. -/
theorem C15_history_partial {sp sp' : Params d W} (H : History lib sp sp') (hc : sp.x_dot_c ≠ none) : sp' = sp := by
  induction H with
  | nil => rfl
  | array H e ih =>
    subst ih
    have := C15_unchanged_partial (Or.inr hc) e
    exact Option.some.inj this
  | derivative H e ih =>
    subst ih
    rw [derivative_iff] at e
    obtain ⟨acc, U', old_t, Xd, sp'', e1, e2, e4, ho⟩ := e
    have := (missing_cases e2).2.2.2.1 (Or.inr hc)
    simp only [Option.getD_some] at this
    subst this
    exact Option.some.inj ho

/-- C15, the part that holds for all histories: no history changes the order, the pseudoinverse dynamics or the inner
states of the dictionary. -/
theorem C15_history_keeps_partial {sp sp' : Params d W} (H : History lib sp sp') :
    sp'.order = sp.order ∧ sp'.x_c = sp.x_c ∧ sp'.pinv_f = sp.pinv_f := by
  induction H with
  | nil => exact ⟨rfl, rfl, rfl⟩
  | array H e ih =>
    rename_i r _
    obtain ⟨xs, us⟩ := r
    rw [array_iff] at e
    obtain ⟨acc, U', old_t, Xd, sp'', e1, e2, e3, e4, ho⟩ := e
    have := missing_cases e2
    cases Option.some.inj ho
    exact ⟨this.1.trans ih.1, this.2.1.trans ih.2.1, this.2.2.1.trans ih.2.2⟩
  | derivative H e ih =>
    rw [derivative_iff] at e
    obtain ⟨acc, U', old_t, Xd, sp'', e1, e2, e4, ho⟩ := e
    have := missing_cases e2
    cases Option.some.inj ho
    exact ⟨this.1.trans ih.1, this.2.1.trans ih.2.1, this.2.2.1.trans ih.2.2⟩

/-! ### C14 for whole calls -/

omit [AddCommGroup W] [Module ℝ W] in
theorem prepare_inv (hU : U.length = X.length) {U' : List W} {o : List ℝ} (e : prepare X U h ts = .ok (U', o)) :
    U' = U ∧ o = times h X.length := by
  unfold prepare at e
  obtain ⟨U1, e1, e⟩ := bind_ok e
  rw [extendU, if_neg (by omega)] at e1
  cases e1
  beta_reduce at e
  rw [if_pos hU.symm] at e
  split at e
  · split at e
    · cases e
    · cases e; exact ⟨rfl, rfl⟩
  · cases e

/-- The dictionary has none of the arrays that the interpolation can compute by itself. -/
def Fresh (sp? : Option (Params d W)) : Prop := ∀ sp ∈ sp?, sp.u_c = none ∧ sp.x_c = none ∧ sp.x_dot_c = none

omit [AddCommGroup W] [Module ℝ W] in
theorem fresh_getD {sp? : Option (Params d W)} (hf : Fresh sp?) :
    (sp?.getD Params.empty).u_c = none ∧ (sp?.getD Params.empty).x_c = none ∧
      (sp?.getD Params.empty).x_dot_c = none := by
  cases sp? with
  | none => exact ⟨rfl, rfl, rfl⟩
  | some sp => exact hf sp rfl

/-- The middle control of one step. -/
noncomputable def ucOf (scheme : String) (u un : W) : W :=
  if pyIn "j" scheme then (0.6 : ℝ) • u + (0.4 : ℝ) • un else (1 / 2 : ℝ) • (u + un)

theorem missing_step {f : Arr d → W → Arr d} (hU : U.length = X.length) {order : Option ℕ} {s : Shape} {M : ℕ}
    (hs : SchemeIs order scheme s M) (hp : pyIn "parab" u_scheme = false) {sp sp' : Params d W} (ho : sp.order = order)
    (hf : sp.u_c = none ∧ sp.x_c = none ∧ sp.x_dot_c = none) {Xd : List (Arr d)}
    (e : missing false X U h (some f) none scheme u_scheme sp = .ok (Xd, sp')) {n : ℕ} {x xn : Arr d} {u un : W}
    (h1 : X[n]? = some x) (h2 : X[n + 1]? = some xn) (h3 : U[n]? = some u) (h4 : U[n + 1]? = some un) :
    sp'.order = order ∧ Step s X Xd sp' n x xn (f x u) (f xn un)
      (f (midOf scheme x xn (f x u) (f xn un) h) (ucOf scheme u un)) := by
  refine ⟨(missing_cases e).1.trans ho, ?_⟩
  have z1 := zipWith_get (f := f) h1 h3
  have z2 := zipWith_get (f := f) h2 h4
  by_cases hm : NeedsMiddle scheme
  · obtain ⟨Xc, m1, m2, m3⟩ := midStates_ok (scheme := scheme) (h := h) (X := X) (Xd := List.zipWith f X U)
      (by rw [zipWith_length_eq hU])
    rw [missing_fresh hU hm hp hf.1 hf.2.1 hf.2.2 m1 (by rw [m2, midControls_length, hU])] at e
    simp only [Except.ok.injEq, Prod.mk.injEq] at e
    obtain ⟨rfl, rfl⟩ := e
    refine ⟨h1, h2, z1, z2, Or.inr ⟨_, rfl, ?_⟩⟩
    exact zipWith_get (m3 n x xn _ _ h1 h2 z1 z2) (midControls_get h3 h4)
  · rw [missing_stale hU (Or.inl hm)] at e
    simp only [Except.ok.injEq, Prod.mk.injEq] at e
    obtain ⟨rfl, rfl⟩ := e
    refine ⟨h1, h2, z1, z2, Or.inl ?_⟩
    unfold NeedsMiddle at hm
    cases hs <;> first | rfl | exact absurd (by decide) hm

/-- C14 for whole calls. For every scheme and every trajectory, the value that `interpolated_array` returns for a time
inside step `n` (a fraction `θ` of it) is on the curve that the scheme promises for the samples `n` and `n + 1`, the
dynamics at both, and the dynamics at the middle state. -/
theorem C14_call {M dim : ℕ} {s : Shape} {sp? out : Option (Params d W)}
    (hs : SchemeIs (sp?.getD Params.empty).order scheme s M) (hd : d = M * dim) (hM : 0 < M) (hf : Fresh sp?)
    {f : Arr d → W → Arr d} (hU : U.length = X.length) (hh : 0 < h) {xs : List (Arr d)} {us : List W}
    (e : interpolatedArray lib false X U h ts (some f) none scheme "lin" sp? = .ok ((xs, us), out))
    {i n : ℕ} {θ : ℝ} (hi : ts[i]? = some ((n + θ) * h)) (h0 : 1e-8 ≤ θ) (h1 : θ ≤ 1 - 1e-8) {x xn : Arr d} {u un : W}
    (x1 : X[n]? = some x) (x2 : X[n + 1]? = some xn) (u1 : U[n]? = some u) (u2 : U[n + 1]? = some un) :
    us[i]? = some ((1 - θ) • u + θ • un) ∧
    ∃ y, xs[i]? = some y ∧ OnCurve s M dim x (f x u) (f xn un)
      (f (midOf scheme x xn (f x u) (f xn un) h) (ucOf scheme u un)) h 0 (θ * h) y := by
  rw [array_iff] at e
  obtain ⟨acc, U', old_t, Xd, sp', e1, e2, e3, e4, rfl⟩ := e
  obtain ⟨rfl, rfl⟩ := prepare_inv hU e1
  obtain ⟨ho, st⟩ := missing_step hU hs (by decide) rfl (fresh_getD hf) e2 x1 x2 u1 u2
  have hsc : scheme ≠ "hs_scipy" := by cases hs <;> decide
  simp only [interpolateU, if_true] at e3
  rw [statesAt, if_neg hsc] at e4
  constructor
  · obtain ⟨w, w1, w2⟩ := (mapM_ok e3).2 i _ hi
    rw [← hU, C16_lin hh u1 u2 (by linarith) (by linarith)] at w2
    cases w2
    exact w1
  · obtain ⟨y, y1, y2⟩ := (mapM_ok e4).2 i _ hi
    obtain ⟨y', y3, y4⟩ := C14_piece (ho ▸ hs) hd hM st hh (t := (n + θ) * h) (by nlinarith) (by nlinarith)
    rw [y2] at y3
    cases y3
    refine ⟨y, y1, ?_⟩
    rw [show ((n : ℝ) + θ) * h - n * h = θ * h by ring] at y4
    exact y4

/-- C14 for whole calls, at a sample: the sample. -/
theorem C14_call_sample {sp? out : Option (Params d W)} (hsc : scheme ≠ "hs_scipy") (hh : 0 < h) {xs : List (Arr d)}
    {us : List W} (e : interpolatedArray lib flat X U h ts F X_dot scheme u_scheme sp? = .ok ((xs, us), out))
    {i n : ℕ} (hi : ts[i]? = some (n * h)) {x : Arr d} (x1 : X[n]? = some x) : xs[i]? = some x := by
  rw [array_iff] at e
  obtain ⟨acc, U', old_t, Xd, sp', e1, e2, e3, e4, rfl⟩ := e
  rw [statesAt, if_neg hsc] at e4
  obtain ⟨y, y1, y2⟩ := (mapM_ok e4).2 i _ hi
  rw [C14_sample x1 hh (by simp; positivity)] at y2
  cases y2
  exact y1

omit [AddCommGroup W] [Module ℝ W] in
theorem prepare_last {U' : List W} {o : List ℝ} (e : prepare X U h ts = .ok (U', o)) :
    ∃ t, ts.getLast? = some t ∧ t ≤ ((X.length : ℝ) - 1) * h + h * 1e-9 := by
  unfold prepare at e
  obtain ⟨U1, -, e⟩ := bind_ok e
  beta_reduce at e
  split at e
  swap
  · cases e
  split at e
  · rename_i t t' ht ht'
    have hX : X ≠ [] := by
      rintro rfl
      simp [times] at ht'
    rw [times_last hX] at ht'
    cases ht'
    split at e
    · cases e
    · rename_i hle
      exact ⟨t, ht, by linarith⟩
  · cases e

/-- C14, number of controls: with one control less than states the last one counts twice, in both functions. -/
theorem C14_short_controls {sp? : Option (Params d W)} {k : ℕ} {u : W} (hl : X.length = U.length + 1)
    (hu : U.getLast? = some u) :
    interpolatedArray lib flat X U h ts F X_dot scheme u_scheme sp? =
      interpolatedArray lib flat X (U ++ [u]) h ts F X_dot scheme u_scheme sp? ∧
    interpolatedDerivative lib flat X U h ts F X_dot scheme k sp? =
      interpolatedDerivative lib flat X (U ++ [u]) h ts F X_dot scheme k sp? := by
  have e : prepare X U h ts = prepare X (U ++ [u]) h ts := by
    have e1 : extendU X U = .ok (U ++ [u]) := by rw [extendU, if_pos hl, hu]
    have e2 : extendU X (U ++ [u]) = .ok (U ++ [u]) := by rw [extendU, if_neg (by simp; omega)]
    rw [prepare, prepare, e1, e2]
  constructor
  · simp only [interpolatedArray, e]
  · simp only [interpolatedDerivative, e]

/-- C14: any other difference in the numbers of states and controls is refused. -/
theorem C14_control_count {sp? out : Option (Params d W)} {k : ℕ} :
    (∀ r, interpolatedArray lib flat X U h ts F X_dot scheme u_scheme sp? = .ok (r, out) →
      X.length = U.length ∨ X.length = U.length + 1) ∧
    (∀ r, interpolatedDerivative lib flat X U h ts F X_dot scheme k sp? = .ok (r, out) →
      X.length = U.length ∨ X.length = U.length + 1) := by
  have key : ∀ U' o, prepare X U h ts = .ok (U', o) → X.length = U.length ∨ X.length = U.length + 1 := by
    intro U' o e
    by_cases hl : X.length = U.length + 1
    · exact .inr hl
    · unfold prepare at e
      obtain ⟨U1, e1, e⟩ := bind_ok e
      rw [extendU, if_neg hl] at e1
      cases e1
      beta_reduce at e
      split at e
      · rename_i h; exact .inl h
      · cases e
  constructor
  · rintro ⟨xs, us⟩ e
    rw [array_iff] at e
    obtain ⟨acc, U', old_t, Xd, sp', e1, -⟩ := e
    exact key _ _ e1
  · intro r e
    rw [derivative_iff] at e
    obtain ⟨_, U', old_t, Xd, sp', e1, -⟩ := e
    exact key _ _ e1

/-- C14 for whole calls of both functions, with every scheme: the last time is not beyond the end of the trajectory. -/
theorem C14_call_last {sp? out : Option (Params d W)} {k : ℕ} :
    (∀ r, interpolatedArray lib flat X U h ts F X_dot scheme u_scheme sp? = .ok (r, out) →
      ∃ t, ts.getLast? = some t ∧ t ≤ ((X.length : ℝ) - 1) * h + h * 1e-9) ∧
    (∀ r, interpolatedDerivative lib flat X U h ts F X_dot scheme k sp? = .ok (r, out) →
      ∃ t, ts.getLast? = some t ∧ t ≤ ((X.length : ℝ) - 1) * h + h * 1e-9) := by
  constructor
  · rintro ⟨xs, us⟩ e
    rw [array_iff] at e
    obtain ⟨acc, U', old_t, Xd, sp', e1, -⟩ := e
    exact prepare_last e1
  · intro r e
    rw [derivative_iff] at e
    obtain ⟨_, U', old_t, Xd, sp', e1, -⟩ := e
    exact prepare_last e1

/-- C14 for whole calls: no successful call has a time later than the end of the trajectory. -/
theorem C14_call_beyond {sp? out : Option (Params d W)} (hsc : scheme ≠ "hs_scipy") (hh : 0 < h)
    {r : List (Arr d) × List W} (e : interpolatedArray lib flat X U h ts F X_dot scheme u_scheme sp? = .ok (r, out)) :
    r.1.length = ts.length ∧ r.2.length = ts.length ∧ ∀ t ∈ ts, t < ((X.length : ℝ) - 1 + 1e-8) * h := by
  obtain ⟨xs, us⟩ := r
  rw [array_iff] at e
  obtain ⟨acc, U', old_t, Xd, sp', e1, e2, e3, e4, rfl⟩ := e
  rw [statesAt, if_neg hsc] at e4
  refine ⟨(mapM_ok e4).1, ?_, ?_⟩
  · unfold interpolateU at e3
    split at e3
    · exact (mapM_ok e3).1
    · split at e3
      · cases e3
      · exact (mapM_ok e3).1
  · intro t ht
    by_contra hc
    obtain ⟨i, hi, hti⟩ := List.getElem_of_mem ht
    obtain ⟨y, y1, y2⟩ := (mapM_ok e4).2 i t (by rw [List.getElem?_eq_getElem hi, hti])
    obtain ⟨er, h2⟩ := C14_beyond (X := X) (X_dot := Xd) hh (not_lt.1 hc) scheme sp' flat
    rw [h2] at y2
    cases y2

/-- The derivatives of a whole call. -/
theorem C14_call_derivative {M dim : ℕ} {s : Shape} {sp? out : Option (Params d W)}
    (hs : SchemeIs (sp?.getD Params.empty).order scheme s M) (hd : d = M * dim) (hM : 0 < M) (hf : Fresh sp?)
    {f : Arr d → W → Arr d} (hU : U.length = X.length) (hh : 0 < h) {xs : List (Arr d)} {k : ℕ}
    (hk : s = .parab (2 / 5) → k = 1 ∨ k = 2)
    (e : interpolatedDerivative lib false X U h ts (some f) none scheme k sp? = .ok (xs, out))
    {i n : ℕ} {θ : ℝ} (hi : ts[i]? = some ((n + θ) * h)) (h0 : 0 ≤ θ) (h1 : θ ≤ 1 - 1e-8) {x xn : Arr d} {u un : W}
    (x1 : X[n]? = some x) (x2 : X[n + 1]? = some xn) (u1 : U[n]? = some u) (u2 : U[n + 1]? = some un) :
    ∃ y, xs[i]? = some y ∧ OnCurve s M dim x (f x u) (f xn un)
      (f (midOf scheme x xn (f x u) (f xn un) h) (ucOf scheme u un)) h k (θ * h) y := by
  rw [derivative_iff] at e
  obtain ⟨acc, U', old_t, Xd, sp', e1, e2, e4, rfl⟩ := e
  obtain ⟨rfl, rfl⟩ := prepare_inv hU e1
  obtain ⟨ho, st⟩ := missing_step hU hs (by decide) rfl (fresh_getD hf) e2 x1 x2 u1 u2
  have hsc : scheme ≠ "hs_scipy" := by cases hs <;> decide
  have hlen : (n : ℝ) + 2 ≤ X.length := by
    have := (List.getElem?_eq_some_iff.1 x2).1
    exact_mod_cast this
  rw [derivativesAt, if_neg hsc] at e4
  obtain ⟨y, y1, y2⟩ := (mapM_ok e4).2 i _ hi
  obtain ⟨y', y3, y4⟩ := C14_derivative (ho ▸ hs) hd hM st hk hh (t := (n + θ) * h) (by nlinarith) (by nlinarith)
    (by nlinarith)
  rw [y2] at y3
  cases y3
  refine ⟨y, y1, ?_⟩
  rw [show ((n : ℝ) + θ) * h - n * h = θ * h by ring] at y4
  exact y4

/-- Calls do succeed: every scheme, every trajectory with two samples or more, all times between the start and the end. -/
theorem C14_call_total {M dim : ℕ} {s : Shape} {sp? : Option (Params d W)}
    (hs : SchemeIs (sp?.getD Params.empty).order scheme s M) (hd : d = M * dim) (hM : 0 < M) (hf : Fresh sp?)
    (f : Arr d → W → Arr d) (hU : U.length = X.length) (hX : 2 ≤ X.length) (hh : 0 < h) (hts : ts ≠ [])
    (hr : ∀ t ∈ ts, 0 ≤ t ∧ t ≤ ((X.length : ℝ) - 1) * h) :
    (∃ r out, interpolatedArray lib false X U h ts (some f) none scheme "lin" sp? = .ok (r, out)) ∧
    ∀ k, (s = .parab (2 / 5) → k = 1 ∨ k = 2) →
      ∃ r out, interpolatedDerivative lib false X U h ts (some f) none scheme k sp? = .ok (r, out) := by
  obtain ⟨t, ht⟩ : ∃ t, ts.getLast? = some t := ⟨_, List.getLast?_eq_some_getLast hts⟩
  have hp := prepare_ok hU ht (by rintro rfl; simp at hX) hh (hr t (List.mem_of_mem_getLast? ht)).2
  have hsc : scheme ≠ "hs_scipy" := by cases hs <;> decide
  have hmiss : ∀ us, pyIn "parab" us = false → ∃ Xd sp', missing false X U h (some f) none scheme us (sp?.getD Params.empty) = .ok (Xd, sp') := by
    intro us hus
    have hf' := fresh_getD hf
    by_cases hm : NeedsMiddle scheme
    · obtain ⟨Xc, m1, m2, m3⟩ := midStates_ok (scheme := scheme) (h := h) (X := X) (Xd := List.zipWith f X U)
        (by rw [zipWith_length_eq hU])
      exact ⟨_, _, missing_fresh hU hm hus hf'.1 hf'.2.1 hf'.2.2 m1 (by rw [m2, midControls_length, hU])⟩
    · exact ⟨_, _, missing_stale hU (Or.inl hm)⟩
  have hget : ∀ n, n < X.length → ∃ x u, X[n]? = some x ∧ U[n]? = some u := fun n hn =>
    ⟨X[n], U[n]'(hU ▸ hn), List.getElem?_eq_getElem hn, List.getElem?_eq_getElem (hU ▸ hn)⟩
  have hstep : ∀ t, 0 ≤ t → t ≤ ((X.length : ℝ) - 1) * h → t < ((X.length : ℝ) - 1) * h → ∃ n, n + 1 < X.length ∧ n * h ≤ t ∧ t < (n + 1) * h := by
    intro t h0 h1 h2
    have hf : 0 ≤ t / h := by positivity
    have f1 : (⌊t / h⌋₊ : ℝ) * h ≤ t := by rw [← le_div_iff₀ hh]; exact Nat.floor_le hf
    have f2 : t < (⌊t / h⌋₊ + 1) * h := by rw [← div_lt_iff₀ hh]; exact Nat.lt_floor_add_one _
    refine ⟨⌊t / h⌋₊, ?_, f1, f2⟩
    by_contra hc
    have hc' : (X.length : ℝ) ≤ (⌊t / h⌋₊ : ℝ) + 1 := by exact_mod_cast not_lt.1 hc
    nlinarith
  constructor
  · obtain ⟨Xd, sp', hm⟩ := hmiss "lin" (by decide)
    have hUs : ∃ us, interpolateU lib false X Xd (some f) scheme U (times h X.length) ts "lin" sp' = .ok us := by
      simp only [interpolateU, if_true]
      apply mapM_total
      intro t ht
      rw [← hU]
      obtain ⟨p, rest, _, e⟩ := interpAt_cons (h := h) (U := U) (by rintro rfl; simp at hU; omega) t
      exact ⟨_, e⟩
    obtain ⟨us, hus⟩ := hUs
    have hXs : ∃ xs, statesAt lib false X Xd h (times h X.length) ts scheme sp' = .ok xs := by
      rw [statesAt, if_neg hsc]
      apply mapM_total
      intro t ht
      obtain ⟨h0, h1⟩ := hr t ht
      by_cases hlast : t < ((X.length : ℝ) - 1) * h
      · obtain ⟨n, hn, n1, n2⟩ := hstep t h0 h1 hlast
        obtain ⟨x, u, hx, hu⟩ := hget n (by omega)
        obtain ⟨xn, un, hxn, hun⟩ := hget (n + 1) hn
        by_cases c1 : |t - n * h| < h * 1e-8
        · exact ⟨x, C14_sample hx hh c1 _ _ _⟩
        by_cases c2 : |t - (n + 1 : ℕ) * h| < h * 1e-8
        · exact ⟨xn, C14_sample hxn hh c2 _ _ _⟩
        rw [abs_of_nonneg (by linarith)] at c1
        rw [abs_of_neg (by push_cast; linarith)] at c2
        push_cast at c2
        obtain ⟨ho, st⟩ := missing_step hU hs (by decide) rfl (fresh_getD hf) hm hx hxn hu hun
        obtain ⟨y, hy, _⟩ := C14_piece (ho ▸ hs) hd hM st hh (t := t) (by nlinarith) (by nlinarith)
        exact ⟨y, hy⟩
      · obtain ⟨x, u, hx, hu⟩ := hget (X.length - 1) (by omega)
        refine ⟨x, C14_sample hx hh ?_ _ _ _⟩
        have : t = ((X.length : ℝ) - 1) * h := le_antisymm h1 (not_lt.1 hlast)
        rw [this, Nat.cast_sub (by omega)]
        simp; positivity
    obtain ⟨xs, hxs⟩ := hXs
    refine ⟨(xs, us), sp?.map fun _ => sp', ?_⟩
    rw [array_iff]
    refine ⟨?_, U, _, Xd, sp', hp, hm, hus, hxs, rfl⟩
    have ha : scheme ∈ supportedSchemes := by cases hs <;> decide
    refine ⟨ha, by decide, by simp, by simp [show pyIn "j" "lin" = false by decide], ?_, by simp⟩
    have hn : ∀ M', (sp?.getD Params.empty).order = some M' → sp?.isSome ∧ (sp?.getD Params.empty).order ≠ none := by
      intro M' hM'
      refine ⟨?_, by simp [hM']⟩
      cases sp? with
      | none => cases hM'
      | some _ => rfl
    cases hs <;> intro hc <;> first
      | exact hn _ (by assumption)
      | exact absurd hc (by decide)
  · intro k hk
    obtain ⟨Xd, sp', hm⟩ := hmiss "None" (by decide)
    have hXs : ∃ xs, derivativesAt lib false X Xd h (times h X.length) ts scheme k sp' = .ok xs := by
      rw [derivativesAt, if_neg hsc]
      apply mapM_total
      intro t ht
      obtain ⟨h0, h1⟩ := hr t ht
      obtain ⟨m, hm2⟩ : ∃ m, X.length = m + 2 := ⟨X.length - 2, by omega⟩
      by_cases hlast : t ≤ ((X.length : ℝ) - 1 - 1e-8) * h
      · obtain ⟨n, hn, n1, n2⟩ := hstep t h0 h1 (by nlinarith)
        obtain ⟨x, u, hx, hu⟩ := hget n (by omega)
        obtain ⟨xn, un, hxn, hun⟩ := hget (n + 1) hn
        obtain ⟨ho, st⟩ := missing_step hU hs (by decide) rfl (fresh_getD hf) hm hx hxn hu hun
        obtain ⟨y, hy, _⟩ := C14_derivative (ho ▸ hs) hd hM st hk hh n1 n2 hlast
        exact ⟨y, hy⟩
      · obtain ⟨x, u, hx, hu⟩ := hget m (by omega)
        obtain ⟨xn, un, hxn, hun⟩ := hget (m + 1) (by omega)
        obtain ⟨ho, st⟩ := missing_step hU hs (by decide) rfl (fresh_getD hf) hm hx hxn hu hun
        have hl : (X.length : ℝ) = m + 2 := by rw [hm2]; push_cast; ring
        obtain ⟨y, hy, _⟩ := C14_derivative_end (ho ▸ hs) hd hM st hm2 hk hh (t := t) (by
          rw [abs_lt]; rw [hl] at h1 hlast; constructor <;> nlinarith)
        exact ⟨y, hy⟩
    obtain ⟨xs, hxs⟩ := hXs
    refine ⟨xs, sp?.map fun _ => sp', ?_⟩
    rw [derivative_iff]
    have ha : scheme ∈ supportedSchemes := by cases hs <;> decide
    exact ⟨ha, U, _, Xd, sp', hp, hm, hxs, rfl⟩

/-! ### C81: the interpolation of a solution obeys the dynamics at the inner points -/

theorem coord_ext {d : ℕ} {x y : Arr d} (h : ∀ j, j < d → coord x j = coord y j) : x = y := by
  funext i
  have := h i.val i.isLt
  simpa [coord, i.isLt] using this

/-- C81, `hs`: take any trajectory whose Hermite-Simpson residuals vanish (a solution of the collocated problem). At the
middle of every step the interpolated derivative is the dynamics of the interpolated state and the interpolated control. -/
theorem C81_hs {sp? o1 o2 : Option (Params d W)} (hf : Fresh sp?) {f : Arr d → W → Arr d}
    (hU : U.length = X.length) (hh : 0 < h)
    (sol : ∀ n x xn u un, X[n]? = some x → X[n + 1]? = some xn → U[n]? = some u → U[n + 1]? = some un →
      hsRestr x xn u un f h = 0)
    {xs vs : List (Arr d)} {us : List W}
    (e : interpolatedArray lib false X U h ts (some f) none "hs" "lin" sp? = .ok ((xs, us), o1))
    (e' : interpolatedDerivative lib false X U h ts (some f) none "hs" 1 sp? = .ok (vs, o2))
    {i n : ℕ} (hi : ts[i]? = some ((n + 1 / 2) * h)) (hn : n + 1 < X.length) :
    ∃ x u v, xs[i]? = some x ∧ us[i]? = some u ∧ vs[i]? = some v ∧ v = f x u := by
  obtain ⟨x, hx⟩ : ∃ x, X[n]? = some x := ⟨_, List.getElem?_eq_getElem (by omega)⟩
  obtain ⟨xn, hxn⟩ : ∃ x, X[n + 1]? = some x := ⟨_, List.getElem?_eq_getElem hn⟩
  obtain ⟨u, hu⟩ : ∃ x, U[n]? = some x := ⟨_, List.getElem?_eq_getElem (by omega)⟩
  obtain ⟨un, hun⟩ : ∃ x, U[n + 1]? = some x := ⟨_, List.getElem?_eq_getElem (by omega)⟩
  obtain ⟨w, y, y1, y2⟩ := C14_call (M := 1) (dim := d) .hs (by omega) (by norm_num) hf hU hh e hi (by norm_num)
    (by norm_num) hx hxn hu hun
  obtain ⟨v, v1, v2⟩ := C14_call_derivative (M := 1) (dim := d) .hs (by omega) (by norm_num) hf hU hh
    (fun _ => Or.inl rfl) e' hi (by norm_num) (by norm_num) hx hxn hu hun
  refine ⟨y, _, v, y1, w, v1, ?_⟩
  have hm : midOf "hs" x xn (f x u) (f xn un) h = hsMidpoint x xn (f x u) (f xn un) h := by
    simp [midOf, show pyIn "mod" "hs" = false by decide, show pyIn "j" "hs" = false by decide]
  have hc : ucOf "hs" u un = (1 / 2 : ℝ) • (u + un) := by simp [ucOf, show pyIn "j" "hs" = false by decide]
  have hlin : (1 - 1 / 2 : ℝ) • u + (1 / 2 : ℝ) • un = (1 / 2 : ℝ) • (u + un) := by module
  rw [hm, hc] at y2 v2
  rw [hlin]
  obtain ⟨xc, hxc⟩ : ∃ xc, xc = hsMidpoint x xn (f x u) (f xn un) h := ⟨_, rfl⟩
  obtain ⟨g, hg⟩ : ∃ g, g = f xc ((1 / 2 : ℝ) • (u + un)) := ⟨_, rfl⟩
  have hres := sol n x xn u un hx hxn hu hun
  simp only [hsRestr] at hres
  have hxc' : (1 / 2 : ℝ) • (x + xn) + (h / 8) • (f x u - f xn un) = xc := by rw [hxc]; rfl
  rw [hxc', ← hg] at hres
  rw [← hxc, ← hg] at y2 v2
  have pm : ∀ j, StepMotion (.parab (1 / 2)) 1 (fun q => coord x (d * q + j)) (coord (f x u) (d * (1 - 1) + j))
      (coord g (d * (1 - 1) + j)) (coord (f xn un) (d * (1 - 1) + j)) h
      (fun k τ => hsInterp 1 k (fun q => coord x (d * q + j)) (coord (f x u) (d * (1 - 1) + j))
        (coord (f xn un) (d * (1 - 1) + j)) τ h (coord g (d * (1 - 1) + j)) 0) := by
    intro j
    have := hsInterp_parabolicMotion 1 (fun q => coord x (d * q + j)) (coord (f x u) (d * (1 - 1) + j))
      (coord (f xn un) (d * (1 - 1) + j)) (coord g (d * (1 - 1) + j)) h hh.ne'
    rw [show h / 2 = 1 / 2 * h by ring] at this
    exact this
  have hy : y = xc := by
    apply coord_ext
    intro j hj
    have h1 := y2 0 j (by norm_num) hj _ (pm j)
    rw [show d * 0 + j = j by simp, show (1 / 2 : ℝ) * h = h / 2 by ring] at h1
    rw [h1, show (0 + 0 : ℕ) = 0 by rfl, hsInterp_half 1 _ (fun _ => coord xn j) _ _ _ h hh.ne' _ 0 (by norm_num)]
    · rw [hxc]
      simp [hsMHalfX, hsMidpoint, coord, hj, Nat.factorial]
      ring
    · have := congrFun hres ⟨j, hj⟩
      simp [coord, hj] at this ⊢
      linarith
  have hv : v = g := by
    apply coord_ext
    intro j hj
    have h1 := v2 0 j (by norm_num) hj _ (pm j)
    have h2 := ParabolicMotion.top_mid (pm j)
    rw [show d * 0 + j = j by simp] at h1
    rw [h1]
    simpa using h2
  rw [hv, hy, hg]

/-- Positions and velocities of a state of second order. -/
def halves {dim : ℕ} (x : Arr (2 * dim)) : (Fin dim → ℝ) × (Fin dim → ℝ) :=
  (fun j => coord x j, fun j => coord x (dim + j))

/-- The state with given positions and velocities. -/
def joined {dim : ℕ} (p : (Fin dim → ℝ) × (Fin dim → ℝ)) : Arr (2 * dim) := fun i =>
  if h : i.val < dim then p.1 ⟨i.val, h⟩ else p.2 ⟨i.val - dim, by have := i.isLt; omega⟩

theorem joined_lo {dim : ℕ} (p : (Fin dim → ℝ) × (Fin dim → ℝ)) {j : ℕ} (hj : j < dim) :
    coord (joined p) j = p.1 ⟨j, hj⟩ := by
  simp [coord, joined, hj, show j < 2 * dim by omega]

theorem joined_hi {dim : ℕ} (p : (Fin dim → ℝ) × (Fin dim → ℝ)) {j : ℕ} (hj : j < dim) :
    coord (joined p) (dim + j) = p.2 ⟨j, hj⟩ := by
  simp [coord, joined, hj, show dim + j < 2 * dim by omega]

theorem halves_ext {dim : ℕ} {x y : Arr (2 * dim)} (h1 : ∀ j, j < dim → coord x j = coord y j)
    (h2 : ∀ j, j < dim → coord x (dim + j) = coord y (dim + j)) : x = y := by
  apply coord_ext
  intro i hi
  by_cases hc : i < dim
  · exact h1 i hc
  · have := h2 (i - dim) (by omega)
    rwa [show dim + (i - dim) = i by omega] at this

section second
variable {dim : ℕ} {lib : Lib (2 * dim) W} {X : List (Arr (2 * dim))}

/-- C81, `hs_mod`: any trajectory of a second order system `q'' = F2(q, q', u).2` whose `hs_mod` residuals vanish. At the
middle of every step the interpolated derivative is the dynamics of the interpolated state and the interpolated control. -/
theorem C81_hs_mod {sp? o1 o2 : Option (Params (2 * dim) W)} (hf : Fresh sp?)
    {F2 : (Fin dim → ℝ) × (Fin dim → ℝ) → W → (Fin dim → ℝ) × (Fin dim → ℝ)} (second : ∀ x u, (F2 x u).1 = x.2)
    {f : Arr (2 * dim) → W → Arr (2 * dim)} (hF : ∀ x u, f x u = joined (F2 (halves x) u))
    (hU : U.length = X.length) (hh : 0 < h)
    (sol : ∀ n x xn u un, X[n]? = some x → X[n + 1]? = some xn → U[n]? = some u → U[n + 1]? = some un →
      hsModRestr (halves x) (halves xn) u un F2 h = 0)
    {xs vs : List (Arr (2 * dim))} {us : List W}
    (e : interpolatedArray lib false X U h ts (some f) none "hs_mod" "lin" sp? = .ok ((xs, us), o1))
    (e' : interpolatedDerivative lib false X U h ts (some f) none "hs_mod" 1 sp? = .ok (vs, o2))
    {i n : ℕ} (hi : ts[i]? = some ((n + 1 / 2) * h)) (hn : n + 1 < X.length) :
    ∃ x u v, xs[i]? = some x ∧ us[i]? = some u ∧ vs[i]? = some v ∧ v = f x u := by
  obtain ⟨x, hx⟩ : ∃ x, X[n]? = some x := ⟨_, List.getElem?_eq_getElem (by omega)⟩
  obtain ⟨xn, hxn⟩ : ∃ x, X[n + 1]? = some x := ⟨_, List.getElem?_eq_getElem hn⟩
  obtain ⟨u, hu⟩ : ∃ x, U[n]? = some x := ⟨_, List.getElem?_eq_getElem (by omega)⟩
  obtain ⟨un, hun⟩ : ∃ x, U[n + 1]? = some x := ⟨_, List.getElem?_eq_getElem (by omega)⟩
  obtain ⟨w, y, y1, y2⟩ := C14_call (M := 2) (dim := dim) .hs_mod rfl (by norm_num) hf hU hh e hi (by norm_num)
    (by norm_num) hx hxn hu hun
  obtain ⟨v, v1, v2⟩ := C14_call_derivative (M := 2) (dim := dim) .hs_mod rfl (by norm_num) hf hU hh
    (fun _ => Or.inl rfl) e' hi (by norm_num) (by norm_num) hx hxn hu hun
  refine ⟨y, _, v, y1, w, v1, ?_⟩
  obtain ⟨xc, hxc⟩ : ∃ xc, xc = midOf "hs_mod" x xn (f x u) (f xn un) h := ⟨_, rfl⟩
  have hc : ucOf "hs_mod" u un = (1 / 2 : ℝ) • (u + un) := by simp [ucOf, show pyIn "j" "hs_mod" = false by decide]
  have hlin : (1 - 1 / 2 : ℝ) • u + (1 / 2 : ℝ) • un = (1 / 2 : ℝ) • (u + un) := by module
  rw [← hxc, hc] at y2 v2
  rw [hlin]
  obtain ⟨uc, huc⟩ : ∃ uc, uc = (1 / 2 : ℝ) • (u + un) := ⟨_, rfl⟩
  rw [← huc] at y2 v2 ⊢
  have hm : xc = byPairs fun j => hsModMidpoint (pairAt x j) (pairAt xn j) (pairAt (f x u) j) (pairAt (f xn un) j) h := by
    rw [hxc]; simp [midOf, show pyIn "mod" "hs_mod" = true by decide]
  have hd : 2 * dim / 2 = dim := by omega
  have xc0 : ∀ j (hj : j < dim), coord xc j = 1 / 16 * (13 * coord x j + 3 * coord xn j + 5 * h * coord x (dim + j))
      + h ^ 2 / 96 * (4 * (F2 (halves x) u).2 ⟨j, hj⟩ - (F2 (halves xn) un).2 ⟨j, hj⟩) := by
    intro j hj
    have := byPairs_at (dim := dim) (fun j => hsModMidpoint (pairAt x j) (pairAt xn j) (pairAt (f x u) j) (pairAt (f xn un) j) h)
      (p := 0) (by norm_num) hj
    rw [Nat.mul_zero, Nat.zero_add, ← hm] at this
    rw [this]
    simp [hsModMidpoint, pairAt, hd, at'_eq, hF, joined_hi _ hj]
  have xc1 : ∀ j (hj : j < dim), coord xc (dim + j) = 1 / 2 * (coord x (dim + j) + coord xn (dim + j))
      + h / 8 * ((F2 (halves x) u).2 ⟨j, hj⟩ - (F2 (halves xn) un).2 ⟨j, hj⟩) := by
    intro j hj
    have := byPairs_at (dim := dim) (fun j => hsModMidpoint (pairAt x j) (pairAt xn j) (pairAt (f x u) j) (pairAt (f xn un) j) h)
      (p := 1) (by norm_num) hj
    rw [Nat.mul_one, ← hm] at this
    rw [this]
    simp [hsModMidpoint, pairAt, hd, at'_eq, hF, joined_hi _ hj]
  have hXc : hsModXc (halves x) (halves xn) (F2 (halves x) u).2 (F2 (halves xn) un).2 h = halves xc := by
    apply Prod.ext
    · funext j
      simp only [hsModXc, halves, Pi.add_apply, Pi.smul_apply, Pi.sub_apply, smul_eq_mul]
      rw [xc0 j j.isLt]
      simp only [halves]
      ring
    · funext j
      simp only [hsModXc, halves, Pi.add_apply, Pi.smul_apply, Pi.sub_apply, smul_eq_mul]
      rw [xc1 j j.isLt]
      simp only [halves]
  have hres := sol n x xn u un hx hxn hu hun
  simp only [hsModRestr] at hres
  rw [hXc, ← huc] at hres
  have r0 : ∀ j (hj : j < dim), coord xn j = coord x j + h * coord x (dim + j) + h ^ 2 / 6 *
      ((F2 (halves x) u).2 ⟨j, hj⟩ + 2 * (F2 (halves xc) uc).2 ⟨j, hj⟩) := by
    intro j hj
    have := congrFun (congrArg Prod.fst hres) ⟨j, hj⟩
    simp [halves] at this
    simp [halves]
    linarith
  have r1 : ∀ j (hj : j < dim), coord xn (dim + j) = coord x (dim + j) + h / 6 *
      ((F2 (halves x) u).2 ⟨j, hj⟩ + 4 * (F2 (halves xc) uc).2 ⟨j, hj⟩ + (F2 (halves xn) un).2 ⟨j, hj⟩) := by
    intro j hj
    have := congrFun (congrArg Prod.snd hres) ⟨j, hj⟩
    simp [halves] at this
    simp [halves]
    linarith
  have pm : ∀ j, StepMotion (.parab (1 / 2)) 2 (fun q => coord x (dim * q + j)) (coord (f x u) (dim * (2 - 1) + j))
      (coord (f xc uc) (dim * (2 - 1) + j)) (coord (f xn un) (dim * (2 - 1) + j)) h
      (fun k τ => hsInterp 2 k (fun q => coord x (dim * q + j)) (coord (f x u) (dim * (2 - 1) + j))
        (coord (f xn un) (dim * (2 - 1) + j)) τ h (coord (f xc uc) (dim * (2 - 1) + j)) 0) := by
    intro j
    have := hsInterp_parabolicMotion 2 (fun q => coord x (dim * q + j)) (coord (f x u) (dim * (2 - 1) + j))
      (coord (f xn un) (dim * (2 - 1) + j)) (coord (f xc uc) (dim * (2 - 1) + j)) h hh.ne'
    rw [show h / 2 = 1 / 2 * h by ring] at this
    exact this
  have hne := hh.ne'
  have hy : y = xc := by
    apply halves_ext
    · intro j hj
      have h1 := y2 0 j (by norm_num) hj _ (pm j)
      rw [Nat.mul_zero, Nat.zero_add] at h1
      rw [h1, xc0 j hj, r0 j hj]
      simp [hsInterp, Finset.sum_range_succ, hsList, Nat.factorial, hF, joined_hi _ hj]
      field_simp
      ring
    · intro j hj
      have h1 := y2 1 j (by norm_num) hj _ (pm j)
      rw [Nat.mul_one] at h1
      rw [h1, xc1 j hj, r1 j hj]
      simp [hsInterp, Finset.sum_range_succ, hsList, Nat.factorial, hF, joined_hi _ hj]
      field_simp
      ring
  have hv : v = f xc uc := by
    apply halves_ext
    · intro j hj
      have h1 := v2 0 j (by norm_num) hj _ (pm j)
      have h2 := y2 1 j (by norm_num) hj _ (pm j)
      rw [Nat.mul_zero, Nat.zero_add, Nat.mul_one] at h1
      rw [Nat.mul_one, hy] at h2
      have h3 : coord (f xc uc) j = coord xc (dim + j) := by rw [hF, joined_lo _ hj, second]; rfl
      exact (h1.trans h2.symm).trans h3.symm
    · intro j hj
      have h1 := v2 1 j (by norm_num) hj _ (pm j)
      have h2 := ParabolicMotion.top_mid (pm j)
      rw [Nat.mul_one] at h1
      rw [h1]
      simpa using h2
  rw [hv, hy]

/-- C81, `hsj`: the same at two fifths of every step. -/
theorem C81_hsj {sp? o1 o2 : Option (Params (2 * dim) W)} (hf : Fresh sp?)
    {F2 : (Fin dim → ℝ) × (Fin dim → ℝ) → W → (Fin dim → ℝ) × (Fin dim → ℝ)} (second : ∀ x u, (F2 x u).1 = x.2)
    {f : Arr (2 * dim) → W → Arr (2 * dim)} (hF : ∀ x u, f x u = joined (F2 (halves x) u))
    (hU : U.length = X.length) (hh : 0 < h)
    (sol : ∀ n x xn u un, X[n]? = some x → X[n + 1]? = some xn → U[n]? = some u → U[n + 1]? = some un →
      hsjRestr (halves x) (halves xn) u un F2 h = 0)
    {xs vs : List (Arr (2 * dim))} {us : List W}
    (e : interpolatedArray lib false X U h ts (some f) none "hsj" "lin" sp? = .ok ((xs, us), o1))
    (e' : interpolatedDerivative lib false X U h ts (some f) none "hsj" 1 sp? = .ok (vs, o2))
    {i n : ℕ} (hi : ts[i]? = some ((n + 2 / 5) * h)) (hn : n + 1 < X.length) :
    ∃ x u v, xs[i]? = some x ∧ us[i]? = some u ∧ vs[i]? = some v ∧ v = f x u := by
  obtain ⟨x, hx⟩ : ∃ x, X[n]? = some x := ⟨_, List.getElem?_eq_getElem (by omega)⟩
  obtain ⟨xn, hxn⟩ : ∃ x, X[n + 1]? = some x := ⟨_, List.getElem?_eq_getElem hn⟩
  obtain ⟨u, hu⟩ : ∃ x, U[n]? = some x := ⟨_, List.getElem?_eq_getElem (by omega)⟩
  obtain ⟨un, hun⟩ : ∃ x, U[n + 1]? = some x := ⟨_, List.getElem?_eq_getElem (by omega)⟩
  obtain ⟨w, y, y1, y2⟩ := C14_call (M := 2) (dim := dim) .hsj rfl (by norm_num) hf hU hh e hi (by norm_num)
    (by norm_num) hx hxn hu hun
  obtain ⟨v, v1, v2⟩ := C14_call_derivative (M := 2) (dim := dim) .hsj rfl (by norm_num) hf hU hh
    (fun _ => Or.inl rfl) e' hi (by norm_num) (by norm_num) hx hxn hu hun
  refine ⟨y, _, v, y1, w, v1, ?_⟩
  obtain ⟨xc, hxc⟩ : ∃ xc, xc = midOf "hsj" x xn (f x u) (f xn un) h := ⟨_, rfl⟩
  have hc : ucOf "hsj" u un = (0.6 : ℝ) • u + (0.4 : ℝ) • un := by simp [ucOf, show pyIn "j" "hsj" = true by decide]
  have hlin : (1 - 2 / 5 : ℝ) • u + (2 / 5 : ℝ) • un = (0.6 : ℝ) • u + (0.4 : ℝ) • un := by norm_num
  rw [← hxc, hc] at y2 v2
  rw [hlin]
  obtain ⟨uc, huc⟩ : ∃ uc, uc = (0.6 : ℝ) • u + (0.4 : ℝ) • un := ⟨_, rfl⟩
  rw [← huc] at y2 v2 ⊢
  have hm : xc = byPairs fun j => hsjMidpoint (pairAt x j) (pairAt xn j) (pairAt (f x u) j) (pairAt (f xn un) j) h := by
    rw [hxc]; simp [midOf, show pyIn "mod" "hsj" = false by decide, show pyIn "j" "hsj" = true by decide]
  have hd : 2 * dim / 2 = dim := by omega
  have xc0 : ∀ j (hj : j < dim), coord xc j = coord x j + h / 625 * (218 * coord x (dim + j) + 32 * coord xn (dim + j))
      + h ^ 2 / 1875 * (82 * (F2 (halves x) u).2 ⟨j, hj⟩ - 28 * (F2 (halves xn) un).2 ⟨j, hj⟩) := by
    intro j hj
    have := byPairs_at (dim := dim) (fun j => hsjMidpoint (pairAt x j) (pairAt xn j) (pairAt (f x u) j) (pairAt (f xn un) j) h)
      (p := 0) (by norm_num) hj
    rw [Nat.mul_zero, Nat.zero_add, ← hm] at this
    rw [this]
    simp [hsjMidpoint, pairAt, hd, at'_eq, hF, joined_hi _ hj]
  have xc1 : ∀ j (hj : j < dim), coord xc (dim + j) = 1 / 125 * (81 * coord x (dim + j) + 44 * coord xn (dim + j))
      + h / 125 * (18 * (F2 (halves x) u).2 ⟨j, hj⟩ - 12 * (F2 (halves xn) un).2 ⟨j, hj⟩) := by
    intro j hj
    have := byPairs_at (dim := dim) (fun j => hsjMidpoint (pairAt x j) (pairAt xn j) (pairAt (f x u) j) (pairAt (f xn un) j) h)
      (p := 1) (by norm_num) hj
    rw [Nat.mul_one, ← hm] at this
    rw [this]
    simp [hsjMidpoint, pairAt, hd, at'_eq, hF, joined_hi _ hj]
  have hXc : hsjXc (halves x) (halves xn) (F2 (halves x) u).2 (F2 (halves xn) un).2 h = halves xc := by
    apply Prod.ext
    · funext j
      simp only [hsjXc, halves, Pi.add_apply, Pi.smul_apply, Pi.sub_apply, smul_eq_mul]
      rw [xc0 j j.isLt]
      simp only [halves]
    · funext j
      simp only [hsjXc, halves, Pi.add_apply, Pi.smul_apply, Pi.sub_apply, smul_eq_mul]
      rw [xc1 j j.isLt]
      simp only [halves]
  have hres := sol n x xn u un hx hxn hu hun
  simp only [hsjRestr] at hres
  rw [hXc, ← huc] at hres
  have r1 : ∀ j (hj : j < dim), coord xn (dim + j) = coord x (dim + j) + h / 36 *
      (3 * (F2 (halves x) u).2 ⟨j, hj⟩ + 25 * (F2 (halves xc) uc).2 ⟨j, hj⟩ + 8 * (F2 (halves xn) un).2 ⟨j, hj⟩) := by
    intro j hj
    have := congrFun (congrArg Prod.snd hres) ⟨j, hj⟩
    simp [halves] at this
    simp [halves]
    linarith
  have pm : ∀ j, StepMotion (.parab (2 / 5)) 2 (fun q => coord x (dim * q + j)) (coord (f x u) (dim * (2 - 1) + j))
      (coord (f xc uc) (dim * (2 - 1) + j)) (coord (f xn un) (dim * (2 - 1) + j)) h
      (hsjCurve (coord x j, coord x (dim + j)) (coord (f x u) (dim * (2 - 1) + j))
        (coord (f xn un) (dim * (2 - 1) + j)) (coord (f xc uc) (dim * (2 - 1) + j)) h) := by
    intro j
    have := hsjCurve_parabolic (coord x j, coord x (dim + j)) (coord (f x u) (dim * (2 - 1) + j))
      (coord (f xn un) (dim * (2 - 1) + j)) (coord (f xc uc) (dim * (2 - 1) + j)) h hh.ne'
    rw [show 2 * h / 5 = 2 / 5 * h by ring] at this
    refine parabolic_congr ?_ this
    intro p hp
    interval_cases p <;> simp
  have hne := hh.ne'
  have hy : y = xc := by
    apply halves_ext
    · intro j hj
      have h1 := y2 0 j (by norm_num) hj _ (pm j)
      rw [Nat.mul_zero, Nat.zero_add] at h1
      rw [h1, xc0 j hj, r1 j hj]
      simp [hsjCurve, taylorSum, Finset.sum_range_succ, hsjList, Nat.factorial, hF, joined_hi _ hj]
      field_simp
      ring
    · intro j hj
      have h1 := y2 1 j (by norm_num) hj _ (pm j)
      rw [Nat.mul_one] at h1
      rw [h1, xc1 j hj, r1 j hj]
      simp [hsjCurve, taylorSum, Finset.sum_range_succ, hsjList, Nat.factorial, hF, joined_hi _ hj]
      field_simp
      ring
  have hv : v = f xc uc := by
    apply halves_ext
    · intro j hj
      have h1 := v2 0 j (by norm_num) hj _ (pm j)
      have h2 := y2 1 j (by norm_num) hj _ (pm j)
      rw [Nat.mul_zero, Nat.zero_add, Nat.mul_one] at h1
      rw [Nat.mul_one, hy] at h2
      have h3 : coord (f xc uc) j = coord xc (dim + j) := by rw [hF, joined_lo _ hj, second]; rfl
      exact (h1.trans h2.symm).trans h3.symm
    · intro j hj
      have h1 := v2 1 j (by norm_num) hj _ (pm j)
      have h2 := ParabolicMotion.top_mid (pm j)
      rw [Nat.mul_one] at h1
      rw [h1]
      simpa using h2
  rw [hv, hy]

end second

/-- A solved trajectory for the theorems above: `x' = u`, controls `0, 2`, step 2. -/
example : hsRestr (X := Arr 1) (fun _ => 0) (fun _ => 2) (0 : ℝ) 2 (fun _ u => fun _ => u) 2 = 0 := by
  funext i; norm_num [hsRestr]

theorem times_two (h : ℝ) : times h 2 = [0, h] := by
  simp [times, List.range_succ]

/-- The interpolation of a trajectory of two samples, with a new dictionary, at the middle of its only step. -/
theorem two_samples {x xn : Arr d} {u un : W} {f : Arr d → W → Arr d} {sp? : Option (Params d W)}
    {M dim : ℕ} {s : Shape} (hs : SchemeIs (sp?.getD Params.empty).order scheme s M) (hd : d = M * dim) (hM : 0 < M)
    (hf : Fresh sp?) (hh : 0 < h) : ∃ y w out,
    interpolatedArray lib false [x, xn] [u, un] h [h / 2] (some f) none scheme "lin" sp? = .ok (([y], [w]), out) ∧
    OnCurve s M dim x (f x u) (f xn un) (f (midOf scheme x xn (f x u) (f xn un) h) (ucOf scheme u un)) h 0 (h / 2) y := by
  obtain ⟨⟨⟨xs, us⟩, out, e⟩, _⟩ := C14_call_total (lib := lib) (X := [x, xn]) (U := [u, un]) (ts := [h / 2]) hs hd hM hf
    f rfl (by simp) hh (by simp) (by intro t ht; simp at ht; subst ht; constructor <;> norm_num <;> linarith)
  have hsc : scheme ≠ "hs_scipy" := by cases hs <;> decide
  obtain ⟨l1, l2, _⟩ := C14_call_beyond hsc hh e
  obtain ⟨_, y, y1, y2⟩ := C14_call hs hd hM hf rfl hh e (i := 0) (n := 0) (θ := 1 / 2) (by simp; ring) (by norm_num)
    (by norm_num) rfl rfl rfl rfl
  obtain ⟨y', rfl⟩ := List.length_eq_one_iff.1 (show xs.length = 1 from l1)
  obtain ⟨w', rfl⟩ := List.length_eq_one_iff.1 (show us.length = 1 from l2)
  simp at y1
  subst y1
  refine ⟨y', w', out, e, ?_⟩
  rw [show h / 2 = 1 / 2 * h by ring]
  exact y2

/-- C81 fails for `hsn` (any order above 1): the inner state is computed with the first order formula. The second order
system `q'' = 12.6 q - 7.2 q²`, step 2, samples `(0, 0)` and `(4/3, 8/3)`: the `hsn` residuals of the optimisation vanish,
and the solution polynomial `t⁴/12` is at `1/12` in the middle. The interpolation says `-1/6`. -/
theorem C81_hsn_refuted (lib : Lib 2 ℝ) : ∃ (f : Arr 2 → ℝ → Arr 2) (x xn : Arr 2) (y : Arr 2) (us : List ℝ)
    (out : Option (Params 2 ℝ)),
    (let half := hsMHalfX 2 (coord x) (coord xn) (f x 0 1) (f xn 0 1) 2
     (∀ p, p < 2 → hsMRestr 2 (coord x) (coord xn) (f x 0 1) (f xn 0 1) 2 (f ![half 0, half 1] 0 1) p = 0) ∧
       half 0 = 1 / 12) ∧
    interpolatedArray lib false [x, xn] [0, 0] 2 [1] (some f) none "hsn" "lin" (some { order := some 2 }) =
      .ok (([y], us), out) ∧ y 0 = -1 / 6 := by
  obtain ⟨f, hf⟩ : ∃ f : Arr 2 → ℝ → Arr 2, f = fun x _ => ![x 1, 12.6 * x 0 - 7.2 * x 0 ^ 2] := ⟨_, rfl⟩
  obtain ⟨y, w, out, e, hy⟩ := two_samples (lib := lib) (scheme := "hsn") (f := f) (x := ![0, 0]) (xn := ![4 / 3, 8 / 3])
    (u := 0) (un := 0) (h := 2) (sp? := some { order := some 2 }) (M := 2) (dim := 1) (.hsn 2 rfl) rfl (by norm_num)
    (by intro sp hsp; simp at hsp; subst hsp; exact ⟨rfl, rfl, rfl⟩) (by norm_num)
  refine ⟨f, ![0, 0], ![4 / 3, 8 / 3], y, [w], out, ?_, ?_, ?_⟩
  · have half0 : hsMHalfX 2 (coord ![0, 0]) (coord ![4 / 3, 8 / 3]) (f ![0, 0] 0 1) (f ![4 / 3, 8 / 3] 0 1) 2 0 = 1 / 12 := by
      subst hf
      simp [hsMHalfX, coord, Nat.factorial]
      norm_num
    have half1 : hsMHalfX 2 (coord ![0, 0]) (coord ![4 / 3, 8 / 3]) (f ![0, 0] 0 1) (f ![4 / 3, 8 / 3] 0 1) 2 1 = 1 / 3 := by
      subst hf
      simp [hsMHalfX, coord, Nat.factorial]
      norm_num
    refine ⟨?_, half0⟩
    intro p hp
    simp only [half0, half1]
    subst hf
    interval_cases p <;> simp [hsMRestr, coord, Finset.sum_range_succ, Nat.factorial] <;> norm_num
  · simpa using e
  · have pm := hsInterp_parabolicMotion 2 (fun q => coord (![0, 0] : Arr 2) (1 * q + 0)) (coord (f ![0, 0] 0) (1 * (2 - 1) + 0))
      (coord (f ![4 / 3, 8 / 3] 0) (1 * (2 - 1) + 0))
      (coord (f (midOf "hsn" ![0, 0] ![4 / 3, 8 / 3] (f ![0, 0] 0) (f ![4 / 3, 8 / 3] 0) 2) (ucOf "hsn" 0 0)) (1 * (2 - 1) + 0)) 2
      (by norm_num)
    rw [show (2 : ℝ) / 2 = 1 / 2 * 2 by ring] at pm
    have := hy 0 0 (by norm_num) (by norm_num) _ pm
    have hm : midOf "hsn" ![0, 0] ![4 / 3, 8 / 3] (f ![0, 0] 0) (f ![4 / 3, 8 / 3] 0) 2 = ![0, 1 / 3] := by
      subst hf
      simp only [midOf, show pyIn "mod" "hsn" = false by decide, show pyIn "j" "hsn" = false by decide,
        Bool.false_eq_true, if_false]
      funext i
      fin_cases i <;> simp [hsMidpoint] <;> norm_num
    rw [hm] at this
    subst hf
    simp [coord, hsInterp, Finset.sum_range_succ, hsList, Nat.factorial] at this
    rw [this]
    norm_num

/-! ### C15: refutation -/

/-- C15 is false: a dictionary that an earlier call filled makes a later call, with another trajectory, return other
states. `x' = u` with scheme `hs`: first the trajectory at rest `0, 0`, then the straight line `0, 1`. With a new
dictionary the middle of the line is `1/2`, with the used dictionary it is `1/6`. -/
theorem C15_refuted (lib : Lib 1 ℝ) : ∃ (f : Arr 1 → ℝ → Arr 1) (r1 : List (Arr 1) × List ℝ) (used : Params 1 ℝ)
    (y z : Arr 1) (us us' : List ℝ) (o o' : Option (Params 1 ℝ)),
    interpolatedArray lib false [fun _ => 0, fun _ => 0] [0, 0] 1 [1 / 2] (some f) none "hs" "lin" (some Params.empty) =
      .ok (r1, some used) ∧
    interpolatedArray lib false [fun _ => 0, fun _ => 1] [1, 1] 1 [1 / 2] (some f) none "hs" "lin" (some Params.empty) =
      .ok (([y], us), o) ∧ y 0 = 1 / 2 ∧
    interpolatedArray lib false [fun _ => 0, fun _ => 1] [1, 1] 1 [1 / 2] (some f) none "hs" "lin" (some used) =
      .ok (([z], us'), o') ∧ z 0 = 1 / 6 := by
  obtain ⟨f, hf⟩ : ∃ f : Arr 1 → ℝ → Arr 1, f = fun _ u => fun _ => u := ⟨_, rfl⟩
  have fr : Fresh (some (Params.empty (d := 1) (W := ℝ))) := by
    intro sp hsp; simp at hsp; subst hsp; exact ⟨rfl, rfl, rfl⟩
  -- the first call
  obtain ⟨Xc, m1, m2, m3⟩ := midStates_ok (scheme := "hs") (h := 1) (X := [fun _ => 0, fun _ => (0 : ℝ)])
    (Xd := List.zipWith f [fun _ => 0, fun _ => 0] [0, 0]) (by simp)
  have hmid : (midControls "hs" ([0, 0] : List ℝ)) = [0] := by
    simp [midControls, show pyIn "j" "hs" = false by decide]
  obtain ⟨xc, rfl⟩ := List.length_eq_one_iff.1 (show Xc.length = 1 from m2)
  have hmiss := missing_fresh (flat := false) (u_scheme := "lin") (sp := Params.empty) (f := f)
    (X := [fun _ => 0, fun _ => (0 : ℝ)]) (U := [0, 0]) (h := 1) (scheme := "hs") rfl ⟨by decide, by decide⟩ (by decide)
    rfl rfl rfl m1 (by rw [hmid]; simp)
  rw [hmid] at hmiss
  obtain ⟨y0, w0, o0, e0, -⟩ := two_samples (lib := lib) (scheme := "hs") (f := f) (x := fun _ => 0) (xn := fun _ => 0)
    (u := 0) (un := 0) (h := 1) (M := 1) (dim := 1) .hs rfl (by norm_num) fr (by norm_num)
  have e0' := e0
  rw [array_iff] at e0
  obtain ⟨acc, U', old_t, Xd, sp', p1, p2, p3, p4, ho⟩ := e0
  obtain ⟨rfl, rfl⟩ := prepare_inv (by rfl) p1
  simp only [Option.getD_some] at p2
  rw [hmiss] at p2
  simp only [Except.ok.injEq, Prod.mk.injEq] at p2
  obtain ⟨rfl, rfl⟩ := p2
  rw [ho] at e0'
  -- the second call, new dictionary
  obtain ⟨y, w, o, e, hy⟩ := two_samples (lib := lib) (scheme := "hs") (f := f) (x := fun _ => 0) (xn := fun _ => 1)
    (u := 1) (un := 1) (h := 1) (M := 1) (dim := 1) .hs rfl (by norm_num) fr (by norm_num)
  have e' := e
  rw [array_iff] at e
  obtain ⟨acc, U', old_t, Xd, sp', q1, q2, q3, q4, -⟩ := e
  obtain ⟨rfl, rfl⟩ := prepare_inv (by rfl) q1
  -- the second call, used dictionary
  obtain ⟨used, hused⟩ : ∃ used : Params 1 ℝ, used = { (Params.empty : Params 1 ℝ) with
    u_c := some (some [0]), x_dot_c := some (List.zipWith f [xc] [0]) } := ⟨_, rfl⟩
  have hst : Step (.parab (1 / 2)) [fun _ => (0 : ℝ), fun _ => 1] (List.zipWith f [fun _ => 0, fun _ => 1] [1, 1]) used 0
      (fun _ => 0) (fun _ => 1) (fun _ => 1) (fun _ => 1) (fun _ : Fin 1 => 0) := by
    subst hused; subst hf
    exact ⟨rfl, rfl, rfl, rfl, Or.inr ⟨_, rfl, rfl⟩⟩
  obtain ⟨z, z1, z2⟩ := C14_piece (scheme := "hs") (M := 1) (dim := 1) (SchemeIs.hs) rfl (by norm_num) hst (h := 1)
    (by norm_num) (t := 1 / 2) (by norm_num) (by norm_num)
  refine ⟨f, ([y0], [w0]), used, y, z, [w], [w], o, some used, ?_, e', ?_, ?_, ?_⟩
  · rw [hused]; exact e0'
  · subst hf
    have := hy 0 0 (by norm_num) (by norm_num)
      (fun k τ => if k = 0 then τ else if k = 1 then 1 else 0) ⟨?_, ?_, ?_, ?_, ?_⟩
    · simpa [coord] using this
    · intro k τ
      rcases k with _ | _ | k
      · simpa using hasDerivAt_id' τ
      · simpa using hasDerivAt_const τ (1 : ℝ)
      · simpa using hasDerivAt_const τ (0 : ℝ)
    · intro p hp
      have : p = 0 := by omega
      subst this; simp [coord]
    · exact ⟨0, 0, by simp [coord]⟩
    · simp [coord, ucOf, show pyIn "j" "hs" = false by decide]; norm_num
    · simp [coord]
  · rw [array_iff]
    refine ⟨by rw [hused]; exact acc, [1, 1], _, List.zipWith f [fun _ => 0, fun _ => 1] [1, 1], used, q1,
      missing_stale (by rfl) (Or.inr ?_), ?_, ?_, rfl⟩
    · rw [hused]; simp
    · simpa only [interpolateU, if_true] using q3
    · rw [statesAt, if_neg (by decide)]
      simp only [List.mapM_cons, List.mapM_nil, z1]
      rfl
  · have pm := hsInterp_parabolicMotion 1 (fun q => coord (fun _ : Fin 1 => (0 : ℝ)) (1 * q + 0))
      (coord (fun _ : Fin 1 => 1) (1 * (1 - 1) + 0)) (coord (fun _ : Fin 1 => 1) (1 * (1 - 1) + 0))
      (coord (fun _ : Fin 1 => 0) (1 * (1 - 1) + 0)) 1 (by norm_num)
    rw [show (1 : ℝ) / 2 = 1 / 2 * 1 by ring] at pm
    have := z2 0 0 (by norm_num) (by norm_num) _ pm
    simp [coord, hsInterp, Finset.sum_range_succ, hsList, Nat.factorial] at this
    rw [this]; norm_num

/-! ### C80: series of numbers -/

omit [AddCommGroup W] [Module ℝ W] in
theorem piece_flat_hs (hs : scheme = "hs" ∨ scheme = "hs_parab") (k : Option ℕ) (sp : Params d W) (n : ℤ)
    (x xn xd xdn : Arr d) (τ h : ℝ) : piece true scheme k sp n x xn xd xdn τ h = piece false scheme k sp n x xn xd xdn τ h := by
  have e : ∀ x xd xdn xdc : Arr d, hsArr true 1 (k.getD 0) x xd xdn τ h xdc = hsArr false 1 (k.getD 0) x xd xdn τ h xdc := by
    intro x xd xdn xdc; simp [hsArr]
  rcases hs with rfl | rfl
  · simp only [piece, show ("hs" : String) ≠ "trapz_mod" by decide, show ("hs" : String) ≠ "trapz" by decide,
      show ("hs" : String) ≠ "trapz_n" by decide, true_or, if_true, if_false, e]
  · simp only [piece, show ("hs_parab" : String) ≠ "trapz_mod" by decide, show ("hs_parab" : String) ≠ "trapz" by decide,
      show ("hs_parab" : String) ≠ "trapz_n" by decide, or_true, if_true, if_false, e]

/-- C80, the part that holds: with the schemes `hs` and `hs_parab` a series of numbers and the same series as an array of
one column give the same states, controls and derivatives, and leave the same dictionary. -/
theorem C80_hs_partial (hs : scheme = "hs" ∨ scheme = "hs_parab") (sp? : Option (Params d W)) (k : ℕ) :
    interpolatedArray lib true X U h ts F X_dot scheme u_scheme sp? =
      interpolatedArray lib false X U h ts F X_dot scheme u_scheme sp? ∧
    interpolatedDerivative lib true X U h ts F X_dot scheme k sp? =
      interpolatedDerivative lib false X U h ts F X_dot scheme k sp? := by
  have n1 : ∀ (Xd : List (Arr d)) (h t : ℝ) (sp : Params d W), newpoint true X Xd h t scheme sp = newpoint false X Xd h t scheme sp := by
    intro Xd h t sp; simp only [newpoint, piece_flat_hs hs]
  have n2 : ∀ (Xd : List (Arr d)) (h t : ℝ) (k : ℕ) (sp : Params d W),
      newpointDer true X Xd h t scheme k sp = newpointDer false X Xd h t scheme k sp := by
    intro Xd h t k sp; simp only [newpointDer, piece_flat_hs hs]
  have n3 : ∀ (Xd : List (Arr d)) (U : List W) (h t : ℝ) (us : String) (sp : Params d W),
      newpointU lib true X Xd F scheme U h t us sp = newpointU lib false X Xd F scheme U h t us sp := by
    intro Xd U h t us sp; simp only [newpointU, n1, n2]
  have n4 : ∀ (Xd : List (Arr d)), midStates true scheme X Xd h = midStates false scheme X Xd h := by
    intro Xd
    have a : pyIn "mod" scheme = false ∧ pyIn "j" scheme = false := by rcases hs with rfl | rfl <;> decide
    simp [midStates, a.1, a.2]
  have n5 : ∀ (U : List W) (us : String) (sp : Params d W),
      missing true X U h F X_dot scheme us sp = missing false X U h F X_dot scheme us sp := by
    intro U us sp
    have : ∀ Xd o, givenXc true scheme X Xd h o = givenXc false scheme X Xd h o := by
      intro Xd o; cases o <;> simp [givenXc, n4]
    simp only [missing, this]
  constructor
  · simp only [interpolatedArray, n5, statesAt, interpolateU, n1, n3]
  · simp only [interpolatedDerivative, n5, derivativesAt, n2]

/-- C80 is false for `trapz`: the line `0, 1` (step 1, `x' = 1`) has the value `1/2` in the middle when it is given as an
array of one column, and the value `0`, that of the first sample, when it is given as a series of numbers. -/
theorem C80_trapz_refuted (lib : Lib 1 ℝ) : ∃ (f : Arr 1 → ℝ → Arr 1) (y z : Arr 1) (us us' : List ℝ)
    (o o' : Option (Params 1 ℝ)),
    interpolatedArray lib false [fun _ => 0, fun _ => 1] [1, 1] 1 [1 / 2] (some f) none "trapz" "lin" none =
      .ok (([y], us), o) ∧ y 0 = 1 / 2 ∧
    interpolatedArray lib true [fun _ => 0, fun _ => 1] [1, 1] 1 [1 / 2] (some f) none "trapz" "lin" none =
      .ok (([z], us'), o') ∧ z 0 = 0 := by
  obtain ⟨f, hf⟩ : ∃ f : Arr 1 → ℝ → Arr 1, f = fun _ u => fun _ => u := ⟨_, rfl⟩
  obtain ⟨y, w, o, e, hy⟩ := two_samples (lib := lib) (scheme := "trapz") (f := f) (x := fun _ => 0) (xn := fun _ => 1)
    (u := 1) (un := 1) (h := 1) (sp? := none) (M := 1) (dim := 1) .trapz rfl (by norm_num) (by intro sp hsp; cases hsp)
    (by norm_num)
  have e' := e
  rw [array_iff] at e
  obtain ⟨acc, U', old_t, Xd, sp', q1, q2, q3, q4, -⟩ := e
  obtain ⟨rfl, rfl⟩ := prepare_inv (by rfl) q1
  have hf0 : ⌊(1 / 2 : ℝ) / 1⌋ = 0 := by rw [Int.floor_eq_iff]; norm_num
  have hnm : ¬ NeedsMiddle "trapz" := by unfold NeedsMiddle; decide
  rw [missing_stale (by rfl) (Or.inl hnm)] at q2
  simp only [Except.ok.injEq, Prod.mk.injEq] at q2
  obtain ⟨rfl, rfl⟩ := q2
  refine ⟨f, y, fun _ => 0, [w], [w], o, none, e', ?_, ?_, rfl⟩
  · subst hf
    have := hy 0 0 (by norm_num) (by norm_num)
      (fun k τ => if k = 0 then τ else if k = 1 then 1 else 0) ⟨?_, ?_, ?_, ?_⟩
    · simpa [coord] using this
    · intro k τ
      rcases k with _ | _ | k
      · simpa using hasDerivAt_id' τ
      · simpa using hasDerivAt_const τ (1 : ℝ)
      · simpa using hasDerivAt_const τ (0 : ℝ)
    · intro p hp
      have : p = 0 := by omega
      subst this; simp [coord]
    · exact ⟨0, by simp [coord]⟩
    · simp [coord]
  · rw [array_iff]
    refine ⟨acc, [1, 1], _, _, Params.empty, q1, missing_stale (by rfl) (Or.inl hnm), q3, ?_, rfl⟩
    rw [statesAt, if_neg (by decide)]
    have a1 : ¬ |(1 / 2 : ℝ) - 1 * (((0 : ℤ)) : ℝ)| < 1 * 1e-8 := by norm_num [abs_of_nonneg]
    have a2 : ¬ |(1 / 2 : ℝ) - 1 * (((0 : ℤ)) : ℝ) - 1| < 1 * 1e-8 := by
      rw [show (1 / 2 : ℝ) - 1 * (((0 : ℤ)) : ℝ) - 1 = -(1 / 2) by norm_num, abs_neg]; norm_num [abs_of_nonneg]
    have : newpoint true [fun _ => (0 : ℝ), fun _ => 1] (List.zipWith f [fun _ => 0, fun _ => 1] [1, 1]) 1 (1 / 2)
        "trapz" (Params.empty (W := ℝ)) = .ok (fun _ => 0) := by
      subst hf
      simp only [newpoint, hf0, a1, a2, if_false]
      rfl
    simp only [List.mapM_cons, List.mapM_nil, this]
    rfl

/-! ### The theorems of this file on the trajectory `0, 2` of `x' = u`, with controls `0, 2` and step 2 -/

/-- C14 and C81 on a case: the calls at the first sample and in the middle of the step succeed; the first state is the sample, the control in the middle
is `1`, and the derivative of the interpolated state in the middle is what the dynamics say. -/
example (lib : Lib 1 ℝ) : ∃ x0 x1 : Arr 1, ∃ vs : List (Arr 1), ∃ u0 u1 : ℝ, ∃ o1 o2,
    interpolatedArray lib false [fun _ => 0, fun _ => 2] [0, 2] 2 [0, 1] (some fun _ u => fun _ => u) none "hs" "lin" none = .ok (([x0, x1], [u0, u1]), o1) ∧
    interpolatedDerivative lib false [fun _ => 0, fun _ => 2] [0, 2] 2 [0, 1] (some fun _ u => fun _ => u) none "hs" 1 none = .ok (vs, o2) ∧
    x0 = (fun _ => 0) ∧ u1 = 1 ∧ vs[1]? = some fun _ => 1 := by
  obtain ⟨f, hf⟩ : ∃ f : Arr 1 → ℝ → Arr 1, f = fun _ u => fun _ => u := ⟨_, rfl⟩
  rw [← hf]
  have fr : Fresh (none : Option (Params 1 ℝ)) := by intro sp hsp; simp at hsp
  obtain ⟨⟨⟨xs, us⟩, o1, e1⟩, g⟩ := C14_call_total (lib := lib) (X := [fun _ => 0, fun _ => 2]) (U := [0, 2]) (h := 2) (ts := [0, 1]) (scheme := "hs")
    (M := 1) (dim := 1) .hs rfl (by norm_num) fr f rfl (by simp) (by norm_num) (by simp)
    (by intro t ht; simp at ht; rcases ht with rfl | rfl <;> norm_num)
  obtain ⟨vs, o2, e2⟩ := g 1 (by norm_num)
  obtain ⟨l1, l2, _⟩ := C14_call_beyond (by decide) (by norm_num) e1
  have s0 := C14_call_sample (by decide) (by norm_num) e1 (i := 0) (n := 0) (by simp) rfl
  obtain ⟨c1, _⟩ := C14_call (M := 1) (dim := 1) .hs rfl (by norm_num) fr rfl (by norm_num) e1 (i := 1) (n := 0) (θ := 1 / 2) (by norm_num)
    (by norm_num) (by norm_num) rfl rfl rfl rfl
  obtain ⟨x, u, v, a1, a2, a3, rfl⟩ := C81_hs fr rfl (by norm_num)
    (by
      intro n x xn u un h1 h2 h3 h4
      rcases n with _ | n
      · simp at h1 h2 h3 h4
        subst h1 h2 h3 h4 hf
        funext i; norm_num [hsRestr]
      · simp at h2)
    e1 e2 (i := 1) (n := 0) (by norm_num) (by simp)
  obtain ⟨x0, x1, rfl⟩ := List.length_eq_two.1 (show xs.length = 2 from l1)
  obtain ⟨u0, u1, rfl⟩ := List.length_eq_two.1 (show us.length = 2 from l2)
  obtain ⟨y0, y1, _⟩ := C14_call_derivative (M := 1) (dim := 1) .hs rfl (by norm_num) fr rfl (by norm_num) (by norm_num) e2 (i := 0) (n := 0) (θ := 0)
    (by norm_num) (by norm_num) (by norm_num) rfl rfl rfl rfl
  simp at s0 c1 a1 a2
  subst hf
  refine ⟨x0, x1, vs, u0, u1, o1, o2, e1, e2, s0, ?_, ?_⟩
  · rw [c1]
  · rw [a3, ← a2, c1]

/-- C15 on a case: the dictionary that the caller passes with scheme `trapz` is as it was. -/
example (lib : Lib 1 ℝ) : ∃ r, interpolatedArray lib false [fun _ => 0, fun _ => 2] [0, 2] 2 [1] (some fun _ u => fun _ => u) none "trapz" "lin"
    (some Params.empty) = .ok (r, some Params.empty) := by
  obtain ⟨⟨r, o1, e1⟩, _⟩ := C14_call_total (lib := lib) (X := [fun _ => 0, fun _ => 2]) (U := [(0 : ℝ), 2]) (h := 2) (ts := [1]) (scheme := "trapz")
    (M := 1) (dim := 1) (sp? := some Params.empty) .trapz rfl (by norm_num)
    (by intro sp hsp; simp at hsp; subst hsp; exact ⟨rfl, rfl, rfl⟩) (fun _ u => fun _ => u) rfl (by simp) (by norm_num) (by simp)
    (by intro t ht; simp at ht; subst ht; norm_num)
  have := C15_unchanged_partial (Or.inl (by decide)) e1
  exact ⟨r, this ▸ e1⟩

end Chords.Interp.Props
