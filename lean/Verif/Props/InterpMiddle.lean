import Verif.Props.InterpCall

/-! # C162: the controls at the middles of the steps -/

namespace Chords.Interp.Props
open Chords Chords.Spec Chords.Interp

variable {d : ℕ} {W : Type} [AddCommGroup W] [Module ℝ W] {lib : Lib d W} {flat : Bool} {X : List (Arr d)} {U : List W}
  {h : ℝ} {ts : List ℝ} {F : Option (Arr d → W → Arr d)} {X_dot : Option (List (Arr d))} {scheme u_scheme : String}

theorem fill_keeps {sp : Params d W} {V : List W} (hV : sp.u_c = some (some V)) : fillUc scheme u_scheme U sp = sp := by
  simp [fillUc, hV]

theorem fill_parab {sp : Params d W} (hp : pyIn "parab" u_scheme = true) : fillUc scheme u_scheme U sp = sp := by
  simp [fillUc, hp]

theorem missing_middle {sp sp' : Params d W} {Xd : List (Arr d)} {V : List W} (hV : sp.u_c = some (some V))
    (e : missing flat X U h F X_dot scheme u_scheme sp = .ok (Xd, sp')) :
    sp'.u_c = some (some V) ∧
    (pyIn "hs" scheme = true → scheme ≠ "hs_scipy" → sp.x_dot_c = none → ∀ Y, sp.x_c = some Y → Y ≠ [] →
      ∃ f, F = some f ∧ Y.length ≤ V.length ∧ sp'.x_dot_c = some (List.zipWith f Y V)) := by
  unfold missing at e
  obtain ⟨Xd', e1, e⟩ := bind_ok e
  split at e
  · rename_i hc
    obtain ⟨X_c, e2, e⟩ := bind_ok e
    obtain ⟨U_c, e3, e⟩ := bind_ok e
    obtain ⟨X_dot_c, e4, e⟩ := bind_ok e
    cases e
    rw [fill_keeps hV] at e3 ⊢
    rw [hV] at e3
    cases e3
    refine ⟨hV, fun _ _ _ Y hY hne => ?_⟩
    rw [hY] at e2
    cases e2
    cases X_c with
    | nil => exact absurd rfl hne
    | cons y ys =>
      cases F with
      | none => simp [derivsAt, callF] at e4
      | some f =>
        simp only [derivsAt, callF] at e4
        split at e4
        · rename_i hl
          cases e4
          exact ⟨f, rfl, hl, rfl⟩
        · cases e4
  · rename_i hc
    cases e
    exact ⟨hV, fun h1 h2 h3 => absurd ⟨h1, h2, h3⟩ hc⟩

/-- C162, histories: controls at the middles that the caller gave are still those of the dictionary after any history of calls. -/
theorem C162_history {sp sp' : Params d W} {V : List W} (H : History lib sp sp') (hV : sp.u_c = some (some V)) : sp'.u_c = some (some V) := by
  induction H with
  | nil => exact hV
  | array H e ih =>
    rename_i r _
    obtain ⟨xs, us⟩ := r
    rw [array_iff] at e
    obtain ⟨acc, U', old_t, Xd, sp'', e1, e2, e3, e4, ho⟩ := e
    cases Option.some.inj ho
    exact (missing_middle ih e2).1
  | derivative H e ih =>
    rw [derivative_iff] at e
    obtain ⟨acc, U', old_t, Xd, sp'', e1, e2, e4, ho⟩ := e
    cases Option.some.inj ho
    exact (missing_middle ih e2).1

/-- C162, values: with states and controls given at the middles, the derivatives at the middles are those of the dynamics there. -/
theorem C162_values {f : Arr d → W → Arr d} {sp sp' : Params d W} {r : List (Arr d) × List W} {V : List W} {Y : List (Arr d)}
    (hs : pyIn "hs" scheme = true) (hn : scheme ≠ "hs_scipy") (hd : sp.x_dot_c = none) (hV : sp.u_c = some (some V)) (hY : sp.x_c = some Y) (hY0 : Y ≠ [])
    (e : interpolatedArray lib flat X U h ts (some f) X_dot scheme u_scheme (some sp) = .ok (r, some sp')) :
    Y.length ≤ V.length ∧ sp'.x_dot_c = some (List.zipWith f Y V) := by
  obtain ⟨xs, us⟩ := r
  rw [array_iff] at e
  obtain ⟨acc, U', old_t, Xd, sp'', e1, e2, e3, e4, ho⟩ := e
  cases Option.some.inj ho
  obtain ⟨g, hg, hl, hx⟩ := (missing_middle hV e2).2 hs hn hd Y hY hY0
  cases hg
  exact ⟨hl, hx⟩

/-- C162, absent controls: a parabola of controls with a scheme that has middles raises when neither the controls nor the derivatives there are given. -/
theorem C162_absent_partial {sp : Params d W} (hs : pyIn "hs" scheme = true) (hn : scheme ≠ "hs_scipy") (hd : sp.x_dot_c = none) (hV : sp.u_c = none)
    (hp : pyIn "parab" u_scheme = true) (r) : interpolatedArray lib flat X U h ts F X_dot scheme u_scheme (some sp) ≠ .ok r := by
  intro e
  obtain ⟨⟨xs, us⟩, out⟩ := r
  rw [array_iff] at e
  obtain ⟨acc, U', old_t, Xd, sp'', e1, e2, e3, e4, ho⟩ := e
  unfold missing at e2
  obtain ⟨Xd', e5, e2⟩ := bind_ok e2
  rw [if_pos ⟨hs, hn, hd⟩] at e2
  obtain ⟨X_c, e6, e2⟩ := bind_ok e2
  obtain ⟨U_c, e7, e2⟩ := bind_ok e2
  rw [fill_parab hp] at e7
  simp only [Option.getD_some, hV] at e7
  cases e7

/-- A call with given states and controls at the middles. -/
example (lib : Lib 1 ℝ) : interpolatedArray lib false [fun _ => 0, fun _ => 0] [0, 1] 1 [0] (some fun x u => fun i => x i + u) none "hs" "parab"
      (some { u_c := some (some [3]), x_c := some [fun _ => 5] }) =
    .ok (([fun _ => 0], [0]), some { u_c := some (some [3]), x_c := some [fun _ => 5], x_dot_c := some [fun _ => 8] }) := by
  rw [array_iff]
  refine ⟨⟨by decide, by decide, by decide, by decide, fun h => absurd h (by decide), by decide⟩, [0, 1], times 1 2, [fun _ => 0, fun _ => 1], _,
    prepare_ok rfl rfl (by simp) (by norm_num) (by norm_num), ?_, ?_, ?_, rfl⟩
  · norm_num [missing, givenXdot, callF, show pyIn "hs" "hs" = true by decide, show ("hs" : String) ≠ "hs_scipy" by decide, givenXc, fillUc, key, derivsAt, bind, Except.bind, pure, Except.pure]
  · simp only [interpolateU, show ("parab" : String) ≠ "lin" by decide, if_false, List.length_cons, List.length_nil, times_two, Nat.zero_add, Nat.reduceAdd,
      show (2 : ℕ) ≠ 1 by decide, List.mapM_cons, List.mapM_nil]
    norm_num [newpointU, pyGet, bind, Except.bind, pure, Except.pure]
  · rw [statesAt, if_neg (by decide)]
    norm_num [newpoint, pyGet, bind, Except.bind, pure, Except.pure]

theorem missing_filled {sp sp' : Params d W} {Xd : List (Arr d)} (hs : NeedsMiddle scheme) (hd : sp.x_dot_c = none) (hV : ∀ V, sp.u_c ≠ some (some V))
    (hp : pyIn "parab" u_scheme = false) (e : missing flat X U h F X_dot scheme u_scheme sp = .ok (Xd, sp')) :
    sp'.u_c = some (some (midControls scheme U)) := by
  have hg : sp.u_c.getD none = none := by
    cases hc : sp.u_c with
    | none => rfl
    | some o =>
      cases o with
      | none => rfl
      | some V => exact absurd hc (hV V)
  unfold missing at e
  obtain ⟨Xd', e1, e⟩ := bind_ok e
  rw [if_pos ⟨hs.1, hs.2, hd⟩] at e
  obtain ⟨X_c, e2, e⟩ := bind_ok e
  obtain ⟨U_c, e3, e⟩ := bind_ok e
  obtain ⟨X_dot_c, e4, e⟩ := bind_ok e
  cases e
  simp [fillUc, hp, hg]

/-- C162, filled controls: without them, a call with controls that are not parabolas leaves in the caller's dictionary a list with one control for each step: the
mean of those of its ends, or `0.6` and `0.4` of them when the scheme has its middles at two fifths. -/
theorem C162_filled {sp sp' : Params d W} {r : List (Arr d) × List W} (hU : U.length = X.length) (hs : NeedsMiddle scheme) (hd : sp.x_dot_c = none)
    (hV : ∀ V, sp.u_c ≠ some (some V)) (hp : pyIn "parab" u_scheme = false)
    (e : interpolatedArray lib flat X U h ts F X_dot scheme u_scheme (some sp) = .ok (r, some sp')) :
    ∃ V, sp'.u_c = some (some V) ∧ V.length = U.length - 1 ∧ ∀ (n : ℕ) (u un : W), U[n]? = some u → U[n + 1]? = some un →
      V[n]? = some (if pyIn "j" scheme then (0.6 : ℝ) • u + (0.4 : ℝ) • un else (1 / 2 : ℝ) • (u + un)) := by
  obtain ⟨xs, us⟩ := r
  rw [array_iff] at e
  obtain ⟨acc, U', old_t, Xd, sp'', e1, e2, e3, e4, ho⟩ := e
  obtain ⟨rfl, rfl⟩ := prepare_inv hU e1
  cases Option.some.inj ho
  exact ⟨_, missing_filled hs hd hV hp e2, midControls_length, fun n u un h1 h2 => midControls_get h1 h2⟩

/-- The same for a call for derivatives, which has no controls to interpolate. -/
theorem C162_filled_derivative {sp sp' : Params d W} {r : List (Arr d)} {k : ℕ} (hU : U.length = X.length) (hs : NeedsMiddle scheme) (hd : sp.x_dot_c = none)
    (hV : ∀ V, sp.u_c ≠ some (some V)) (e : interpolatedDerivative lib flat X U h ts F X_dot scheme k (some sp) = .ok (r, some sp')) :
    ∃ V, sp'.u_c = some (some V) ∧ V.length = U.length - 1 ∧ ∀ (n : ℕ) (u un : W), U[n]? = some u → U[n + 1]? = some un →
      V[n]? = some (if pyIn "j" scheme then (0.6 : ℝ) • u + (0.4 : ℝ) • un else (1 / 2 : ℝ) • (u + un)) := by
  rw [derivative_iff] at e
  obtain ⟨acc, U', old_t, Xd, sp'', e1, e2, e4, ho⟩ := e
  obtain ⟨rfl, rfl⟩ := prepare_inv hU e1
  cases Option.some.inj ho
  exact ⟨_, missing_filled hs hd hV (by decide) e2, midControls_length, fun n u un h1 h2 => midControls_get h1 h2⟩

/-- C162 is false of absent controls: after a call with linear controls, the same dictionary makes the call with a parabola of controls return, with controls in the
middle that nobody gave. -/
theorem C162_refuted (lib : Lib 1 ℝ) : ∃ (f : Arr 1 → ℝ → Arr 1) (r1 : List (Arr 1) × List ℝ) (used : Params 1 ℝ) (xs : List (Arr 1)),
    (∀ r, interpolatedArray lib false [fun _ => 0, fun _ => 0] [0, 1] 1 [1 / 2] (some f) none "hs" "parab" (some Params.empty) ≠ .ok r) ∧
    interpolatedArray lib false [fun _ => 0, fun _ => 0] [0, 1] 1 [1 / 2] (some f) none "hs" "lin" (some Params.empty) = .ok (r1, some used) ∧
    interpolatedArray lib false [fun _ => 0, fun _ => 0] [0, 1] 1 [1 / 2] (some f) none "hs" "parab" (some used) = .ok ((xs, [1 / 2]), some used) := by
  have fr : Fresh (some (Params.empty (d := 1) (W := ℝ))) := by
    intro sp hsp; simp at hsp; subst hsp; exact ⟨rfl, rfl, rfl⟩
  obtain ⟨y, w, out, e, -⟩ := two_samples (lib := lib) (scheme := "hs") (f := fun _ _ => 0) (x := fun _ => 0) (xn := fun _ => 0)
    (u := 0) (un := (1 : ℝ)) (h := 1) (M := 1) (dim := 1) .hs rfl (by norm_num) fr (by norm_num)
  have e' := e
  rw [array_iff] at e
  obtain ⟨acc, U', old_t, Xd, sp', p1, p2, p3, p4, ho⟩ := e
  obtain ⟨rfl, rfl⟩ := prepare_inv (by rfl) p1
  simp only [Option.getD_some] at p2
  have hu := missing_filled ⟨by decide, by decide⟩ rfl (by intro V; simp [Params.empty]) (by decide) p2
  have hm : midControls "hs" ([0, 1] : List ℝ) = [1 / 2] := by
    simp [midControls, show pyIn "j" "hs" = false by decide]
  rw [hm] at hu
  rw [ho] at e'
  refine ⟨fun _ _ => 0, ([y], [w]), sp', [y], fun r => C162_absent_partial (by decide) (by decide) rfl rfl (by decide) r, e', ?_⟩
  rw [array_iff]
  refine ⟨⟨by decide, by decide, by decide, by decide, fun h => absurd h (by decide), by decide⟩, [0, 1], _, Xd, sp', p1, missing_again p2 _, ?_, p4, rfl⟩
  have hf : ⌊(1 / 2 : ℝ)⌋ = 0 := by norm_num
  have ha : ¬ |(1 / 2 : ℝ)| < 1e-8 := by rw [abs_of_pos (by norm_num)]; norm_num
  have hb : ¬ |(1 / 2 : ℝ) - 1| < 1e-8 := by rw [abs_of_neg (by norm_num)]; norm_num
  simp only [interpolateU, show ("parab" : String) ≠ "lin" by decide, if_false, List.length_cons, List.length_nil, times_two, Nat.zero_add, Nat.reduceAdd,
    show (2 : ℕ) ≠ 1 by decide, List.mapM_cons, List.mapM_nil]
  simp [newpointU, hf, ha, hb, pyGet, hu, key, interpParab, bind, Except.bind, pure, Except.pure]
  norm_num

end Chords.Interp.Props
