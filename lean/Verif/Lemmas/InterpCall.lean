import Verif.Lemmas.Interp

namespace Chords.Interp
open Chords.Spec

theorem bind_ok {A B : Type} {x : Except PErr A} {f : A → Except PErr B} {b : B} (h : (x >>= f) = .ok b) :
    ∃ a, x = .ok a ∧ f a = .ok b := by
  cases x with
  | error e => cases h
  | ok a => exact ⟨a, rfl, h⟩

theorem mapM_ok {A B : Type} {f : A → Except PErr B} {l : List A} {r : List B} (h : l.mapM f = .ok r) :
    r.length = l.length ∧ ∀ (i : ℕ) a, l[i]? = some a → ∃ b, r[i]? = some b ∧ f a = .ok b := by
  induction l generalizing r with
  | nil =>
    cases h
    simp
  | cons x l ih =>
    rw [List.mapM_cons] at h
    obtain ⟨b, hb, h⟩ := bind_ok h
    obtain ⟨bs, hbs, h⟩ := bind_ok h
    cases h
    obtain ⟨h1, h2⟩ := ih hbs
    refine ⟨by simp [h1], ?_⟩
    intro i a ha
    cases i with
    | zero => simp at ha; subst ha; exact ⟨b, rfl, hb⟩
    | succ i => exact h2 i a (by simpa using ha)

theorem mapM_total {A B : Type} {f : A → Except PErr B} {l : List A} (h : ∀ a ∈ l, ∃ b, f a = .ok b) :
    ∃ r, l.mapM f = .ok r := by
  induction l with
  | nil => exact ⟨[], rfl⟩
  | cons x l ih =>
    obtain ⟨b, hb⟩ := h x (by simp)
    obtain ⟨bs, hbs⟩ := ih fun a ha => h a (by simp [ha])
    exact ⟨b :: bs, by rw [List.mapM_cons, hb, hbs]; rfl⟩

section
variable {d : ℕ} {W : Type} [AddCommGroup W] [Module ℝ W]
  {lib : Lib d W} {flat : Bool} {X : List (Arr d)} {U : List W} {h : ℝ} {ts : List ℝ} {F : Option (Arr d → W → Arr d)}
  {X_dot : Option (List (Arr d))} {scheme u_scheme : String}

/-- The checks before any computation. -/
def Accepts (F : Option (Arr d → W → Arr d)) (scheme u_scheme : String) (order : Option ℕ) (given : Prop) : Prop :=
  scheme ∈ supportedSchemes ∧ u_scheme ∈ supportedUSchemes ∧ ¬ (pyIn "j" scheme ∧ u_scheme = "parab") ∧
    ¬ (pyIn "j" u_scheme ∧ ¬ pyIn "j" scheme) ∧
    ((pyIn "hsn" scheme ∨ pyIn "trapz_n" scheme) → given ∧ order ≠ none) ∧ ¬ (u_scheme = "min_err" ∧ F.isNone)

theorem array_iff {sp? : Option (Params d W)} {xs : List (Arr d)} {us : List W} {out : Option (Params d W)} :
    interpolatedArray lib flat X U h ts F X_dot scheme u_scheme sp? = .ok ((xs, us), out) ↔
    Accepts F scheme u_scheme (sp?.getD Params.empty).order (sp?.isSome) ∧ ∃ U' old_t Xd sp', prepare X U h ts = .ok (U', old_t) ∧
      missing flat X U' h F X_dot scheme u_scheme (sp?.getD Params.empty) = .ok (Xd, sp') ∧
      interpolateU lib flat X Xd F scheme U' old_t ts u_scheme sp' = .ok us ∧
      statesAt lib flat X Xd h old_t ts scheme sp' = .ok xs ∧
      out = sp?.map fun _ => sp' := by
  unfold interpolatedArray Accepts
  by_cases h1 : scheme ∈ supportedSchemes
  swap
  · simp [h1]
  by_cases h2 : u_scheme ∈ supportedUSchemes
  swap
  · simp [h1, h2]
  by_cases h3 : pyIn "j" scheme ∧ u_scheme = "parab"
  · simp [h1, h2, h3]
  by_cases h4 : pyIn "j" u_scheme ∧ ¬ pyIn "j" scheme
  · simp only [h1, h2, h3, h4]; simp
  simp only [h1, h2, h3, h4, not_true_eq_false, if_false, not_false_eq_true, true_and]
  have aux : ∀ {chk : Except PErr Unit} {P : Prop}, (chk = .ok () ↔ P) → ∀ {k : Except PErr ((List (Arr d) × List W) × Option (Params d W))} {r},
      ((chk >>= fun _ => k) = .ok r ↔ P ∧ k = .ok r) := by
    intro chk P hP k r
    constructor
    · intro e
      obtain ⟨a, ha, e⟩ := bind_ok e
      exact ⟨hP.1 ha, e⟩
    · rintro ⟨hp, e⟩
      rw [hP.2 hp]; exact e
  rw [aux (P := (pyIn "hsn" scheme ∨ pyIn "trapz_n" scheme) → sp?.isSome ∧ (sp?.getD Params.empty).order ≠ none)]
  swap
  · unfold checkOrder
    by_cases hc : (pyIn "hsn" scheme = true ∨ pyIn "trapz_n" scheme = true)
    · rw [if_pos hc]
      cases sp? with
      | none => simp [hc]
      | some sp => by_cases ho : sp.order = none <;> simp [hc, ho]
    · simp [hc]
  rw [and_assoc]
  apply and_congr_right
  intro _
  constructor
  · intro e
    obtain ⟨⟨U', old_t⟩, e1, e⟩ := bind_ok e
    obtain ⟨⟨Xd, sp'⟩, e2, e⟩ := bind_ok e
    obtain ⟨_, e3, e⟩ := bind_ok e
    obtain ⟨us', e4, e⟩ := bind_ok e
    obtain ⟨xs', e5, e⟩ := bind_ok e
    simp only [pure, Except.pure, Except.ok.injEq, Prod.mk.injEq] at e
    obtain ⟨⟨rfl, rfl⟩, rfl⟩ := e
    refine ⟨?_, U', old_t, Xd, sp', e1, e2, e4, e5, rfl⟩
    intro hc
    rw [checkF, if_pos hc] at e3
    cases e3
  · rintro ⟨hc, U', old_t, Xd, sp', e1, e2, e4, e5, rfl⟩
    simp only [e1, e2, e4, e5, checkF, if_neg hc, bind, Except.bind, pure, Except.pure]

theorem derivative_iff {sp? : Option (Params d W)} {k : ℕ} {xs : List (Arr d)} {out : Option (Params d W)} :
    interpolatedDerivative lib flat X U h ts F X_dot scheme k sp? = .ok (xs, out) ↔
    scheme ∈ supportedSchemes ∧ ∃ U' old_t Xd sp', prepare X U h ts = .ok (U', old_t) ∧
      missing flat X U' h F X_dot scheme "None" (sp?.getD Params.empty) = .ok (Xd, sp') ∧
      derivativesAt lib flat X Xd h old_t ts scheme k sp' = .ok xs ∧
      out = sp?.map fun _ => sp' := by
  unfold interpolatedDerivative
  by_cases h1 : scheme ∈ supportedSchemes
  swap
  · simp [h1]
  simp only [h1, not_true_eq_false, if_false, true_and]
  constructor
  · intro e
    obtain ⟨⟨U', old_t⟩, e1, e⟩ := bind_ok e
    obtain ⟨⟨Xd, sp'⟩, e2, e⟩ := bind_ok e
    obtain ⟨xs', e5, e⟩ := bind_ok e
    simp only [pure, Except.pure, Except.ok.injEq, Prod.mk.injEq] at e
    obtain ⟨rfl, rfl⟩ := e
    exact ⟨U', old_t, Xd, sp', e1, e2, e5, rfl⟩
  · rintro ⟨U', old_t, Xd, sp', e1, e2, e5, rfl⟩
    simp only [e1, e2, e5, bind, Except.bind, pure, Except.pure]

/-- The scheme is one of those that use the derivative at an inner point. -/
def NeedsMiddle (scheme : String) : Prop := pyIn "hs" scheme ∧ scheme ≠ "hs_scipy"

theorem missing_cases {sp sp' : Params d W} {Xd : List (Arr d)}
    (e : missing flat X U h F X_dot scheme u_scheme sp = .ok (Xd, sp')) :
    sp'.order = sp.order ∧ sp'.x_c = sp.x_c ∧ sp'.pinv_f = sp.pinv_f ∧
    ((¬ NeedsMiddle scheme ∨ sp.x_dot_c ≠ none) → sp' = sp) ∧ (NeedsMiddle scheme → sp'.x_dot_c ≠ none) := by
  unfold missing at e
  obtain ⟨Xd', e1, e⟩ := bind_ok e
  unfold NeedsMiddle
  split at e
  · rename_i hc
    obtain ⟨X_c, e2, e⟩ := bind_ok e
    obtain ⟨U_c, e3, e⟩ := bind_ok e
    obtain ⟨X_dot_c, e4, e⟩ := bind_ok e
    simp only [pure, Except.pure, Except.ok.injEq, Prod.mk.injEq] at e
    obtain ⟨rfl, rfl⟩ := e
    refine ⟨?_, ?_, ?_, ?_, by simp⟩
    · simp only [fillUc]; split <;> rfl
    · simp only [fillUc]; split <;> rfl
    · simp only [fillUc]; split <;> rfl
    · rintro (h1 | h1)
      · exact absurd ⟨hc.1, hc.2.1⟩ h1
      · exact absurd hc.2.2 h1
  · rename_i hc
    simp only [pure, Except.pure, Except.ok.injEq, Prod.mk.injEq] at e
    obtain ⟨rfl, rfl⟩ := e
    refine ⟨rfl, rfl, rfl, fun _ => rfl, ?_⟩
    rintro ⟨h1, h2⟩ h3
    exact hc ⟨h1, h2, h3⟩

theorem missing_again {sp sp' : Params d W} {Xd : List (Arr d)}
    (e : missing flat X U h F X_dot scheme u_scheme sp = .ok (Xd, sp')) (us2 : String) :
    missing flat X U h F X_dot scheme us2 sp' = .ok (Xd, sp') := by
  have hc := missing_cases e
  unfold missing at e ⊢
  obtain ⟨Xd', e1, e⟩ := bind_ok e
  rw [e1]
  have hX : Xd' = Xd := by
    split at e
    · obtain ⟨X_c, e2, e⟩ := bind_ok e
      obtain ⟨U_c, e3, e⟩ := bind_ok e
      obtain ⟨X_dot_c, e4, e⟩ := bind_ok e
      cases e; rfl
    · cases e; rfl
  subst hX
  have hn : ¬ (pyIn "hs" scheme ∧ scheme ≠ "hs_scipy" ∧ sp'.x_dot_c = none) := by
    rintro ⟨h1, h2, h3⟩
    exact hc.2.2.2.2 ⟨h1, h2⟩ h3
  simp only [bind, Except.bind, hn, if_false, pure, Except.pure]

omit [AddCommGroup W] [Module ℝ W] in
theorem times_last (hX : X ≠ []) : (times h X.length).getLast? = some (((X.length : ℝ) - 1) * h) := by
  have hlen : 0 < X.length := List.length_pos_iff.2 hX
  rw [List.getLast?_eq_getElem?]
  have e : (times h X.length).length - 1 = X.length - 1 := by simp [times]
  rw [e]
  simp only [times, List.getElem?_map]
  rw [List.getElem?_range (by omega)]
  simp only [Option.map_some]
  rw [Nat.cast_sub hlen]
  simp

theorem prepare_ok (hU : U.length = X.length) {t : ℝ} (ht : ts.getLast? = some t) (hX : X ≠ []) (hh : 0 < h)
    (hle : t ≤ ((X.length : ℝ) - 1) * h) : prepare X U h ts = .ok (U, times h X.length) := by
  have hlen : 0 < X.length := List.length_pos_iff.2 hX
  have hl := times_last (h := h) hX
  unfold prepare
  have e : extendU X U = .ok U := by rw [extendU, if_neg (by omega)]
  simp only [e, bind, Except.bind, hU, ht, hl]
  rw [if_pos trivial, if_neg (by nlinarith)]

theorem callF_some {f : Arr d → W → Arr d} {Y : List (Arr d)} {V : List W} (hl : Y.length ≤ V.length) :
    callF (some f) Y V = .ok (List.zipWith f Y V) := by
  cases Y with
  | nil => rfl
  | cons y Y => simp [callF, show Y.length + 1 ≤ V.length from hl]

theorem missing_fresh {f : Arr d → W → Arr d} (hU : U.length = X.length) {sp : Params d W} (hm : NeedsMiddle scheme)
    (hp : pyIn "parab" u_scheme = false) (h1 : sp.u_c = none) (h2 : sp.x_c = none) (h3 : sp.x_dot_c = none)
    {Xc : List (Arr d)} (hXc : midStates flat scheme X (List.zipWith f X U) h = .ok Xc)
    (hl : Xc.length ≤ (midControls scheme U).length) :
    missing flat X U h (some f) none scheme u_scheme sp = .ok (List.zipWith f X U,
      { sp with u_c := some (some (midControls scheme U)), x_dot_c := some (List.zipWith f Xc (midControls scheme U)) }) := by
  have e : fillUc scheme u_scheme U sp = { sp with u_c := some (some (midControls scheme U)) } := by
    simp [fillUc, hp, h1]
  have hc : pyIn "hs" scheme ∧ scheme ≠ "hs_scipy" ∧ sp.x_dot_c = none := ⟨hm.1, hm.2, h3⟩
  unfold missing
  simp only [givenXdot, callF_some hU.ge, bind, Except.bind, hc, ne_eq, not_false_eq_true, and_self, if_true, givenXc, h2,
    hXc, e, key, derivsAt, callF_some hl, pure, Except.pure]

theorem missing_stale {f : Arr d → W → Arr d} (hU : U.length = X.length) {sp : Params d W}
    (hm : ¬ NeedsMiddle scheme ∨ sp.x_dot_c ≠ none) :
    missing flat X U h (some f) none scheme u_scheme sp = .ok (List.zipWith f X U, sp) := by
  have hc : ¬ (pyIn "hs" scheme ∧ scheme ≠ "hs_scipy" ∧ sp.x_dot_c = none) := by
    rintro ⟨a, b, c⟩
    rcases hm with hm | hm
    · exact hm ⟨a, b⟩
    · exact hm c
  unfold missing
  simp only [givenXdot, callF_some hU.ge, bind, Except.bind, hc, if_false, pure, Except.pure]

omit [AddCommGroup W] [Module ℝ W] in
theorem zipWith_get {f : Arr d → W → Arr d} {Y : List (Arr d)} {V : List W} {n : ℕ} {x : Arr d} {u : W}
    (hx : Y[n]? = some x) (hu : V[n]? = some u) : (List.zipWith f Y V)[n]? = some (f x u) := by
  rw [List.getElem?_zipWith, hx, hu]

theorem midControls_get {n : ℕ} {u un : W} (hu : U[n]? = some u) (hun : U[n + 1]? = some un) :
    (midControls scheme U)[n]? = some (if pyIn "j" scheme then (0.6 : ℝ) • u + (0.4 : ℝ) • un else (1 / 2 : ℝ) • (u + un)) := by
  have hl : n + 1 < U.length := (List.getElem?_eq_some_iff.1 hun).1
  have h1 : U.dropLast[n]? = some u := by rw [List.getElem?_dropLast, if_pos (by omega), hu]
  have h2 : U.tail[n]? = some un := by rw [List.getElem?_tail, hun]
  unfold midControls
  split <;> rw [List.getElem?_zipWith, h1, h2]

theorem midControls_length : (midControls scheme U).length = U.length - 1 := by
  unfold midControls
  split <;> simp

theorem zipWith_length_eq {f : Arr d → W → Arr d} (hU : U.length = X.length) : (List.zipWith f X U).length = X.length := by
  simp [hU]

/-- The middle state of one step. -/
noncomputable def midOf (scheme : String) (x xn xd xdn : Arr d) (h : ℝ) : Arr d :=
  if pyIn "mod" scheme then byPairs fun j => hsModMidpoint (pairAt x j) (pairAt xn j) (pairAt xd j) (pairAt xdn j) h
  else if pyIn "j" scheme then byPairs fun j => hsjMidpoint (pairAt x j) (pairAt xn j) (pairAt xd j) (pairAt xdn j) h
  else hsMidpoint x xn xd xdn h

theorem midStates_ok {Xd : List (Arr d)} (hl : X.length ≤ Xd.length) : ∃ Xc, midStates false scheme X Xd h = .ok Xc ∧
    Xc.length = X.length - 1 ∧ ∀ n x xn xd xdn, X[n]? = some x → X[n + 1]? = some xn → Xd[n]? = some xd →
      Xd[n + 1]? = some xdn → Xc[n]? = some (midOf scheme x xn xd xdn h) := by
  have main : midStates false scheme X Xd h = .ok ((List.range (X.length - 1)).map fun ii =>
      midOf scheme (X.getD ii 0) (X.getD (ii + 1) 0) (Xd.getD ii 0) (Xd.getD (ii + 1) 0) h) := by
    unfold midStates midOf
    rw [if_pos hl]
    split
    · simp
    · split
      · simp
      · rfl
  refine ⟨_, main, by simp, ?_⟩
  intro n x xn xd xdn h1 h2 h3 h4
  have hn : n < X.length - 1 := by
    have := (List.getElem?_eq_some_iff.1 h2).1
    omega
  rw [List.getElem?_map, List.getElem?_range hn]
  simp only [Option.map_some, List.getD_eq_getElem?_getD, h1, h2, h3, h4, Option.getD_some]

end
end Chords.Interp
