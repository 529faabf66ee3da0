import Verif.Lemmas.Integrate
import Mathlib.Tactic.Linarith
import Mathlib.Data.Fin.VecNotation
import Mathlib.Algebra.BigOperators.Fin

/-! # C11, C12, C75: integration of a trajectory from controls -/

namespace Chords.Integ

/-- The returned list has one state more than there are controls, starts at `x0`, and every two consecutive states
`x`, `x'` make the residual `R i x x' u un` vanish, where `u` is control number `i` and `un` the next one (for the last
step, `u` again). -/
def Follows {X U : Type} [Zero X] (res : Except IErr (List X)) (x0 : X) (us : List U) (R : ℕ → X → X → U → U → X) : Prop :=
  ∃ xs, res = .ok xs ∧
    IsRun us.length x0 (fun i x x' => ∃ u, us[i]? = some u ∧ R i x x' u (us[i + 1]?.getD u) = 0) xs

private theorem follows_twoPoint {X U : Type} [Zero X] (u : UArr) (us : List U) (e : U → Ctrl)
    (hent : u.entries = us.map e) (hlen : u.vecLen = us.length) (hne : us ≠ [])
    (step : ℕ → X → Ctrl → Ctrl → Except IErr X) (final : X → Ctrl → Except IErr X) (R : ℕ → X → X → U → U → X)
    (hs : ∀ i u un, us[i]? = some u → us[i + 1]? = some un →
      ∀ x, ∃ x', step i x (e u) (e un) = .ok x' ∧ R i x x' u un = 0)
    (hf : ∀ u, us[us.length - 1]? = some u →
      ∀ x, ∃ x', final x (e u) = .ok x' ∧ R (us.length - 1) x x' u u = 0) (x0 : X) :
    Follows (twoPoint u step final x0) x0 us R :=
  twoPoint_total u us e hent hlen hne step final (fun i x x' u un => R i x x' u un = 0) hs hf x0

/-- A solver that tells the truth about its success. -/
def Honest {X : Type} [Zero X] (root : Root X) : Prop := ∀ r g y, root r g = .ok (y, true) → r y = .ok 0

section
variable {X : Type} [AddCommGroup X] [Module ℝ X]

/-! ### Explicit schemes -/

private theorem euler_aux {U : Type} [AddCommGroup U] [Module ℝ U] (F : DynF X) (G : X → U → X) (e : U → Ctrl)
    (hF : ∀ x u, F x (e u) = .ok (G x u)) (dt : ℝ) (u : UArr) (us : List U) (hent : u.entries = us.map e)
    (hlen : u.vecLen = us.length) (x0 : X) :
    Follows (do
      let xs ← loop (fun ii cur => do
        let c ← getAt u.entries ii
        eulerStep cur c F dt) 0 u.vecLen x0
      return x0 :: xs) x0 us (fun _ x x' u un => eulerRestr x x' u un G dt) := by
  obtain ⟨xs, h1, h2⟩ := euler_total u us e hent hlen (fun x c => eulerStep x c F dt)
    (fun x x' u => x' = x + dt • G x u) (fun u x => ⟨_, by simp only [eulerStep, hF]; rfl, rfl⟩) x0
  refine ⟨xs, h1, h2.mono ?_⟩
  rintro i x x' ⟨w, hw, rfl⟩
  exact ⟨w, hw, by simp [eulerRestr]⟩

/-- C11, Euler, one-dimensional array of controls: the result is a trajectory of `euler_restr`, the residual that the
optimisation uses. The hypothesis on `n` is what `coherent_dimensions` needs to see the array as a tape: two state
entries, or dynamics which refuse an array in place of a number. -/
theorem C11_euler_tape (F : DynF X) (G : X → ℝ → X) (hF : ∀ x a, F x (.num a) = .ok (G x a)) (dt : ℝ) (n : ℕ)
    (x : X0Arr X) (x0 : X) (hx : x = .flat x0 ∨ x = .line x0) (us : List ℝ)
    (hn : n = 2 ∨ F x0 (.row us.length us.get) = .error .typeError) :
    Follows (integrateEuler n x (.vec us) F dt) x0 us (fun _ x x' u un => eulerRestr x x' u un G dt) := by
  unfold integrateEuler
  rw [coherent_tape _ n x0 us F hn x hx]
  exact euler_aux F G .num hF dt (.vec us) us rfl (vecLen_vec us) x0

/-- C11, Euler, two-dimensional array with one row for each step, either not just one row or just one column. -/
theorem C11_euler_table (m : ℕ) (F : DynF X) (G : X → (Fin m → ℝ) → X) (hF : ∀ x c, F x (.row m c) = .ok (G x c)) (dt : ℝ)
    (n : ℕ) (x : X0Arr X) (x0 : X) (hx : x = .flat x0 ∨ x = .line x0) (us : List (Fin m → ℝ))
    (hm : us.length ≠ 1 ∨ m = 1) :
    Follows (integrateEuler n x (.mat m us) F dt) x0 us (fun _ x x' u un => eulerRestr x x' u un G dt) := by
  unfold integrateEuler
  rw [coherent_table _ n m x0 us F x hx]
  exact euler_aux F G (.row m) hF dt (.mat m us) us rfl (vecLen_mat m us hm) x0

private theorem rk4Step_ok {U : Type} (F : DynF X) (G : X → U → X) (e : U → Ctrl)
    (hF : ∀ x u, F x (e u) = .ok (G x u)) (dt : ℝ) (x : X) (u un uc : U) :
    rk4Step x (e u) (e un) F dt (e uc) = .ok (Chords.rk4Step x u un G dt uc) := by
  simp only [rk4Step, hF, bind, Except.bind, pure, Except.pure]
  rfl

private theorem rk4_aux {U : Type} [AddCommGroup U] [Module ℝ U] (F : DynF X) (G : X → U → X) (e : U → Ctrl)
    (hF : ∀ x u, F x (e u) = .ok (G x u)) (hc : ∀ (a b : ℝ) u v, Ctrl.comb a b (e u) (e v) = e (a • u + b • v)) (dt : ℝ)
    (u : UArr) (us : List U) (hne : us ≠ []) (hent : u.entries = us.map e) (hlen : u.vecLen = us.length) (x0 : X) :
    Follows (twoPoint u
      (fun ii cur c c' => do
        let m ← getAt (mids u.entries) ii
        rk4Step cur c c' F dt m)
      (fun cur c => rk4Step cur c c F dt c) x0) x0 us
      (fun _ x x' u un => x' - Chords.rk4Step x u un G dt ((1 / 2 : ℝ) • (u + un))) := by
  apply follows_twoPoint u us e hent hlen hne
  · intro i u un h1 h2 x
    refine ⟨Chords.rk4Step x u un G dt ((1 / 2 : ℝ) • (u + un)), ?_, sub_self _⟩
    simp only [hent, mids_get e hc us i u un h1 h2, bind, Except.bind]
    exact rk4Step_ok F G e hF dt x u un _
  · intro u _ x
    refine ⟨Chords.rk4Step x u u G dt u, rk4Step_ok F G e hF dt x u u u, ?_⟩
    rw [show (1 / 2 : ℝ) • (u + u) = u by module]
    exact sub_self _

/-- C11, Runge-Kutta, one-dimensional array: every state is the Runge-Kutta step of the one before it, with the two
controls at the ends of the step and their mean in its middle. In the last step the last control acts throughout. -/
theorem C11_rk4_tape (F : DynF X) (G : X → ℝ → X) (hF : ∀ x a, F x (.num a) = .ok (G x a)) (dt : ℝ) (n : ℕ)
    (x : X0Arr X) (x0 : X) (hx : x = .flat x0 ∨ x = .line x0) (us : List ℝ) (hne : us ≠ [])
    (hn : n = 2 ∨ F x0 (.row us.length us.get) = .error .typeError) :
    Follows (integrateRk4 n x (.vec us) F dt none) x0 us
      (fun _ x x' u un => x' - Chords.rk4Step x u un G dt ((1 / 2 : ℝ) • (u + un))) := by
  unfold integrateRk4
  rw [coherent_tape _ n x0 us F hn x hx]
  exact rk4_aux F G .num hF comb_num dt (.vec us) us hne rfl (vecLen_vec us) x0

theorem C11_rk4_table (m : ℕ) (F : DynF X) (G : X → (Fin m → ℝ) → X) (hF : ∀ x c, F x (.row m c) = .ok (G x c)) (dt : ℝ)
    (n : ℕ) (x : X0Arr X) (x0 : X) (hx : x = .flat x0 ∨ x = .line x0) (us : List (Fin m → ℝ)) (hne : us ≠ [])
    (hm : us.length ≠ 1 ∨ m = 1) :
    Follows (integrateRk4 n x (.mat m us) F dt none) x0 us
      (fun _ x x' u un => x' - Chords.rk4Step x u un G dt ((1 / 2 : ℝ) • (u + un))) := by
  unfold integrateRk4
  rw [coherent_table _ n m x0 us F x hx]
  exact rk4_aux F G (.row m) hF (comb_row m) dt (.mat m us) us hne rfl (vecLen_mat m us hm) x0

/-- C11, Runge-Kutta with given middle controls: those are used in all steps but the last. -/
theorem C11_rk4_given (F : DynF X) (G : X → ℝ → X) (hF : ∀ x a, F x (.num a) = .ok (G x a)) (dt : ℝ) (n : ℕ)
    (x : X0Arr X) (x0 : X) (hx : x = .flat x0 ∨ x = .line x0) (us ucs : List ℝ) (hne : us ≠ [])
    (hlen : ucs.length + 1 = us.length) (hn : n = 2 ∨ F x0 (.row us.length us.get) = .error .typeError) :
    Follows (integrateRk4 n x (.vec us) F dt (some (ucs.map .num))) x0 us
      (fun i x x' u un => x' - Chords.rk4Step x u un G dt (ucs[i]?.getD u)) := by
  unfold integrateRk4
  rw [coherent_tape _ n x0 us F hn x hx]
  apply follows_twoPoint (.vec us) us .num rfl (vecLen_vec us) hne
  · intro i u un h1 h2 x
    have hi : i < ucs.length := by
      have := (List.getElem?_eq_some_iff.1 h2).1
      omega
    refine ⟨Chords.rk4Step x u un G dt ucs[i], ?_, by rw [List.getElem?_eq_getElem hi]; exact sub_self _⟩
    simp only [getAt_map .num ucs i ucs[i] (List.getElem?_eq_getElem hi), bind, Except.bind]
    exact rk4Step_ok F G .num hF dt x u un _
  · intro u _ x
    refine ⟨Chords.rk4Step x u u G dt u, rk4Step_ok F G .num hF dt x u u u, ?_⟩
    rw [List.getElem?_eq_none (by omega)]
    exact sub_self _

/-- C11, Runge-Kutta with given rows of middle controls: those are used in all steps but the last. -/
theorem C11_rk4_given_table (m : ℕ) (F : DynF X) (G : X → (Fin m → ℝ) → X) (hF : ∀ x c, F x (.row m c) = .ok (G x c)) (dt : ℝ) (n : ℕ)
    (x : X0Arr X) (x0 : X) (hx : x = .flat x0 ∨ x = .line x0) (us ucs : List (Fin m → ℝ)) (hne : us ≠ [])
    (hlen : ucs.length + 1 = us.length) (hm : us.length ≠ 1 ∨ m = 1) :
    Follows (integrateRk4 n x (.mat m us) F dt (some (ucs.map (.row m)))) x0 us
      (fun i x x' u un => x' - Chords.rk4Step x u un G dt (ucs[i]?.getD u)) := by
  unfold integrateRk4
  rw [coherent_table _ n m x0 us F x hx]
  apply follows_twoPoint (.mat m us) us (.row m) rfl (vecLen_mat m us hm) hne
  · intro i u un h1 h2 x
    have hi : i < ucs.length := by
      have := (List.getElem?_eq_some_iff.1 h2).1
      omega
    refine ⟨Chords.rk4Step x u un G dt ucs[i], ?_, by rw [List.getElem?_eq_getElem hi]; exact sub_self _⟩
    simp only [getAt_map (.row m) ucs i ucs[i] (List.getElem?_eq_getElem hi), bind, Except.bind]
    exact rk4Step_ok F G (.row m) hF dt x u un _
  · intro u _ x
    refine ⟨Chords.rk4Step x u u G dt u, rk4Step_ok F G (.row m) hF dt x u u u, ?_⟩
    rw [List.getElem?_eq_none (by omega)]
    exact sub_self _

/-- An initial state of the wrong shape is refused by every integrator. -/
theorem C11_wrong_start (F : DynF X) (dt : ℝ) (n : ℕ) (u : UArr) :
    integrateEuler n .wrong u F dt = .error .valueError ∧
    (∀ uc, integrateRk4 n .wrong u F dt uc = .error .valueError) ∧
    (∀ resid root, integrateImplicit resid root n .wrong u F dt = .error .valueError) ∧
    (∀ residC resid root uc, integrateParab residC resid root n .wrong u F dt uc = .error .valueError) :=
  ⟨rfl, fun _ => rfl, fun _ _ => rfl, fun _ _ _ _ => rfl⟩

/-! ### C12: one step with several controls -/

private theorem loop_first_error (step : ℕ → X → Except IErr X) (x0 : X) (err : IErr) (n ii : ℕ) (hn : n ≠ 0)
    (h : step ii x0 = .error err) : loop step ii n x0 = .error err := by
  cases n with
  | zero => exact absurd rfl hn
  | succ n => simp only [loop, h, bind, Except.bind]

private theorem twoPoint_one_row (m : ℕ) (hm : 2 ≤ m) (c : Fin m → ℝ) (step : ℕ → X → Ctrl → Ctrl → Except IErr X)
    (final : X → Ctrl → Except IErr X) (x0 : X) : twoPoint (.mat m [c]) step final x0 = .error .indexError := by
  have hl : (UArr.mat m [c]).vecLen - 1 ≠ 0 := by
    have : (UArr.mat m [c]).vecLen = m := by
      have hm1 : m ≠ 1 := by omega
      simp [UArr.vecLen, hm1]
    omega
  unfold twoPoint
  rw [loop_first_error _ x0 .indexError _ 0 hl (by simp [UArr.entries, getAt, bind, Except.bind])]
  rfl

/-- C12 does not hold: one step with two or more controls, given as an array of one row, raises `IndexError` in
`integrate_rk4` and in all the implicit integrators, whatever the dynamics and the solver are. -/
theorem C12_one_row_refuted (m : ℕ) (hm : 2 ≤ m) (c : Fin m → ℝ) (F : DynF X) (dt : ℝ) (n : ℕ) (x : X0Arr X) (x0 : X)
    (hx : x = .flat x0 ∨ x = .line x0) :
    (∀ uc, integrateRk4 n x (.mat m [c]) F dt uc = .error .indexError) ∧
    (∀ resid root, integrateImplicit resid root n x (.mat m [c]) F dt = .error .indexError) ∧
    (∀ residC resid root uc, integrateParab residC resid root n x (.mat m [c]) F dt (some uc) = .error .indexError) := by
  refine ⟨fun uc => ?_, fun resid root => ?_, fun residC resid root uc => ?_⟩
  · unfold integrateRk4
    rw [coherent_table _ n m x0 [c] F x hx]
    exact twoPoint_one_row m hm c _ _ x0
  · unfold integrateImplicit
    rw [coherent_table _ n m x0 [c] F x hx]
    exact twoPoint_one_row m hm c _ _ x0
  · unfold integrateParab
    rw [coherent_table _ n m x0 [c] F x hx]
    exact twoPoint_one_row m hm c _ _ x0

/-- C12 does not hold for `integrate_euler` either. It computes the right first step and then raises. -/
theorem C12_euler_one_row_refuted (m : ℕ) (hm : 2 ≤ m) (c : Fin m → ℝ) (F : DynF X) (y : X) (dt : ℝ) (n : ℕ) (x : X0Arr X)
    (x0 : X) (hx : x = .flat x0 ∨ x = .line x0) (hF : F x0 (.row m c) = .ok y) :
    integrateEuler n x (.mat m [c]) F dt = .error .indexError := by
  obtain ⟨k, rfl⟩ : ∃ k, m = k + 2 := ⟨m - 2, by omega⟩
  have hl : (UArr.mat (k + 2) [c]).vecLen = k + 2 := by
    simp [UArr.vecLen]
  unfold integrateEuler
  rw [coherent_table _ n (k + 2) x0 [c] F x hx]
  simp only [hl]
  have h1 : eulerStep x0 (.row (k + 2) c) F dt = .ok (x0 + dt • y) := by simp only [eulerStep, hF]; rfl
  have h0 : getAt (UArr.mat (k + 2) [c]).entries 0 = .ok (.row (k + 2) c) := rfl
  have h2 : getAt (UArr.mat (k + 2) [c]).entries 1 = .error .indexError := rfl
  simp only [loop, h0, h1, h2, bind, Except.bind]

/-- The same with the one step given as a one-dimensional array: when the number of state entries is not two and the
dynamics accept an array of controls, the array counts as one step, and two or more controls raise `IndexError`. -/
theorem C12_flat_refuted (l : List ℝ) (hl : 2 ≤ l.length) (F : DynF X) (y : X) (dt : ℝ) (n : ℕ) (hn : n ≠ 2) (x : X0Arr X)
    (x0 : X) (hx : x = .flat x0 ∨ x = .line x0) (hF : F x0 (.row l.length l.get) = .ok y) :
    integrateEuler n x (.vec l) F dt = .error .indexError ∧
    (∀ uc, integrateRk4 n x (.vec l) F dt uc = .error .indexError) ∧
    (∀ resid root, integrateImplicit resid root n x (.vec l) F dt = .error .indexError) ∧
    (∀ residC resid root uc, integrateParab residC resid root n x (.vec l) F dt (some uc) = .error .indexError) := by
  have key : ∀ {A : Type} (func : X → UArr → Except IErr A),
      coherent func n x (.vec l) F = coherent func n x (.mat l.length [l.get]) F := by
    intro A func
    rcases hx with rfl | rfl <;> simp [coherent, hn, hF]
  obtain ⟨a, b, c⟩ := C12_one_row_refuted l.length hl l.get F dt n x x0 hx
  have e := C12_euler_one_row_refuted l.length hl l.get F y dt n x x0 hx hF
  simp only [integrateEuler, integrateRk4, integrateImplicit, integrateParab] at a b c e ⊢
  simp only [key]
  exact ⟨e, a, b, c⟩

/-- What holds of C12: a single number is one step, and so is an array of one control, in each of the ways of writing
it. -/
theorem C12_single_partial (F : DynF X) (G : X → ℝ → X) (H : X → (Fin 1 → ℝ) → X) (dt : ℝ) (n : ℕ) (x : X0Arr X) (x0 : X)
    (hx : x = .flat x0 ∨ x = .line x0) (a : ℝ) :
    ((∀ x a, F x (.num a) = .ok (G x a)) → (n = 2 ∨ F x0 (.row 1 fun _ => a) = .error .typeError) →
      integrateEuler n x (.scal a) F dt = .ok [x0, x0 + dt • G x0 a] ∧
      integrateEuler n x (.vec [a]) F dt = .ok [x0, x0 + dt • G x0 a]) ∧
    ((∀ x c, F x (.row 1 c) = .ok (H x c)) → n ≠ 2 →
      integrateEuler n x (.scal a) F dt = .ok [x0, x0 + dt • H x0 fun _ => a] ∧
      integrateEuler n x (.vec [a]) F dt = .ok [x0, x0 + dt • H x0 fun _ => a]) ∧
    ((∀ x c, F x (.row 1 c) = .ok (H x c)) →
      integrateEuler n x (.mat 1 [fun _ => a]) F dt = .ok [x0, x0 + dt • H x0 fun _ => a]) := by
  have hg : ([a] : List ℝ).get = fun _ => a := by
    funext i
    simp
  have hscal : ∀ {A : Type} (func : X → UArr → Except IErr A),
      coherent func n x (.scal a) F = coherent func n x (.vec [a]) F := by
    intro A func
    rcases hx with rfl | rfl <;> rfl
  have hscal' : integrateEuler n x (.scal a) F dt = integrateEuler n x (.vec [a]) F dt := by
    unfold integrateEuler; rw [hscal]
  have htab : (∀ x c, F x (.row 1 c) = .ok (H x c)) →
      integrateEuler n x (.mat 1 [fun _ => a]) F dt = .ok [x0, x0 + dt • H x0 fun _ => a] := by
    intro hF
    unfold integrateEuler
    rw [coherent_table _ n 1 x0 _ F x hx]
    simp only [UArr.vecLen, UArr.entries, List.length_singleton, Nat.mul_one, if_true, loop, List.map_cons, List.map_nil,
      getAt, List.getElem?_cons_zero, eulerStep, hF, bind, Except.bind, pure, Except.pure]
  refine ⟨fun hF hn => ?_, fun hF hn => ?_, htab⟩
  · rw [hscal', and_self]
    unfold integrateEuler
    rw [coherent_tape _ n x0 [a] F (by rw [hg]; exact hn) x hx]
    simp only [UArr.vecLen, UArr.entries, List.length_singleton, if_true, loop, List.map_cons, List.map_nil,
      getAt, List.getElem?_cons_zero, eulerStep, hF, bind, Except.bind, pure, Except.pure]
  · rw [hscal', and_self]
    rw [← htab hF]
    unfold integrateEuler
    rcases hx with rfl | rfl <;> simp only [coherent, List.length_singleton, hg, ne_eq, hn, not_false_eq_true, if_true, hF]

/-! ### C75: implicit schemes -/

private theorem implicit_aux {U : Type} [AddCommGroup U] [Module ℝ U] (F : DynF X) (G : X → U → X) (e : U → Ctrl)
    (hF : ∀ x u, F x (e u) = .ok (G x u)) (dt : ℝ) (u : UArr) (us : List U) (hne : us ≠ []) (hent : u.entries = us.map e)
    (hlen : u.vecLen = us.length) (x0 : X) (resid : Resid X) (R : X → X → U → U → X)
    (hres : ∀ xn x u un, resid xn x (e u) (e un) = .ok 0 → R x xn u un = 0) (root : Root X) (hroot : Honest root)
    (hsol : ∀ x u un g, ∃ y, root (fun xn => resid xn x (e u) (e un)) g = .ok (y, true)) :
    Follows (twoPoint u
      (fun _ cur c c' => implicitStep root (fun x_n => resid x_n cur c c') cur c F dt)
      (fun cur c => implicitStep root (fun x_n => resid x_n cur c c) cur c F dt) x0) x0 us
      (fun _ x x' u un => R x x' u un) := by
  have key : ∀ x u un, ∃ x', implicitStep root (fun x_n => resid x_n x (e u) (e un)) x (e u) F dt = .ok x' ∧
      R x x' u un = 0 := by
    intro x u un
    obtain ⟨y, hy⟩ := hsol x u un (x + dt • G x u)
    refine ⟨y, ?_, hres y x u un (hroot _ _ _ hy)⟩
    simp only [implicitStep, eulerStep, hF, bind, Except.bind, pure, Except.pure, hy]
  apply follows_twoPoint u us e hent hlen hne
  · intro i u un _ _ x
    exact key x u un
  · intro u _ x
    exact key x u u

private theorem parab_aux {U : Type} [AddCommGroup U] [Module ℝ U] (F : DynF X) (G : X → U → X) (e : U → Ctrl)
    (hF : ∀ x u, F x (e u) = .ok (G x u)) (dt : ℝ) (u : UArr) (us ucs : List U) (hne : us ≠ [])
    (hucs : ucs.length + 1 = us.length) (hent : u.entries = us.map e) (hlen : u.vecLen = us.length) (x0 : X)
    (residC : Ctrl → Resid X) (resid : Resid X) (R : U → X → X → U → U → X)
    (hres : ∀ uc xn x u un, residC (e uc) xn x (e u) (e un) = .ok 0 → R uc x xn u un = 0)
    (hlast : ∀ xn x u, resid xn x (e u) (e u) = residC (e u) xn x (e u) (e u))
    (root : Root X) (hroot : Honest root)
    (hsol : ∀ uc x u un g, ∃ y, root (fun xn => residC (e uc) xn x (e u) (e un)) g = .ok (y, true)) :
    Follows (twoPoint u
      (fun ii cur c c' => do
        let m ← getAt (ucs.map e) ii
        implicitStep root (fun x_n => residC m x_n cur c c') cur c F dt)
      (fun cur c => implicitStep root (fun x_n => resid x_n cur c c) cur c F dt) x0) x0 us
      (fun i x x' u un => R (ucs[i]?.getD u) x x' u un) := by
  have key : ∀ uc x u un, ∃ x', implicitStep root (fun x_n => residC (e uc) x_n x (e u) (e un)) x (e u) F dt = .ok x' ∧
      R uc x x' u un = 0 := by
    intro uc x u un
    obtain ⟨y, hy⟩ := hsol uc x u un (x + dt • G x u)
    refine ⟨y, ?_, hres uc y x u un (hroot _ _ _ hy)⟩
    simp only [implicitStep, eulerStep, hF, bind, Except.bind, pure, Except.pure, hy]
  apply follows_twoPoint u us e hent hlen hne
  · intro i u un h1 h2 x
    have hi : i < ucs.length := by
      have := (List.getElem?_eq_some_iff.1 h2).1
      omega
    rw [List.getElem?_eq_getElem hi]
    simp only [getAt_map e ucs i ucs[i] (List.getElem?_eq_getElem hi), bind, Except.bind]
    exact key ucs[i] x u un
  · intro u _ x
    rw [List.getElem?_eq_none (by omega)]
    simp only [hlast]
    exact key u x u u

private theorem trapz_res {U : Type} [AddCommGroup U] [Module ℝ U] (F : DynF X) (G : X → U → X) (e : U → Ctrl)
    (hF : ∀ x u, F x (e u) = .ok (G x u)) (dt : ℝ) (xn x : X) (u un : U)
    (h : trapzResid F dt xn x (e u) (e un) = .ok 0) : trapzRestr x xn u un G dt = 0 := by
  simp only [trapzResid, hF, bind, Except.bind, pure, Except.pure] at h
  exact sub_eq_zero.2 (sub_eq_zero.1 (Except.ok.inj h)).symm

private theorem hsp_res {U : Type} [AddCommGroup U] [Module ℝ U] (F : DynF X) (G : X → U → X) (e : U → Ctrl)
    (hF : ∀ x u, F x (e u) = .ok (G x u)) (dt : ℝ) (xn x : X) (u un uc : U)
    (h : hsParabResid F dt (e uc) xn x (e u) (e un) = .ok 0) : hsParabRestr x xn u un G dt uc = 0 := by
  simp only [hsParabResid, hF, bind, Except.bind, pure, Except.pure] at h
  exact Except.ok.inj h

private theorem half {U : Type} [AddCommGroup U] [Module ℝ U] (e : U → Ctrl)
    (hc : ∀ (a b : ℝ) u v, Ctrl.comb a b (e u) (e v) = e (a • u + b • v)) (u un : U) :
    Ctrl.comb (1 / 2) (1 / 2) (e u) (e un) = e ((1 / 2 : ℝ) • (u + un)) := by
  rw [hc, smul_add]

private theorem half_self {U : Type} [AddCommGroup U] [Module ℝ U] (e : U → Ctrl)
    (hc : ∀ (a b : ℝ) u v, Ctrl.comb a b (e u) (e v) = e (a • u + b • v)) (u : U) :
    Ctrl.comb (1 / 2) (1 / 2) (e u) (e u) = e u := by
  rw [hc]; congr 1; module

private theorem jhalf_self {U : Type} [AddCommGroup U] [Module ℝ U] (e : U → Ctrl)
    (hc : ∀ (a b : ℝ) u v, Ctrl.comb a b (e u) (e v) = e (a • u + b • v)) (u : U) :
    Ctrl.comb 0.6 0.4 (e u) (e u) = e u := by
  rw [hc]; congr 1; module

private theorem hs_res {U : Type} [AddCommGroup U] [Module ℝ U] (F : DynF X) (G : X → U → X) (e : U → Ctrl)
    (hF : ∀ x u, F x (e u) = .ok (G x u)) (hc : ∀ (a b : ℝ) u v, Ctrl.comb a b (e u) (e v) = e (a • u + b • v)) (dt : ℝ)
    (xn x : X) (u un : U) (h : hsResid F dt xn x (e u) (e un) = .ok 0) : hsRestr x xn u un G dt = 0 := by
  unfold hsResid at h
  rw [half e hc] at h
  exact hsp_res F G e hF dt xn x u un _ h

/-- C75, first order schemes, one-dimensional array of controls. With a solver that always finds a solution of the
equations of a step and does not lie about it, `integrate_trapz` and `integrate_hs` return a trajectory of the same
residual that the optimisation uses. -/
theorem C75_first_tape (F : DynF X) (G : X → ℝ → X) (hF : ∀ x a, F x (.num a) = .ok (G x a)) (dt : ℝ) (n : ℕ)
    (x : X0Arr X) (x0 : X) (hx : x = .flat x0 ∨ x = .line x0) (us : List ℝ) (hne : us ≠ [])
    (hn : n = 2 ∨ F x0 (.row us.length us.get) = .error .typeError) (root : Root X) (hroot : Honest root) :
    ((∀ x u un g, ∃ y, root (fun xn => trapzResid F dt xn x (.num u) (.num un)) g = .ok (y, true)) →
      Follows (integrateImplicit (trapzResid F dt) root n x (.vec us) F dt) x0 us
        (fun _ x x' u un => trapzRestr x x' u un G dt)) ∧
    ((∀ x u un g, ∃ y, root (fun xn => hsResid F dt xn x (.num u) (.num un)) g = .ok (y, true)) →
      Follows (integrateImplicit (hsResid F dt) root n x (.vec us) F dt) x0 us
        (fun _ x x' u un => hsRestr x x' u un G dt)) := by
  unfold integrateImplicit
  rw [coherent_tape _ n x0 us F hn x hx, coherent_tape _ n x0 us F hn x hx]
  exact ⟨fun hsol => implicit_aux F G .num hF dt (.vec us) us hne rfl (vecLen_vec us) x0 _ _
      (trapz_res F G .num hF dt) root hroot hsol,
    fun hsol => implicit_aux F G .num hF dt (.vec us) us hne rfl (vecLen_vec us) x0 _ _
      (hs_res F G .num hF comb_num dt) root hroot hsol⟩

theorem C75_first_table (m : ℕ) (F : DynF X) (G : X → (Fin m → ℝ) → X) (hF : ∀ x c, F x (.row m c) = .ok (G x c)) (dt : ℝ)
    (n : ℕ) (x : X0Arr X) (x0 : X) (hx : x = .flat x0 ∨ x = .line x0) (us : List (Fin m → ℝ)) (hne : us ≠ [])
    (hm : us.length ≠ 1 ∨ m = 1) (root : Root X) (hroot : Honest root) :
    ((∀ x u un g, ∃ y, root (fun xn => trapzResid F dt xn x (.row m u) (.row m un)) g = .ok (y, true)) →
      Follows (integrateImplicit (trapzResid F dt) root n x (.mat m us) F dt) x0 us
        (fun _ x x' u un => trapzRestr x x' u un G dt)) ∧
    ((∀ x u un g, ∃ y, root (fun xn => hsResid F dt xn x (.row m u) (.row m un)) g = .ok (y, true)) →
      Follows (integrateImplicit (hsResid F dt) root n x (.mat m us) F dt) x0 us
        (fun _ x x' u un => hsRestr x x' u un G dt)) := by
  unfold integrateImplicit
  rw [coherent_table _ n m x0 us F x hx, coherent_table _ n m x0 us F x hx]
  exact ⟨fun hsol => implicit_aux F G (.row m) hF dt (.mat m us) us hne rfl (vecLen_mat m us hm) x0 _ _
      (trapz_res F G (.row m) hF dt) root hroot hsol,
    fun hsol => implicit_aux F G (.row m) hF dt (.mat m us) us hne rfl (vecLen_mat m us hm) x0 _ _
      (hs_res F G (.row m) hF (comb_row m) dt) root hroot hsol⟩

/-- C75, `integrate_hs_parab`: the given middle controls are used in all steps but the last, which has a constant
control. Without `u_c` it raises `KeyError`. -/
theorem C75_hs_parab_tape (F : DynF X) (G : X → ℝ → X) (hF : ∀ x a, F x (.num a) = .ok (G x a)) (dt : ℝ) (n : ℕ)
    (x : X0Arr X) (x0 : X) (hx : x = .flat x0 ∨ x = .line x0) (us ucs : List ℝ) (hne : us ≠ [])
    (hucs : ucs.length + 1 = us.length) (hn : n = 2 ∨ F x0 (.row us.length us.get) = .error .typeError) (root : Root X)
    (hroot : Honest root)
    (hsol : ∀ uc x u un g, ∃ y, root (fun xn => hsParabResid F dt (.num uc) xn x (.num u) (.num un)) g = .ok (y, true)) :
    Follows (integrateParab (hsParabResid F dt) (hsResid F dt) root n x (.vec us) F dt (some (ucs.map .num))) x0 us
      (fun i x x' u un => hsParabRestr x x' u un G dt (ucs[i]?.getD u)) ∧
    integrateParab (hsParabResid F dt) (hsResid F dt) root n x (.vec us) F dt none = .error .keyError := by
  unfold integrateParab
  rw [coherent_tape _ n x0 us F hn x hx, coherent_tape _ n x0 us F hn x hx]
  exact ⟨parab_aux F G .num hF dt (.vec us) us ucs hne hucs rfl (vecLen_vec us) x0 _ _
    (fun uc x x' u un => hsParabRestr x x' u un G dt uc) (fun uc xn x u un => hsp_res F G .num hF dt xn x u un uc)
    (fun xn x u => by unfold hsResid; rw [half_self .num comb_num]) root hroot hsol, rfl⟩

theorem C75_hs_parab_table (m : ℕ) (F : DynF X) (G : X → (Fin m → ℝ) → X) (hF : ∀ x c, F x (.row m c) = .ok (G x c))
    (dt : ℝ) (n : ℕ) (x : X0Arr X) (x0 : X) (hx : x = .flat x0 ∨ x = .line x0) (us ucs : List (Fin m → ℝ)) (hne : us ≠ [])
    (hucs : ucs.length + 1 = us.length) (hm : us.length ≠ 1 ∨ m = 1) (root : Root X) (hroot : Honest root)
    (hsol : ∀ uc x u un g, ∃ y,
      root (fun xn => hsParabResid F dt (.row m uc) xn x (.row m u) (.row m un)) g = .ok (y, true)) :
    Follows (integrateParab (hsParabResid F dt) (hsResid F dt) root n x (.mat m us) F dt (some (ucs.map (.row m)))) x0 us
      (fun i x x' u un => hsParabRestr x x' u un G dt (ucs[i]?.getD u)) := by
  unfold integrateParab
  rw [coherent_table _ n m x0 us F x hx]
  exact parab_aux F G (.row m) hF dt (.mat m us) us ucs hne hucs rfl (vecLen_mat m us hm) x0 _ _
    (fun uc x x' u un => hsParabRestr x x' u un G dt uc) (fun uc xn x u un => hsp_res F G (.row m) hF dt xn x u un uc)
    (fun xn x u => by unfold hsResid; rw [half_self (.row m) (comb_row m)]) root hroot hsol

end

section
variable {V : Type} [AddCommGroup V] [Module ℝ V]

private theorem flip_pair (y z : V × V) (h : (y.1 - z.1, y.2 - z.2) = 0) : z - y = 0 := by
  rw [sub_eq_zero]
  exact (sub_eq_zero.1 (show y - z = 0 from h)).symm

private theorem trapzMod_res {U : Type} [AddCommGroup U] [Module ℝ U] (F : DynF (V × V)) (G : V × V → U → V × V)
    (e : U → Ctrl) (hF : ∀ x u, F x (e u) = .ok (G x u)) (dt : ℝ) (xn x : V × V) (u un : U)
    (h : trapzModResid F dt xn x (e u) (e un) = .ok 0) : trapzModRestr x xn u un G dt = 0 := by
  simp only [trapzModResid, hF, bind, Except.bind, pure, Except.pure] at h
  exact flip_pair _ xn (Except.ok.inj h)

private theorem hsmp_res {U : Type} [AddCommGroup U] [Module ℝ U] (F : DynF (V × V)) (G : V × V → U → V × V)
    (e : U → Ctrl) (hF : ∀ x u, F x (e u) = .ok (G x u)) (dt : ℝ) (xn x : V × V) (u un uc : U)
    (h : hsModParabResid F dt (e uc) xn x (e u) (e un) = .ok 0) : hsModParabRestr x xn u un G dt uc = 0 := by
  simp only [hsModParabResid, hF, bind, Except.bind, pure, Except.pure] at h
  exact flip_pair _ xn (Except.ok.inj h)

private theorem hsm_res {U : Type} [AddCommGroup U] [Module ℝ U] (F : DynF (V × V)) (G : V × V → U → V × V)
    (e : U → Ctrl) (hF : ∀ x u, F x (e u) = .ok (G x u))
    (hc : ∀ (a b : ℝ) u v, Ctrl.comb a b (e u) (e v) = e (a • u + b • v)) (dt : ℝ) (xn x : V × V) (u un : U)
    (h : hsModResid F dt xn x (e u) (e un) = .ok 0) : hsModRestr x xn u un G dt = 0 := by
  unfold hsModResid at h
  rw [half e hc] at h
  exact hsmp_res F G e hF dt xn x u un _ h

private theorem hsjp_res {U : Type} [AddCommGroup U] [Module ℝ U] (F : DynF (V × V)) (G : V × V → U → V × V)
    (e : U → Ctrl) (hF : ∀ x u, F x (e u) = .ok (G x u)) (dt : ℝ) (xn x : V × V) (u un uc : U)
    (h : hsjParabResid F dt (e uc) xn x (e u) (e un) = .ok 0) : hsjParabRestr x xn u un G dt uc = 0 := by
  simp only [hsjParabResid, hF, bind, Except.bind, pure, Except.pure] at h
  exact flip_pair _ xn (Except.ok.inj h)

private theorem hsj_res {U : Type} [AddCommGroup U] [Module ℝ U] (F : DynF (V × V)) (G : V × V → U → V × V)
    (e : U → Ctrl) (hF : ∀ x u, F x (e u) = .ok (G x u))
    (hc : ∀ (a b : ℝ) u v, Ctrl.comb a b (e u) (e v) = e (a • u + b • v)) (dt : ℝ) (xn x : V × V) (u un : U)
    (h : hsjResid F dt xn x (e u) (e un) = .ok 0) : hsjRestr x xn u un G dt = 0 := by
  unfold hsjResid at h
  rw [hc] at h
  exact hsjp_res F G e hF dt xn x u un _ h

/-- C75, second order schemes, one-dimensional array of controls. -/
theorem C75_second_tape (F : DynF (V × V)) (G : V × V → ℝ → V × V) (hF : ∀ x a, F x (.num a) = .ok (G x a)) (dt : ℝ) (n : ℕ)
    (x : X0Arr (V × V)) (x0 : V × V) (hx : x = .flat x0 ∨ x = .line x0) (us : List ℝ) (hne : us ≠ [])
    (hn : n = 2 ∨ F x0 (.row us.length us.get) = .error .typeError) (root : Root (V × V)) (hroot : Honest root) :
    ((∀ x u un g, ∃ y, root (fun xn => trapzModResid F dt xn x (.num u) (.num un)) g = .ok (y, true)) →
      Follows (integrateImplicit (trapzModResid F dt) root n x (.vec us) F dt) x0 us
        (fun _ x x' u un => trapzModRestr x x' u un G dt)) ∧
    ((∀ x u un g, ∃ y, root (fun xn => hsModResid F dt xn x (.num u) (.num un)) g = .ok (y, true)) →
      Follows (integrateImplicit (hsModResid F dt) root n x (.vec us) F dt) x0 us
        (fun _ x x' u un => hsModRestr x x' u un G dt)) ∧
    ((∀ x u un g, ∃ y, root (fun xn => hsjResid F dt xn x (.num u) (.num un)) g = .ok (y, true)) →
      Follows (integrateImplicit (hsjResid F dt) root n x (.vec us) F dt) x0 us
        (fun _ x x' u un => hsjRestr x x' u un G dt)) := by
  unfold integrateImplicit
  rw [coherent_tape _ n x0 us F hn x hx, coherent_tape _ n x0 us F hn x hx, coherent_tape _ n x0 us F hn x hx]
  exact ⟨fun hsol => implicit_aux F G .num hF dt (.vec us) us hne rfl (vecLen_vec us) x0 _ _
      (trapzMod_res F G .num hF dt) root hroot hsol,
    fun hsol => implicit_aux F G .num hF dt (.vec us) us hne rfl (vecLen_vec us) x0 _ _
      (hsm_res F G .num hF comb_num dt) root hroot hsol,
    fun hsol => implicit_aux F G .num hF dt (.vec us) us hne rfl (vecLen_vec us) x0 _ _
      (hsj_res F G .num hF comb_num dt) root hroot hsol⟩

theorem C75_second_table (m : ℕ) (F : DynF (V × V)) (G : V × V → (Fin m → ℝ) → V × V)
    (hF : ∀ x c, F x (.row m c) = .ok (G x c)) (dt : ℝ) (n : ℕ)
    (x : X0Arr (V × V)) (x0 : V × V) (hx : x = .flat x0 ∨ x = .line x0) (us : List (Fin m → ℝ)) (hne : us ≠ [])
    (hm : us.length ≠ 1 ∨ m = 1) (root : Root (V × V)) (hroot : Honest root) :
    ((∀ x u un g, ∃ y, root (fun xn => trapzModResid F dt xn x (.row m u) (.row m un)) g = .ok (y, true)) →
      Follows (integrateImplicit (trapzModResid F dt) root n x (.mat m us) F dt) x0 us
        (fun _ x x' u un => trapzModRestr x x' u un G dt)) ∧
    ((∀ x u un g, ∃ y, root (fun xn => hsModResid F dt xn x (.row m u) (.row m un)) g = .ok (y, true)) →
      Follows (integrateImplicit (hsModResid F dt) root n x (.mat m us) F dt) x0 us
        (fun _ x x' u un => hsModRestr x x' u un G dt)) ∧
    ((∀ x u un g, ∃ y, root (fun xn => hsjResid F dt xn x (.row m u) (.row m un)) g = .ok (y, true)) →
      Follows (integrateImplicit (hsjResid F dt) root n x (.mat m us) F dt) x0 us
        (fun _ x x' u un => hsjRestr x x' u un G dt)) := by
  unfold integrateImplicit
  rw [coherent_table _ n m x0 us F x hx, coherent_table _ n m x0 us F x hx, coherent_table _ n m x0 us F x hx]
  exact ⟨fun hsol => implicit_aux F G (.row m) hF dt (.mat m us) us hne rfl (vecLen_mat m us hm) x0 _ _
      (trapzMod_res F G (.row m) hF dt) root hroot hsol,
    fun hsol => implicit_aux F G (.row m) hF dt (.mat m us) us hne rfl (vecLen_mat m us hm) x0 _ _
      (hsm_res F G (.row m) hF (comb_row m) dt) root hroot hsol,
    fun hsol => implicit_aux F G (.row m) hF dt (.mat m us) us hne rfl (vecLen_mat m us hm) x0 _ _
      (hsj_res F G (.row m) hF (comb_row m) dt) root hroot hsol⟩

/-- C75, `integrate_hs_mod_parab` and `integrate_hsj_parab`. -/
theorem C75_second_parab_tape (F : DynF (V × V)) (G : V × V → ℝ → V × V) (hF : ∀ x a, F x (.num a) = .ok (G x a)) (dt : ℝ)
    (n : ℕ) (x : X0Arr (V × V)) (x0 : V × V) (hx : x = .flat x0 ∨ x = .line x0) (us ucs : List ℝ) (hne : us ≠ [])
    (hucs : ucs.length + 1 = us.length) (hn : n = 2 ∨ F x0 (.row us.length us.get) = .error .typeError)
    (root : Root (V × V)) (hroot : Honest root) :
    ((∀ uc x u un g, ∃ y, root (fun xn => hsModParabResid F dt (.num uc) xn x (.num u) (.num un)) g = .ok (y, true)) →
      Follows (integrateParab (hsModParabResid F dt) (hsModResid F dt) root n x (.vec us) F dt (some (ucs.map .num))) x0 us
        (fun i x x' u un => hsModParabRestr x x' u un G dt (ucs[i]?.getD u))) ∧
    ((∀ uc x u un g, ∃ y, root (fun xn => hsjParabResid F dt (.num uc) xn x (.num u) (.num un)) g = .ok (y, true)) →
      Follows (integrateParab (hsjParabResid F dt) (hsjResid F dt) root n x (.vec us) F dt (some (ucs.map .num))) x0 us
        (fun i x x' u un => hsjParabRestr x x' u un G dt (ucs[i]?.getD u))) := by
  unfold integrateParab
  rw [coherent_tape _ n x0 us F hn x hx, coherent_tape _ n x0 us F hn x hx]
  exact ⟨fun hsol => parab_aux F G .num hF dt (.vec us) us ucs hne hucs rfl (vecLen_vec us) x0 _ _
      (fun uc x x' u un => hsModParabRestr x x' u un G dt uc)
      (fun uc xn x u un => hsmp_res F G .num hF dt xn x u un uc)
      (fun xn x u => by unfold hsModResid; rw [half_self .num comb_num]) root hroot hsol,
    fun hsol => parab_aux F G .num hF dt (.vec us) us ucs hne hucs rfl (vecLen_vec us) x0 _ _
      (fun uc x x' u un => hsjParabRestr x x' u un G dt uc)
      (fun uc xn x u un => hsjp_res F G .num hF dt xn x u un uc)
      (fun xn x u => by unfold hsjResid; rw [jhalf_self .num comb_num]) root hroot hsol⟩

theorem C75_second_parab_table (m : ℕ) (F : DynF (V × V)) (G : V × V → (Fin m → ℝ) → V × V)
    (hF : ∀ x c, F x (.row m c) = .ok (G x c)) (dt : ℝ)
    (n : ℕ) (x : X0Arr (V × V)) (x0 : V × V) (hx : x = .flat x0 ∨ x = .line x0) (us ucs : List (Fin m → ℝ)) (hne : us ≠ [])
    (hucs : ucs.length + 1 = us.length) (hm : us.length ≠ 1 ∨ m = 1)
    (root : Root (V × V)) (hroot : Honest root) :
    ((∀ uc x u un g, ∃ y,
        root (fun xn => hsModParabResid F dt (.row m uc) xn x (.row m u) (.row m un)) g = .ok (y, true)) →
      Follows (integrateParab (hsModParabResid F dt) (hsModResid F dt) root n x (.mat m us) F dt (some (ucs.map (.row m))))
        x0 us (fun i x x' u un => hsModParabRestr x x' u un G dt (ucs[i]?.getD u))) ∧
    ((∀ uc x u un g, ∃ y,
        root (fun xn => hsjParabResid F dt (.row m uc) xn x (.row m u) (.row m un)) g = .ok (y, true)) →
      Follows (integrateParab (hsjParabResid F dt) (hsjResid F dt) root n x (.mat m us) F dt (some (ucs.map (.row m))))
        x0 us (fun i x x' u un => hsjParabRestr x x' u un G dt (ucs[i]?.getD u))) := by
  unfold integrateParab
  rw [coherent_table _ n m x0 us F x hx, coherent_table _ n m x0 us F x hx]
  exact ⟨fun hsol => parab_aux F G (.row m) hF dt (.mat m us) us ucs hne hucs rfl (vecLen_mat m us hm) x0 _ _
      (fun uc x x' u un => hsModParabRestr x x' u un G dt uc)
      (fun uc xn x u un => hsmp_res F G (.row m) hF dt xn x u un uc)
      (fun xn x u => by unfold hsModResid; rw [half_self (.row m) (comb_row m)]) root hroot hsol,
    fun hsol => parab_aux F G (.row m) hF dt (.mat m us) us ucs hne hucs rfl (vecLen_mat m us hm) x0 _ _
      (fun uc x x' u un => hsjParabRestr x x' u un G dt uc)
      (fun uc xn x u un => hsjp_res F G (.row m) hF dt xn x u un uc)
      (fun xn x u => by unfold hsjResid; rw [jhalf_self (.row m) (comb_row m)]) root hroot hsol⟩

end

/-! ### Concrete cases -/

/-- `x' = u`, for a state of one entry; refuses arrays of controls. -/
def pure1 : DynF ℝ := fun _ c => match c with
  | .num a => .ok a
  | .row _ _ => .error .typeError

/-- A solver that finds a zero if there is one and says so, and gives its starting guess back otherwise. -/
noncomputable def ideal {X : Type} [Zero X] : Root X := fun r g => by
  classical
  exact if h : ∃ y, r y = .ok 0 then .ok (h.choose, true) else .ok (g, false)

theorem ideal_honest {X : Type} [Zero X] : Honest (ideal (X := X)) := by
  classical
  intro r g y h
  unfold ideal at h
  split_ifs at h with hy
  · have := congrArg Prod.fst (Except.ok.inj h)
    simp only at this
    rw [← this]
    exact hy.choose_spec
  · have := congrArg Prod.snd (Except.ok.inj h)
    simp at this

theorem ideal_solves {X : Type} [Zero X] (r : X → Except IErr X) (g : X) (h : ∃ y, r y = .ok 0) : ∃ y, ideal r g = .ok (y, true) := by
  classical
  refine ⟨h.choose, ?_⟩
  unfold ideal
  rw [dif_pos h]

/-- The hypotheses of `C11_euler_tape` and `C11_rk4_tape` hold of `x' = u` and three controls. -/
example : Follows (integrateRk4 1 (.flat (0 : ℝ)) (.vec [1, 2, 4]) pure1 1 none) 0 [1, 2, 4]
    (fun _ x x' u un => x' - Chords.rk4Step x u un (fun _ a => a) 1 ((1 / 2 : ℝ) • (u + un))) :=
  C11_rk4_tape pure1 (fun _ a => a) (fun _ _ => rfl) 1 1 _ 0 (.inl rfl) [1, 2, 4] (by simp) (.inr rfl)

/-- The hypotheses of `C75_first_tape` hold of the same dynamics and the ideal solver. -/
example : Follows (integrateImplicit (trapzResid pure1 1) ideal 1 (.flat (0 : ℝ)) (.vec [1, 2, 4]) pure1 1) 0 [1, 2, 4]
    (fun _ x x' u un => trapzRestr x x' u un (fun _ a => a) 1) :=
  (C75_first_tape pure1 (fun _ a => a) (fun _ _ => rfl) 1 1 _ 0 (.inl rfl) [1, 2, 4] (by simp) (.inr rfl) ideal
    ideal_honest).1 (fun x u un g => ideal_solves _ g ⟨x + (1 / 2 : ℝ) • (u + un), by
      simp only [trapzResid, pure1, bind, Except.bind, pure, Except.pure]
      rw [sub_self]⟩)

/-- The hypotheses of `C11_euler_table` hold of a system driven by the sum of two controls. -/
example : Follows (integrateEuler 1 (.line (0 : ℝ)) (.mat 2 [![1, 2], ![3, 5]])
    (fun _ c => match c with
      | .num _ => .error .typeError
      | .row _ c => .ok (∑ i, c i)) 1) 0 [![1, 2], ![3, 5]]
    (fun _ x x' u un => eulerRestr x x' u un (fun _ c => ∑ i, c i) 1) :=
  C11_euler_table 2 _ (fun _ c => ∑ i, c i) (fun _ _ => rfl) 1 1 _ 0 (.inr rfl) _ (.inl (by simp))

/-- The hypotheses of `C75_second_tape` hold of a double integrator. -/
example : Follows (integrateImplicit (hsModResid (fun x c => match c with
      | .num a => .ok (x.2, a)
      | .row _ _ => .error .typeError) 1) ideal 2 (.flat ((0, 1) : ℝ × ℝ)) (.vec [1, 2, 4])
      (fun x c => match c with
      | .num a => .ok (x.2, a)
      | .row _ _ => .error .typeError) 1) (0, 1) [1, 2, 4]
    (fun _ x x' u un => hsModRestr x x' u un (fun x a => (x.2, a)) 1) :=
  (C75_second_tape _ (fun x a => (x.2, a)) (fun _ _ => rfl) 1 2 _ (0, 1) (.inl rfl) [1, 2, 4] (by simp) (.inl rfl) ideal
    ideal_honest).2.1 (fun x u un g => ideal_solves _ g ⟨(x.1 + x.2 + 1 / 6 * (u + 2 * (1 / 2 * u + 1 / 2 * un)),
      x.2 + 1 / 6 * (u + 4 * (1 / 2 * u + 1 / 2 * un) + un)), by
      simp only [hsModResid, hsModParabResid, Ctrl.comb, bind, Except.bind, pure, Except.pure, smul_eq_mul, one_mul, one_pow,
        sub_self]
      rfl⟩)

/-- C75 without the hypothesis that the solver succeeds is false: the flag is not looked at. Here the solver tells the
truth, there is no solution of the step, the integrator returns a trajectory all the same, and it is not one of the
scheme. The dynamics are `x' = x ^ 2 + 1`, the step is `2`, the initial state `0`. -/
theorem C75_refuted : ∃ (root : Root ℝ) (F : DynF ℝ) (G : ℝ → ℝ → ℝ) (us : List ℝ) (xs : List ℝ),
    Honest root ∧ (∀ x a, F x (.num a) = .ok (G x a)) ∧
    integrateImplicit (trapzResid F 2) root 2 (.flat 0) (.vec us) F 2 = .ok xs ∧
    ¬ Follows (.ok xs) 0 us (fun _ x x' u un => trapzRestr x x' u un G 2) := by
  obtain ⟨F, hFd⟩ : ∃ F : DynF ℝ, F = fun x _ => .ok (x ^ 2 + 1) := ⟨_, rfl⟩
  have hno : ∀ x' : ℝ, trapzRestr 0 x' (0 : ℝ) (0 : ℝ) (fun x _ => x ^ 2 + 1) 2 ≠ 0 := by
    intro x' h
    simp only [trapzRestr, smul_eq_mul] at h
    nlinarith [sq_nonneg (2 * x' - 1)]
  have hr : ¬ ∃ y, trapzResid F 2 y 0 (.num 0) (.num 0) = .ok 0 := by
    rintro ⟨y, hy⟩
    exact hno y (trapz_res F (fun x (_ : ℝ) => x ^ 2 + 1) .num (by rw [hFd]; exact fun _ _ => rfl) 2 y 0 0 0 hy)
  have hi : ideal (fun x_n => trapzResid F 2 x_n 0 (.num 0) (.num 0)) (2 : ℝ) = .ok (2, false) := by
    unfold ideal
    rw [dif_neg hr]
  refine ⟨ideal, F, fun x _ => x ^ 2 + 1, [0], [0, 2], ideal_honest, by rw [hFd]; exact fun _ _ => rfl, ?_, ?_⟩
  · unfold integrateImplicit
    rw [coherent_tape _ 2 0 [0] F (.inl rfl) _ (.inl rfl)]
    have hs : eulerStep (0 : ℝ) (.num 0) F 2 = .ok 2 := by
      simp only [eulerStep, hFd, bind, Except.bind, pure, Except.pure]
      norm_num
    have hstep : implicitStep ideal (fun x_n => trapzResid F 2 x_n 0 (.num 0) (.num 0)) 0 (.num 0) F 2 = .ok 2 := by
      simp only [implicitStep, hs, hi, bind, Except.bind, pure, Except.pure]
    have hl : getLast (UArr.vec [0]).entries = .ok (.num 0) := rfl
    have hv : (UArr.vec [(0 : ℝ)]).vecLen - 1 = 0 := rfl
    simp only [twoPoint, hv, loop, hl, bind, Except.bind, pure, Except.pure]
    rw [show ([(0 : ℝ)].getLast (by simp)) = 0 from rfl]
    simp only [hstep]
    rfl
  · rintro ⟨ys, h, -, -, hrun⟩
    have := Except.ok.inj h
    subst this
    obtain ⟨u, hu, h0⟩ := hrun 0 0 2 rfl rfl
    have hu0 : u = 0 := by simpa using hu.symm
    subst hu0
    exact hno 2 h0

end Chords.Integ
